import Verif.Spec.MetricList
import Verif.Spec.Example

/-!
# C13 A failing metric in a list does not affect the others
-/

namespace Verif

variable (env : Env) (nm : Naming)

theorem succeeds_iff_named (f : Frame) (sb : List String) (m : M) :
    Succeeds env f sb m = true ↔ ∃ r, namedRun env nm m f sb = .ok r := by
  unfold Succeeds namedRun
  cases h : m.run env f sb with
  | error e => simp
  | ok r => cases r <;> simp

theorem slices_filter (tmpl : Option (String → String)) (ms : List M) (f : Frame)
    (sb : List String) :
    (MList.slices env nm tmpl ms f sb).1
      = (MList.slices env nm tmpl (ms.filter (Succeeds env f sb)) f sb).1 := by
  induction ms with
  | nil => rfl
  | cons m ms ih =>
    have hs := succeeds_iff_named env nm f sb m
    cases hn : namedRun env nm m f sb with
    | ok r =>
      have : Succeeds env f sb m = true := hs.2 ⟨r, hn⟩
      rw [List.filter_cons, if_pos this]
      simp [MList.slices, hn, ih]
    | error e =>
      have : ¬ Succeeds env f sb m = true := fun h => by
        obtain ⟨r, hr⟩ := hs.1 h; rw [hn] at hr; cases hr
      rw [List.filter_cons, if_neg this]
      simp [MList.slices, hn, ih]

theorem slices_eq (tmpl : Option (String → String)) (ms : List M) (f : Frame) (sb : List String) :
    (MList.slices env nm tmpl ms f sb).1
      = ms.filterMap (fun m => match namedRun env nm m f sb with
          | .ok r => some (r.applyTmpl tmpl) | .error _ => none) := by
  induction ms with
  | nil => rfl
  | cons m ms ih =>
    cases hn : namedRun env nm m f sb with
    | ok r => simp [MList.slices, hn, ih]
    | error e => simp [MList.slices, hn, ih]

theorem concatCols_cols : ∀ (rs : List NRes) (r : NRes), concatCols rs = .ok r →
    r.cols = rs.flatMap NRes.cols ∧ ∀ x ∈ rs, x.extra = r.extra
  | [], r, h => by simp [concatCols] at h
  | [x], r, h => by
      simp only [concatCols, Except.ok.injEq] at h
      subst h; simp
  | x :: y :: ys, r, h => by
      rw [concatCols] at h
      cases hc : concatCols (y :: ys) with
      | error e => rw [hc] at h; cases h
      | ok s =>
        simp only [hc] at h
        obtain ⟨h1, h2⟩ := concatCols_cols (y :: ys) s hc
        by_cases he : x.extra = s.extra
        · rw [if_pos he] at h
          simp only [Except.ok.injEq] at h
          subst h
          refine ⟨by simp [h1, List.flatMap_cons], ?_⟩
          intro z hz
          rcases List.mem_cons.1 hz with rfl | hz
          · rfl
          · exact (h2 z hz).trans he.symm
        · rw [if_neg he] at h; cases h

theorem concatCols_ok : ∀ (rs : List NRes), rs ≠ [] → (∀ x ∈ rs, ∀ y ∈ rs, x.extra = y.extra) →
    ∃ r, concatCols rs = .ok r
  | [], h, _ => absurd rfl h
  | [x], _, _ => ⟨x, rfl⟩
  | x :: y :: ys, _, hx => by
      obtain ⟨s, hs⟩ := concatCols_ok (y :: ys) (by simp)
        (fun a ha b hb => hx a (List.mem_cons_of_mem _ ha) b (List.mem_cons_of_mem _ hb))
      have h2 := (concatCols_cols _ _ hs).2 y (by simp)
      have : x.extra = s.extra := (hx x (by simp) y (by simp)).trans h2
      exact ⟨⟨x.extra, x.cols ++ s.cols⟩, by rw [concatCols, hs]; simp [this]⟩

/-- **C13** The failing metrics might as well not be in the list: the result (or the error) is
that of the list of the metrics that succeed. -/
theorem C13_failing_children_ignored (l : MList) (f : Frame) (sb : List String) :
    (l.computeOn env nm f sb).1
      = (MList.computeOn env nm
          { l with children := l.children.filter (Succeeds env (f.query env l.wh) sb) } f sb).1 := by
  unfold MList.computeOn
  simp only
  rw [slices_filter]

/-- **C13** A warning is printed for exactly the failing metrics, in order. -/
theorem C13_warnings (l : MList) (f : Frame) (sb : List String) :
    (l.computeOn env nm f sb).2
      = (l.children.filter (fun m => !Succeeds env (f.query env l.wh) sb m)).map nm.label := by
  unfold MList.computeOn
  simp only
  generalize f.query env l.wh = f'
  induction l.children with
  | nil => rfl
  | cons m ms ih =>
    have hs := succeeds_iff_named env nm f' sb m
    cases hn : namedRun env nm m f' sb with
    | ok r =>
      have : Succeeds env f' sb m = true := hs.2 ⟨r, hn⟩
      simp [MList.slices, hn, ih, this]
    | error e =>
      have : Succeeds env f' sb m = false := by
        cases hb : Succeeds env f' sb m with
        | false => rfl
        | true => obtain ⟨r, hr⟩ := hs.1 hb; rw [hn] at hr; cases hr
      simp [MList.slices, hn, ih, this]

/-- **C13** Without renaming, the result holds exactly the columns of the metrics that succeed,
in order, with the names (under the template) and values each has when computed on its own. -/
theorem C13_columns (l : MList) (hcol : l.columns = []) (f : Frame) (sb : List String) (r : NRes)
    (h : (l.computeOn env nm f sb).1 = .ok r) :
    r.cols = l.children.flatMap (fun m =>
      match namedRun env nm m (f.query env l.wh) sb with
      | .error _ => []
      | .ok own => own.cols.map (fun c => ((l.tmpl.getD id) c.1, c.2))) := by
  unfold MList.computeOn at h
  simp only [hcol] at h
  cases hc : concatCols (MList.slices env nm l.tmpl l.children (f.query env l.wh) sb).1 with
  | error e => rw [hc] at h; cases h
  | ok s =>
    rw [hc] at h
    simp only [renameCols, if_true, Except.ok.injEq] at h
    subst h
    rw [(concatCols_cols _ _ hc).1, slices_eq]
    generalize f.query env l.wh = f'
    induction l.children with
    | nil => rfl
    | cons m ms ih =>
      rw [List.flatMap_cons, ← ih]
      cases hn : namedRun env nm m f' sb with
      | error e => simp [hn]
      | ok own =>
        simp only [hn, List.filterMap_cons, List.flatMap_cons]
        congr 1
        cases l.tmpl <;> simp [NRes.applyTmpl]

/-- **C13** The list succeeds whenever some metric does and their index levels agree, no
matter what the others raise. -/
theorem C13_succeeds (l : MList) (hcol : l.columns = []) (f : Frame) (sb : List String)
    (hsome : ∃ m ∈ l.children, Succeeds env (f.query env l.wh) sb m = true)
    (hext : ∀ m ∈ l.children, ∀ m' ∈ l.children, ∀ r r',
      namedRun env nm m (f.query env l.wh) sb = .ok r →
      namedRun env nm m' (f.query env l.wh) sb = .ok r' → r.extra = r'.extra) :
    ∃ r, (l.computeOn env nm f sb).1 = .ok r := by
  have hex : ∀ (t : Option (String → String)) (r : NRes), (r.applyTmpl t).extra = r.extra := by
    intro t r; cases t <;> rfl
  obtain ⟨r, hr⟩ := concatCols_ok (MList.slices env nm l.tmpl l.children (f.query env l.wh) sb).1
    (by
      obtain ⟨m, hm, hs⟩ := hsome
      obtain ⟨r, hr⟩ := (succeeds_iff_named env nm _ sb m).1 hs
      rw [slices_eq]
      intro h0
      have : (r.applyTmpl l.tmpl) ∈ ([] : List NRes) := by
        rw [← h0]; exact List.mem_filterMap.2 ⟨m, hm, by rw [hr]⟩
      cases this)
    (by
      intro x hx y hy
      rw [slices_eq] at hx hy
      obtain ⟨m, hm, hx⟩ := List.mem_filterMap.1 hx
      obtain ⟨m', hm', hy⟩ := List.mem_filterMap.1 hy
      cases h1 : namedRun env nm m (f.query env l.wh) sb with
      | error e => rw [h1] at hx; cases hx
      | ok a =>
        cases h2 : namedRun env nm m' (f.query env l.wh) sb with
        | error e => rw [h2] at hy; cases hy
        | ok b =>
          rw [h1] at hx; rw [h2] at hy
          simp only [Option.some.injEq] at hx hy
          subst hx; subst hy
          rw [hex, hex]
          exact hext m hm m' hm' a b h1 h2)
  exact ⟨r, by unfold MList.computeOn; simp [hr, hcol, renameCols]⟩

/-- **C13** Renaming: with names given, either the number of names is the number of columns of
the result without renaming, and then the `i`-th column gets the `i`-th name and keeps its values,
or the call raises. -/
theorem C13_rename (l : MList) (hcol : l.columns ≠ []) (f : Frame) (sb : List String) (r : NRes)
    (h : (MList.computeOn env nm { l with columns := [] } f sb).1 = .ok r) :
    (l.columns.length ≠ r.cols.length → (l.computeOn env nm f sb).1 = .error .valueError) ∧
    (l.columns.length = r.cols.length →
      ∃ r', (l.computeOn env nm f sb).1 = .ok r' ∧ r'.extra = r.extra ∧
        r'.cols.map Prod.fst = l.columns ∧ r'.cols.map Prod.snd = r.cols.map Prod.snd) := by
  have hr : concatCols (MList.slices env nm l.tmpl l.children (f.query env l.wh) sb).1 = .ok r := by
    unfold MList.computeOn at h
    simp only [renameCols, if_true] at h
    cases hc : concatCols (MList.slices env nm l.tmpl l.children (f.query env l.wh) sb).1 with
    | error e => rw [hc] at h; cases h
    | ok s => rw [hc] at h; exact h
  have hz1 : ∀ (ns : List String) (cs : List NCol), ns.length = cs.length →
      (List.zipWith (fun n (c : NCol) => (n, c.2)) ns cs).map Prod.fst = ns ∧
      (List.zipWith (fun n (c : NCol) => (n, c.2)) ns cs).map Prod.snd = cs.map Prod.snd := by
    intro ns
    induction ns with
    | nil => intro cs hl; cases cs with
      | nil => simp
      | cons c cs => simp at hl
    | cons n ns ih => intro cs hl; cases cs with
      | nil => simp at hl
      | cons c cs =>
        have := ih cs (by simpa using hl)
        simp [this.1, this.2]
  constructor
  · intro hne
    unfold MList.computeOn
    simp only [hr, renameCols, if_neg hcol]
    rw [if_pos (fun h => hne h.symm)]
  · intro he
    refine ⟨{ r with cols := List.zipWith (fun n c => (n, c.2)) l.columns r.cols }, ?_, rfl, ?_, ?_⟩
    · unfold MList.computeOn
      simp only [hr, renameCols, if_neg hcol]
      rw [if_neg (fun h => h he.symm)]
    · exact (hz1 _ _ he).1
    · exact (hz1 _ _ he).2

/-- If the list fails without renaming it fails with renaming. -/
theorem C13_rename_error (l : MList) (f : Frame) (sb : List String) (e : Err)
    (h : (MList.computeOn env nm { l with columns := [] } f sb).1 = .error e) :
    (l.computeOn env nm f sb).1 = .error e := by
  unfold MList.computeOn at h ⊢
  simp only [renameCols, if_true] at h
  cases hc : concatCols (MList.slices env nm l.tmpl l.children (f.query env l.wh) sb).1 with
  | error e' => rw [hc] at h; simpa [hc] using h
  | ok s => rw [hc] at h; cases h

/-- **C13** The same for a list inside a larger metric tree. -/
theorem C13_nested_list (ms : List M) (wh : List String) (f : Frame) (sb : List String) :
    (M.list ms wh).run env f sb
      = (M.list (ms.filter (Succeeds env (f.query env wh) sb)) wh).run env f sb := by
  simp only [M.run]
  congr 1
  generalize f.query env wh = f'
  induction ms with
  | nil => rfl
  | cons m ms ih =>
    cases hm : m.run env f' sb with
    | ok r =>
      have : Succeeds env f' sb m = true := by simp [Succeeds, hm]
      rw [List.filter_cons, if_pos this]
      simp [runAll, hm, ih]
    | error e =>
      have : ¬ Succeeds env f' sb m = true := by simp [Succeeds, hm]
      rw [List.filter_cons, if_neg this]
      simp [runAll, hm, ih]

/-- Column names for the example. -/
def exNaming : Naming := ⟨fun _ => "m", fun _ i => if i = 0 then "c0" else "c1"⟩

/-- A list whose middle metric raises (no column `nope`): the other two are returned, a warning
is printed; two new names are accepted, three are refused. -/
example :
    MList.computeOn exEnv exNaming
      ⟨[.leaf (.sum "x") [], .leaf (.sum "nope") [], .leaf (.count "x") []], none, [], []⟩ exFrame []
      = (.ok ⟨[], [("c0", [([], .fin 12)]), ("c0", [([], .fin 4)])]⟩, ["m"]) ∧
    (MList.computeOn exEnv exNaming
      ⟨[.leaf (.sum "x") [], .leaf (.sum "nope") [], .leaf (.count "x") []], none, ["a", "b"], []⟩
      exFrame []).1 = .ok ⟨[], [("a", [([], .fin 12)]), ("b", [([], .fin 4)])]⟩ ∧
    (MList.computeOn exEnv exNaming
      ⟨[.leaf (.sum "x") [], .leaf (.sum "nope") [], .leaf (.count "x") []], none, ["a", "b", "c"], []⟩
      exFrame []).1 = .error .valueError := by
  refine ⟨by decide +kernel, by decide +kernel, by decide +kernel⟩

end Verif
