import Verif.Lemmas.Build

/-!
# C79: building metrics does not disturb metrics built before

Variables are metrics that a user has made so far. `Metric w v t`: variable `v` stands for the metric `t`, found by
following the references between the objects.
-/

namespace Verif

theorem step_vars {n : ℕ} {w w' : World} {c : Cmd} (h : step n w c = some w') : ∃ r, w'.vars = w.vars ++ [r] := by
  cases c with
  | new i => simp only [step, Option.some.injEq] at h; exact ⟨_, by rw [← h]⟩
  | combine i cs =>
    simp only [step] at h
    split at h
    · cases h
    · cases h; exact ⟨_, rfl⟩
  | pipe m op =>
    simp only [step] at h
    split at h
    · obtain ⟨p, _, rfl⟩ := Option.map_eq_some_iff.1 h; exact ⟨_, rfl⟩
    · cases h
  | copy m =>
    simp only [step] at h
    split at h
    · obtain ⟨p, _, rfl⟩ := Option.map_eq_some_iff.1 h; exact ⟨_, rfl⟩
    · cases h
  | push m =>
    simp only [step] at h
    split at h
    · obtain ⟨p, _, rfl⟩ := Option.map_eq_some_iff.1 h; exact ⟨_, rfl⟩
    · cases h
  | addWhere m conds =>
    simp only [step] at h
    split at h
    · split at h
      · cases h; exact ⟨_, rfl⟩
      · cases h
    · cases h
  | rename m name =>
    simp only [step] at h
    split at h
    · split at h
      · cases h; exact ⟨_, rfl⟩
      · cases h
    · cases h

theorem step_var {n : ℕ} {w w' : World} {c : Cmd} (h : step n w c = some w') {v r : ℕ} (hv : w.vars[v]? = some r) :
    w'.vars[v]? = some r := by
  obtain ⟨x, e⟩ := step_vars h
  rw [e, List.getElem?_append_left (List.getElem?_eq_some_iff.1 hv).1]
  exact hv

theorem step_keeps {n : ℕ} {w w' : World} {c : Cmd} (h : step n w c = some w') (hp : c.pure) :
    Keeps w.heap w'.heap := by
  cases c with
  | new i =>
    simp only [step, Option.some.injEq] at h
    rw [← h]
    exact keeps_of_prefix (List.prefix_append _ _)
  | combine i cs =>
    simp only [step] at h
    split at h
    · cases h
    · cases h; exact keeps_of_prefix (List.prefix_append _ _)
  | pipe m op =>
    simp only [step] at h
    split at h
    · obtain ⟨p, hp, rfl⟩ := Option.map_eq_some_iff.1 h; exact applyOp_keeps hp
    · cases h
  | copy m =>
    simp only [step] at h
    split at h
    · obtain ⟨p, hp, rfl⟩ := Option.map_eq_some_iff.1 h
      exact keeps_of_prefix (deepCopy_prefix _ _ _ _ _ _ _ hp)
    · cases h
  | push m =>
    simp only [step] at h
    split at h
    · obtain ⟨p, hp, rfl⟩ := Option.map_eq_some_iff.1 h
      exact keeps_of_prefix (pushHeap_prefix _ _ _ _ _ hp)
    · cases h
  | addWhere m conds => exact hp.elim
  | rename m name => exact hp.elim

theorem step_tree {n : ℕ} {w w' : World} {c : Cmd} (h : step n w c = some w') {v : ℕ} {t : MT} (hv : w.Metric v t)
    (hc : t.complete)
    (hu : ∀ m conds name, c = .addWhere m conds ∨ c = .rename m name →
      ∀ rm rv, w.vars[m]? = some rm → w.vars[v]? = some rv → ¬ Within w.heap rv rm) : w'.Metric v t := by
  obtain ⟨r, hr, ht⟩ := hv
  refine ⟨r, step_var h hr, ?_⟩
  cases c with
  | addWhere m conds =>
    simp only [step] at h
    split at h
    · rename_i rm hm
      split at h
      · cases h
        exact set_elsewhere ht (hu m conds "" (Or.inl rfl) rm r hm hr)
      · cases h
    · cases h
  | rename m name =>
    simp only [step] at h
    split at h
    · rename_i rm hm
      split at h
      · cases h
        exact set_elsewhere ht (hu m [] name (Or.inr rfl) rm r hm hr)
      · cases h
    · cases h
  | _ => exact ht.keep (step_keeps h trivial) hc

/-- **C79** Whatever is built after it, a finished metric stays the same, unless one of its own objects gets a
filter or a name. -/
theorem C79_history (n : ℕ) : ∀ (cmds : List Cmd) (w w' : World), run n w cmds = some w' → ∀ (v : ℕ) (t : MT),
    w.Metric v t → t.complete → Untouched n v w cmds → w'.Metric v t
  | [], w, w', h, v, t, hv, _, _ => by
      simp only [run, Option.some.injEq] at h
      rw [← h]
      exact hv
  | c :: cs, w, w', h, v, t, hv, hc, hu => by
      simp only [run] at h
      split at h
      · cases h
      · rename_i w1 h1
        exact C79_history n cs w1 w' h v t (step_tree h1 hv hc hu.1) hc (hu.2 w1 h1)

/-- Pipes, arithmetic, lists, copies and pushed filters change no finished metric. -/
theorem C79_pure_history (n : ℕ) (cmds : List Cmd) (hp : ∀ c ∈ cmds, c.pure) (w w' : World) (h : run n w cmds = some w')
    (v : ℕ) (t : MT) (hv : w.Metric v t) (hc : t.complete) : w'.Metric v t := by
  refine C79_history n cmds w w' h v t hv hc ?_
  clear hv h
  induction cmds generalizing w with
  | nil => trivial
  | cons c cs ih =>
    refine ⟨fun m conds name e => ?_, fun w1 _ => ih (fun x hx => hp x (List.mem_cons_of_mem _ hx)) w1⟩
    have := hp c List.mem_cons_self
    rcases e with rfl | rfl <;> exact this.elim

/-- **C79** `m | op`: the result is the operation with its settings over the metric, whether the operation has been used
before or not. -/
theorem C79_pipe {n : ℕ} {w w' : World} {m op : ℕ} (h : step n w (.pipe m op) = some w') {t : MT} (hm : w.Metric m t)
    (hc : t.complete) {io : Info} {ts : List MT} (ho : w.Metric op (.node io ts)) :
    w'.Metric w.vars.length (.node { io with name := fmt io.tmpl t.name } [t]) := by
  obtain ⟨rm, hrm, htm⟩ := hm
  obtain ⟨ro, hro, hto⟩ := ho
  simp only [step, hrm, hro] at h
  obtain ⟨p, hp, rfl⟩ := Option.map_eq_some_iff.1 h
  exact ⟨p.2, by simp, applyOp_spec hto htm hc hp⟩

/-- It always has a result. -/
theorem C79_pipe_total {n : ℕ} {w : World} {m op : ℕ} {t : MT} (hm : w.Metric m t) {io : Info} {ts : List MT}
    (ho : w.Metric op (.node io ts)) (hop : io.isOp = true) (hn : (MT.node io ts).depth ≤ n) :
    ∃ w', step n w (.pipe m op) = some w' := by
  obtain ⟨rm, hrm, htm⟩ := hm
  obtain ⟨ro, hro, hto⟩ := ho
  obtain ⟨o, hoo, rfl, hcs⟩ := hto.obj
  simp only [step, hrm, hro]
  have : (applyOp n w.heap ro rm).isSome := by
    simp only [applyOp, hoo, hop]
    by_cases hch : o.children = []
    · simp [hch, hoo]
    · obtain ⟨⟨h1, memo1, r1⟩, hx⟩ := Option.isSome_iff_exists.1
        (deepCopy_total w.heap n w.heap [] ro _ (memoOK_nil _) hto hn)
      obtain ⟨o1, ho1, _⟩ := (deepCopy_spec hto hx).2.1.obj
      simp [hch, hx, ho1]
  obtain ⟨p, hp⟩ := Option.isSome_iff_exists.1 this
  exact ⟨_, by rw [hp]; rfl⟩

/-- What the operation is after a pipe: the same settings. -/
theorem pipe_op {n : ℕ} {w w' : World} {m op : ℕ} (h : step n w (.pipe m op) = some w') {t : MT} (hm : w.Metric m t)
    (hc : t.complete) {io : Info} {ts : List MT} (ho : w.Metric op (.node io ts)) :
    ∃ nm ts', w'.Metric op (.node { io with name := nm } ts') := by
  obtain ⟨rm, hrm, htm⟩ := hm
  obtain ⟨ro, hro, hto⟩ := ho
  have hv := step_var h hro
  simp only [step, hrm, hro] at h
  obtain ⟨p, hp, rfl⟩ := Option.map_eq_some_iff.1 h
  have hres := applyOp_spec hto htm hc hp
  obtain ⟨o, hoo, hisop, h1 | h2⟩ := applyOp_cases hp
  · obtain ⟨hch, e, _⟩ := h1
    rw [e] at hres
    exact ⟨_, _, ro, hv, hres⟩
  · obtain ⟨hch, h1, memo1, o1, hcopy, ho1, e⟩ := h2
    obtain ⟨hpre, htree, hfresh⟩ := deepCopy_spec hto hcopy
    refine ⟨io.name, ts, ro, hv, ?_⟩
    show HasTree p.1 ro _
    rw [e]
    refine hto.frame fun s _ o' ho' => set_other ?_ (prefix_get hpre ho')
    have := (List.getElem?_eq_some_iff.1 ho').1
    have := hfresh p.2 (.here _)
    omega

/-- **C79** One operation for many metrics: every result is the operation, with the settings it began with, over its
metric. -/
theorem C79_reuse (n op : ℕ) (io : Info) : ∀ (ms : List (ℕ × MT)) (w w' : World) (ts : List MT) (nm : String),
    w.Metric op (.node { io with name := nm } ts) → (∀ p ∈ ms, w.Metric p.1 p.2 ∧ p.2.complete) →
    run n w (ms.map fun p => .pipe p.1 op) = some w' →
    ∀ (k : ℕ) (p : ℕ × MT), ms[k]? = some p →
      w'.Metric (w.vars.length + k) (.node { io with name := fmt io.tmpl p.2.name } [p.2])
  | [], _, _, _, _, _, _, _, k, p, hk => by simp at hk
  | q :: ms, w, w', ts, nm, ho, hms, h, k, p, hk => by
      simp only [List.map_cons, run] at h
      split at h
      · cases h
      · rename_i w1 h1
        obtain ⟨hq, hqc⟩ := hms q List.mem_cons_self
        obtain ⟨nm', ts', ho'⟩ := pipe_op h1 hq hqc ho
        have hpure : ∀ c ∈ ms.map fun p => Cmd.pipe p.1 op, c.pure := by
          intro c hc
          obtain ⟨x, _, rfl⟩ := List.mem_map.1 hc
          trivial
        have hlen : w1.vars.length = w.vars.length + 1 := by
          obtain ⟨r, e⟩ := step_vars h1
          rw [e]
          simp
        cases k with
        | zero =>
          simp only [List.getElem?_cons_zero, Option.some.injEq] at hk
          subst hk
          exact C79_pure_history n _ hpure w1 w' h _ _ (C79_pipe (io := { io with name := nm }) h1 hq hqc ho) ⟨fun _ => by simp, hqc, trivial⟩
        | succ k =>
          simp only [List.getElem?_cons_succ] at hk
          have := C79_reuse n op io ms w1 w' ts' nm' ho' (fun x hx => by
            obtain ⟨a, b⟩ := hms x (List.mem_cons_of_mem _ hx)
            exact ⟨step_tree h1 a b (fun _ _ _ e => by rcases e with e | e <;> cases e), b⟩) h k p hk
          rw [hlen] at this
          have e : w.vars.length + (k + 1) = w.vars.length + 1 + k := by omega
          rw [e]
          exact this

/-- **C79** `copy.deepcopy(m)` is the same metric and shares no object with any metric before it. -/
theorem C79_copy {n : ℕ} {w w' : World} {m : ℕ} (h : step n w (.copy m) = some w') {t : MT} (hm : w.Metric m t) :
    w'.Metric w.vars.length t ∧
    ∀ u tu, w.Metric u tu → w'.Metric u tu ∧
      ∀ ru rc s, w'.vars[u]? = some ru → w'.vars[w.vars.length]? = some rc →
        Within w'.heap ru s → ¬ Within w'.heap rc s := by
  obtain ⟨rm, hrm, htm⟩ := hm
  have hstep := h
  simp only [step, hrm] at h
  obtain ⟨p, hp, rfl⟩ := Option.map_eq_some_iff.1 h
  obtain ⟨h1, h2, h3⟩ := deepCopy_spec htm hp
  refine ⟨⟨p.2.2, by simp, h2⟩, fun u tu hu => ?_⟩
  obtain ⟨ru, hru, htu⟩ := hu
  have hru' := step_var hstep hru
  refine ⟨⟨ru, hru', htu.mono h1⟩, fun ru' rc s e1 e2 ws wc => ?_⟩
  rw [hru'] at e1
  cases e1
  simp only [List.getElem?_concat_length, Option.some.injEq] at e2
  subst e2
  have hb := ws.back h1 htu
  obtain ⟨v, hv⟩ := hb.hasTree htu
  have := hv.lt
  have := h3 s wc
  omega

/-- It always has a result. -/
theorem C79_copy_total {n : ℕ} {w : World} {m : ℕ} {t : MT} (hm : w.Metric m t) (hn : t.depth ≤ n) :
    ∃ w', step n w (.copy m) = some w' := by
  obtain ⟨rm, hrm, htm⟩ := hm
  obtain ⟨p, hp⟩ := Option.isSome_iff_exists.1 (deepCopy_total w.heap n w.heap [] rm _ (memoOK_nil _) htm hn)
  exact ⟨_, by simp only [step, hrm, hp]; rfl⟩

/-- **C79** `push_filters_to_leaf` gives the metric with its filters at the leaves and leaves all metrics, the one
it is given included, as they are. -/
theorem C79_push {n : ℕ} {w w' : World} {m : ℕ} (h : step n w (.push m) = some w') {t : MT} (hm : w.Metric m t) :
    w'.Metric w.vars.length (t.pushed []) ∧ ∀ u tu, w.Metric u tu → w'.Metric u tu := by
  obtain ⟨rm, hrm, htm⟩ := hm
  have hstep := h
  simp only [step, hrm] at h
  obtain ⟨p, hp, rfl⟩ := Option.map_eq_some_iff.1 h
  refine ⟨⟨p.2, by simp, pushHeap_tree n _ _ _ _ _ htm hp⟩, fun u tu hu => ?_⟩
  obtain ⟨ru, hru, htu⟩ := hu
  exact ⟨ru, step_var hstep hru, htu.mono (pushHeap_prefix _ _ _ _ _ hp)⟩

/-- It always has a result. -/
theorem C79_push_total {n : ℕ} {w : World} {m : ℕ} {t : MT} (hm : w.Metric m t) (hn : t.depth ≤ n) :
    ∃ w', step n w (.push m) = some w' := by
  obtain ⟨rm, hrm, htm⟩ := hm
  obtain ⟨p, hp⟩ := Option.isSome_iff_exists.1 (pushHeap_total n w.heap rm _ htm hn)
  exact ⟨_, by simp only [step, hrm, hp]; rfl⟩

/-- **C79** `m.add_where(conds)`: the metric gets the conditions, and only metrics that contain it change. -/
theorem C79_add_where {n : ℕ} {w w' : World} {m : ℕ} {conds : List String} (h : step n w (.addWhere m conds) = some w')
    {i : Info} {ts : List MT} (hm : w.Metric m (.node i ts)) :
    (∃ wh, (∀ c, c ∈ wh ↔ c ∈ i.wh ∨ c ∈ conds) ∧ w'.Metric m (.node { i with wh := wh } ts)) ∧
    ∀ u tu, w.Metric u tu →
      (∀ ru rm, w.vars[u]? = some ru → w.vars[m]? = some rm → ¬ Within w.heap ru rm) → w'.Metric u tu := by
  obtain ⟨rm, hrm, htm⟩ := hm
  have hstep := h
  obtain ⟨o, ho, rfl, _⟩ := htm.obj
  simp only [step, hrm, ho, Option.some.injEq] at h
  subst h
  constructor
  · refine ⟨addWhere o.info.wh conds, fun c => ?_, rm, step_var hstep hrm, set_info_tree htm ho⟩
    unfold addWhere
    split
    · rename_i e; simp [e]
    · simp
  · rintro u tu ⟨ru, hru, htu⟩ hn
    exact ⟨ru, step_var hstep hru, set_elsewhere htu (hn ru rm hru hrm)⟩

/-- So a filter on a copy leaves the original alone, and a filter on the original the copy. -/
theorem C79_copy_independent {n : ℕ} {w w1 w2 : World} {m : ℕ} {i : Info} {ts : List MT}
    (hm : w.Metric m (.node i ts)) (h1 : step n w (.copy m) = some w1) (conds : List String) :
    (step n w1 (.addWhere w.vars.length conds) = some w2 → w2.Metric m (.node i ts)) ∧
    (step n w1 (.addWhere m conds) = some w2 → w2.Metric w.vars.length (.node i ts)) := by
  obtain ⟨hc, hold⟩ := C79_copy h1 hm
  obtain ⟨hm1, hsep⟩ := hold m _ hm
  constructor
  · intro h2
    refine (C79_add_where h2 hc).2 m _ hm1 fun ru rm hru hrm hw => ?_
    exact hsep ru rm rm hru hrm hw (.here _)
  · intro h2
    refine (C79_add_where h2 hm1).2 w.vars.length _ hc fun ru rm hru hrm hw => ?_
    exact hsep rm ru rm hrm hru (.here _) hw

/-- **C79** A new metric is what it was asked to be. -/
theorem C79_new (n : ℕ) (w : World) (i : Info) :
    ∃ w', step n w (.new i) = some w' ∧ w'.Metric w.vars.length (.node i []) :=
  ⟨_, rfl, w.heap.length, by simp, HasTree.mk (o := ⟨i, []⟩) (by simp) .nil⟩

theorem slotsOf_trees {w : World} : ∀ (cs : List (ℕ ⊕ ℤ)) (ts : List MT),
    List.Forall₂ (fun c t => (∃ v, c = .inl v ∧ w.Metric v t) ∨ ∃ q, c = .inr q ∧ t = .num q) cs ts →
    ∃ ss, slotsOf w.vars cs = some ss ∧ HasTrees w.heap ss ts
  | [], _, h => by cases h; exact ⟨[], rfl, .nil⟩
  | c :: cs, _, .cons (b := t) (l₂ := ts) h hs => by
      obtain ⟨ss, e, hss⟩ := slotsOf_trees cs ts hs
      rcases h with ⟨v, rfl, r, hr, ht⟩ | ⟨q, rfl, rfl⟩
      · exact ⟨.ref r :: ss, by simp [slotsOf, hr, e], .ref ht hss⟩
      · exact ⟨.num q :: ss, by simp [slotsOf, e], .num hss⟩

/-- **C79** Arithmetic, lists and operations with a given child: the result is made of the metrics and numbers it
was given, in their order. -/
theorem C79_combine (n : ℕ) (w : World) (i : Info) (cs : List (ℕ ⊕ ℤ)) (ts : List MT)
    (h : List.Forall₂ (fun c t => (∃ v, c = .inl v ∧ w.Metric v t) ∨ ∃ q, c = .inr q ∧ t = .num q) cs ts) :
    ∃ w', step n w (.combine i cs) = some w' ∧ w'.Metric w.vars.length (.node i ts) := by
  obtain ⟨ss, e, hss⟩ := slotsOf_trees cs ts h
  exact ⟨_, by simp only [step, e]; rfl, w.heap.length, by simp,
    HasTree.mk (o := ⟨i, ss⟩) (by simp) (hss.mono (List.prefix_append _ _))⟩

/-- **C79** `m.set_name(name)`: the metric has the name, and only metrics that contain it change. -/
theorem C79_rename {n : ℕ} {w w' : World} {m : ℕ} {name : String} (h : step n w (.rename m name) = some w')
    {i : Info} {ts : List MT} (hm : w.Metric m (.node i ts)) :
    w'.Metric m (.node { i with name := name } ts) ∧
    ∀ u tu, w.Metric u tu →
      (∀ ru rm, w.vars[u]? = some ru → w.vars[m]? = some rm → ¬ Within w.heap ru rm) → w'.Metric u tu := by
  obtain ⟨rm, hrm, htm⟩ := hm
  have hstep := h
  obtain ⟨o, ho, rfl, _⟩ := htm.obj
  simp only [step, hrm, ho, Option.some.injEq] at h
  subst h
  refine ⟨⟨rm, step_var hstep hrm, set_info_tree htm ho⟩, ?_⟩
  rintro u tu ⟨ru, hru, htu⟩ hn
  exact ⟨ru, step_var hstep hru, set_elsewhere htu (hn ru rm hru hrm)⟩

theorem fmtChars_plain (name : List Char) : ∀ (s : List Char), '{' ∉ s → fmtChars name s = s
  | [], _ => rfl
  | c :: cs, h => by
      have hc : c ≠ '{' := fun e => h (by simp [e])
      have ih := fmtChars_plain name cs (fun e => h (List.mem_cons_of_mem _ e))
      unfold fmtChars
      split
      · rename_i e; cases e; exact absurd rfl hc
      · rename_i e; cases e; rw [ih]
      · rename_i e; cases e

/-- **C79** The name of a result: the name of the metric stands where the template of the operation has `{}`. -/
theorem C79_fmt (pre suf name : String) (hp : '{' ∉ pre.toList) (hs : '{' ∉ suf.toList) :
    fmt (pre ++ "{}" ++ suf) name = pre ++ name ++ suf := by
  have key : ∀ (p : List Char), '{' ∉ p →
      fmtChars name.toList (p ++ '{' :: '}' :: suf.toList) = p ++ (name.toList ++ suf.toList) := by
    intro p
    induction p with
    | nil => intro _; simp [fmtChars, fmtChars_plain _ _ hs]
    | cons c cs ih =>
      intro h
      have hc : c ≠ '{' := fun e => h (by simp [e])
      have ih := ih (fun e => h (List.mem_cons_of_mem _ e))
      rw [List.cons_append]
      unfold fmtChars
      split
      · rename_i e; injection e with e _; exact absurd e hc
      · rename_i e; injection e with e1 e2; subst e1 e2; rw [ih]; rfl
      · rename_i e; cases e
  have e : (pre ++ "{}" ++ suf).toList = pre.toList ++ '{' :: '}' :: suf.toList := by simp
  unfold fmt
  rw [e, key _ hp]
  apply String.ext
  simp

/-! ## Where it fails -/

/-- Two sums and an operation without a child. -/
def exSum (c : String) : Info := ⟨"Sum " ++ c, c, "{}", [], false⟩
/-- An operation. -/
def exOp : Info := ⟨"PercentChange", "", "{} Percent Change", [], true⟩

/-- The first metric an operation is applied to is the operation itself: a filter that is added to that metric is
found in later results of the operation. -/
theorem C79_leak_violation : ∃ w i t, run 9 ⟨[], []⟩
      [.new (exSum "x"), .new (exSum "y"), .new exOp, .pipe 0 2, .addWhere 3 ["z > 0"], .pipe 1 2] = some w ∧
    w.Metric 5 (.node i [t]) ∧ i.wh = ["z > 0"] ∧ exOp.wh = [] := by
  refine ⟨_, _, .node (exSum "y") [], rfl, ⟨_, rfl, .mk rfl (.ref (HasTree.mk (o := ⟨exSum "y", []⟩) rfl .nil) .nil)⟩, ?_, rfl⟩
  rfl

/-- A metric is shared with what is built from it: a filter that is added to it later changes those as well. -/
theorem C79_shared_violation : ∃ w1 w2 i, run 9 ⟨[], []⟩ [.new (exSum "x"), .new exOp, .pipe 0 1] = some w1 ∧
    run 9 w1 [.addWhere 0 ["z > 0"]] = some w2 ∧
    w1.Metric 2 (.node i [.node (exSum "x") []]) ∧
    w2.Metric 2 (.node i [.node { exSum "x" with wh := ["z > 0"] } []]) :=
  ⟨_, _, _, rfl, rfl,
    ⟨_, rfl, .mk rfl (.ref (HasTree.mk (o := ⟨exSum "x", []⟩) rfl .nil) .nil)⟩,
    ⟨_, rfl, .mk rfl (.ref (HasTree.mk (o := ⟨{ exSum "x" with wh := ["z > 0"] }, []⟩) rfl .nil) .nil)⟩⟩

/-- A name that is given to an operation is lost when the operation is applied. -/
theorem C79_name_violation : ∃ w, run 9 ⟨[], []⟩ [.new (exSum "x"), .new { exOp with name := "lift" }, .pipe 0 1] = some w ∧
    ∃ i t, w.Metric 2 (.node i t) ∧ i.name = "x Percent Change" :=
  ⟨_, rfl, _, _, ⟨_, rfl, .mk rfl (.ref (HasTree.mk (o := ⟨exSum "x", []⟩) rfl .nil) .nil)⟩, by decide⟩

/-! ## Examples -/

/-- The hypotheses of `C79_reuse` are met by two sums and an operation. -/
example : ∃ w, run 9 ⟨[], []⟩ [.new (exSum "x"), .new (exSum "y"), .new exOp] = some w ∧
    w.Metric 2 (.node exOp []) ∧ w.Metric 0 (.node (exSum "x") []) ∧ (MT.node (exSum "x") []).complete ∧
    ∃ w', run 9 w [.pipe 0 2, .pipe 1 2] = some w' :=
  ⟨_, rfl, ⟨_, rfl, HasTree.mk (o := ⟨exOp, []⟩) rfl .nil⟩, ⟨_, rfl, HasTree.mk (o := ⟨exSum "x", []⟩) rfl .nil⟩,
    by simp [MT.complete, allComplete, exSum], _, rfl⟩

/-- Pushing the filter of an operation to its child. -/
example : (MT.node { exOp with wh := ["a"] } [.node (exSum "x") []]).pushed []
    = .node exOp [.node { exSum "x" with wh := ["a"] } []] := rfl

end Verif
