import Verif.Spec.MHColumns
import Verif.Props.Comparison
import Verif.Props.SqlColumns

/-!
# C82: MH compares each ratio's own numerator and denominator
-/

namespace Verif

/-! ## What MH accepts -/

/-- **C82** Of the library's operators only division passes the check. -/
theorem C82_accepts_op (op : ROp) (h : ∀ f, op ≠ .user f) (b : Bool) :
    checkIsRatio (.comp op) b = true ↔ op = .div := by
  cases op with
  | user f => exact absurd rfl (h f)
  | add | sub | mul | neg | div | pow => simp [checkIsRatio, ROp.app2] <;> norm_num

/-- **C82** A list passes iff every member is a composite that passes itself; lists in lists do not pass. -/
theorem C82_accepts_list (ms : List RMetric) :
    checkIsRatio (.list ms) true = true ↔ ∀ m ∈ ms, ∃ op, m = .comp op ∧ checkIsRatio m false = true := by
  have hm : ∀ m : RMetric, checkIsRatio m false = true → ∃ op, m = .comp op := by
    intro m hm
    cases m with
    | comp op => exact ⟨op, rfl⟩
    | list ms => simp [checkIsRatio] at hm
    | other => simp [checkIsRatio] at hm
  have : ∀ ms : List RMetric, checkAllRatios ms = true ↔ ∀ m ∈ ms, ∃ op, m = .comp op ∧ checkIsRatio m false = true := by
    intro ms
    induction ms with
    | nil => simp [checkAllRatios]
    | cons m ms ih =>
      rw [checkAllRatios, Bool.and_eq_true, ih]
      constructor
      · rintro ⟨h1, h2⟩ x hx
        rcases List.mem_cons.1 hx with rfl | hx
        · exact ⟨(hm x h1).choose, (hm x h1).choose_spec, h1⟩
        · exact h2 x hx
      · intro h
        exact ⟨(h m (by simp)).choose_spec.2, fun x hx => h x (by simp [hx])⟩
  rw [checkIsRatio]
  exact this ms

/-- **C82** (violated) A function that is not a division passes if it maps (2, 2) to 1. -/
theorem C82_accepts_violation : checkIsRatio (.comp (.user fun x y => x - y + 1)) true = true ∧
    ∃ x y : ℚ, x - y + 1 ≠ x / y := by
  refine ⟨by simp [checkIsRatio, ROp.app2], 4, 2, by norm_num⟩

/-! ## On DataFrames -/

section
variable {S D G K : Type} [DecidableEq S] [DecidableEq D] [DecidableEq G] [Field K] [LinearOrder K]

theorem pyMH_eq_finish (b : D) (incl : Bool) (t : MHTab S D G K) :
    pyMH b incl t = if (mhBase b t).isEmpty then none else some (mhFinish b incl (mhJoin b t)) := rfl

/-- The two columns as a table with names. -/
theorem frameBase_pairs (b : D) (n d : Txt) (t : MHTab S D G K) :
    frameBase b ⟨[n, d], t.map fun r => (r.1, [r.2.1, r.2.2])⟩ =
      (mhBase b t).map fun q => (q.1, [q.2.1, q.2.2]) := by
  unfold frameBase mhBase
  simp only [List.filterMap_map, List.map_filterMap]
  apply List.filterMap_congr
  intro r _
  by_cases h : r.1.2.1 = b <;> simp [h]

theorem lookup_map_pair {A B C : Type} [BEq A] [LawfulBEq A] (f : B → C) (l : List (A × B)) (a : A) :
    (l.map fun q => (q.1, f q.2)).lookup a = (l.lookup a).map f := by
  induction l with
  | nil => rfl
  | cons x xs ih =>
    rw [List.map_cons, List.lookup_cons, List.lookup_cons, ih]
    cases a == x.1 <;> rfl

theorem suffix_ne (n : Txt) : n ≠ n ++ mhSuffix := by
  intro h
  have := congrArg List.length h
  rw [List.length_append] at this
  have h0 : mhSuffix.length = 5 := by decide
  omega

/-- `compute_mh` on the table of two columns. -/
theorem computeMH_pairs (b : D) (incl : Bool) (r : MHRatio) (t : MHTab S D G K)
    (h1 : r.numer.name ≠ r.denom.name) (h2 : r.numer.name ≠ r.denom.name ++ mhSuffix)
    (h3 : r.denom.name ≠ r.numer.name ++ mhSuffix) :
    computeMH b incl r ⟨[r.numer.name, r.denom.name], t.map fun x => (x.1, [x.2.1, x.2.2])⟩ =
      (pyMH b incl t).map fun res => (r.name, res) := by
  rw [pyMH_eq_finish]
  unfold computeMH
  rw [frameBase_pairs]
  simp only [List.isEmpty_map]
  by_cases hb : (mhBase b t).isEmpty = true
  · simp [hb]
  · rw [if_neg hb, if_neg hb]
    have e : r.numer.name ++ mhSuffix ≠ r.denom.name ++ mhSuffix := by
      intro h; exact h1 (List.append_cancel_right h)
    have s1 := suffix_ne r.numer.name
    have s2 := suffix_ne r.denom.name
    have hh : (frameJoin b (⟨[r.numer.name, r.denom.name], t.map fun x => (x.1, [x.2.1, x.2.2])⟩ :
        MHFrame (S × D × G) K)).header =
        [r.numer.name, r.denom.name, r.numer.name ++ mhSuffix, r.denom.name ++ mhSuffix] := rfl
    have p1 : pickCol [r.numer.name, r.denom.name, r.numer.name ++ mhSuffix, r.denom.name ++ mhSuffix]
        r.numer.name = some 0 := by
      unfold pickCol
      rw [if_pos] <;> simp [List.count_cons, List.idxOf?, List.findIdx?_cons, h1.symm, s1.symm, h2.symm]
    have p2 : pickCol [r.numer.name, r.denom.name, r.numer.name ++ mhSuffix, r.denom.name ++ mhSuffix]
        r.denom.name = some 1 := by
      unfold pickCol
      rw [if_pos] <;> simp [List.count_cons, List.idxOf?, List.findIdx?_cons, h1, s2.symm, h3.symm]
    have p3 : pickCol [r.numer.name, r.denom.name, r.numer.name ++ mhSuffix, r.denom.name ++ mhSuffix]
        (r.numer.name ++ mhSuffix) = some 2 := by
      unfold pickCol
      rw [if_pos] <;> simp only [List.count_cons, List.count_nil, List.idxOf?, List.findIdx?_cons, List.findIdx?_nil,
        beq_iff_eq, s1, h3, e.symm, if_true, if_false, beq_self_eq_true] <;> simp [s1, h3, e.symm]
    have p4 : pickCol [r.numer.name, r.denom.name, r.numer.name ++ mhSuffix, r.denom.name ++ mhSuffix]
        (r.denom.name ++ mhSuffix) = some 3 := by
      unfold pickCol
      rw [if_pos] <;> simp only [List.count_cons, List.count_nil, List.idxOf?, List.findIdx?_cons, List.findIdx?_nil,
        beq_iff_eq, s2, h2, e, if_true, if_false, beq_self_eq_true] <;> simp [s2, h2, e]
    rw [hh, p1, p2, p3, p4]
    simp only [Option.map_some, Option.some.injEq, Prod.mk.injEq, true_and]
    congr 1
    unfold frameJoin mhJoin
    rw [frameBase_pairs]
    simp only [List.map_map]
    apply List.map_congr_left
    intro x _
    simp only [Function.comp_apply, Prod.mk.injEq, true_and]
    rw [lookup_map_pair (fun q : Option K × Option K => [q.1, q.2])]
    cases hl : (mhBase b t).lookup (x.1.1, x.1.2.2) with
    | none => simp
    | some q => simp

/-- **C82** On a DataFrame, of a ratio or a list of ratios: the result has one column per ratio, in their order and under
their names, and each is the Mantel-Haenszel comparison of the ratio's own numerator and denominator. -/
theorem C82_dataframe_partial (val : MHLeaf → List String → S × D × G → Option K) (keys : MHRatio → List (S × D × G))
    (mhWh : List String) (b : D) (incl : Bool) (c : MHChild)
    (hn : ∀ r ∈ c.ratios, r.numer.name ≠ r.denom.name ∧ r.numer.name ≠ r.denom.name ++ mhSuffix ∧
      r.denom.name ≠ r.numer.name ++ mhSuffix) :
    computeMHAll val keys mhWh b incl c = c.ratios.mapM fun r =>
      (pyMH b incl (ownPairs val keys mhWh c.listWh r)).map fun res => (r.name, res) := by
  have aux : ∀ rs : List MHRatio, (∀ r ∈ rs, r ∈ c.ratios) →
      (rs.mapM fun r => computeMH b incl r (mhChildFrame val keys mhWh c r)) =
        rs.mapM fun r => (pyMH b incl (ownPairs val keys mhWh c.listWh r)).map fun res => (r.name, res) := by
    intro rs
    induction rs with
    | nil => intro _; rfl
    | cons r rs ih =>
      intro h
      rw [List.mapM_cons, List.mapM_cons, ih (fun x hx => h x (by simp [hx]))]
      obtain ⟨h1, h2, h3⟩ := hn r (h r (by simp))
      have := computeMH_pairs b incl r (ownPairs val keys mhWh c.listWh r) h1 h2 h3
      have e : mhChildFrame val keys mhWh c r = ⟨[r.numer.name, r.denom.name],
          (ownPairs val keys mhWh c.listWh r).map fun x => (x.1, [x.2.1, x.2.2])⟩ := by
        unfold mhChildFrame ownPairs mhConds
        rw [List.map_map]
        rfl
      rw [e, this]
  exact aux c.ratios (fun _ h => h)

/-- **C82** …whose numbers are the textbook ones: in the column of a ratio without missing values, every condition that
has a row in a slice (other than the baseline, unless it is asked for) gets the Mantel-Haenszel value over the strata of
the ratio's own numerators and denominators. -/
theorem C82_value_partial (val : MHLeaf → List String → S × D × G → Option K) (keys : MHRatio → List (S × D × G))
    (mhWh : List String) (b : D) (incl : Bool) (c : MHChild)
    (hn : ∀ r ∈ c.ratios, r.numer.name ≠ r.denom.name ∧ r.numer.name ≠ r.denom.name ++ mhSuffix ∧
      r.denom.name ≠ r.numer.name ++ mhSuffix)
    (res : List (Txt × DTab S D K)) (h : computeMHAll val keys mhWh b incl c = some res)
    (i : Nat) (r : MHRatio) (hi : c.ratios[i]? = some r)
    (hv : ∀ x ∈ ownPairs val keys mhWh c.listWh r, ∃ n m, x.2 = (some n, some m)) :
    ∃ tab, res[i]? = some (r.name, tab) ∧ ∀ (s : S) (d : D) (x : Option K),
      ((s, d), x) ∈ tab ↔ (incl = true ∨ d ≠ b) ∧ (∃ g, (s, d, g) ∈ keys r) ∧
        x = if ((strataOf (ownPairs val keys mhWh c.listWh r) b s d).map fun y => y.b * y.c / (y.c + y.d)).sum = 0
          then none else some (mhValue (strataOf (ownPairs val keys mhWh c.listWh r) b s d)) := by
  rw [C82_dataframe_partial val keys mhWh b incl c hn] at h
  have aux : ∀ (rs : List MHRatio) (res : List (Txt × DTab S D K)) (i : Nat),
      (rs.mapM fun r => (pyMH b incl (ownPairs val keys mhWh c.listWh r)).map fun res => (r.name, res)) = some res →
      rs[i]? = some r → ∃ tab, res[i]? = some (r.name, tab) ∧
        pyMH b incl (ownPairs val keys mhWh c.listWh r) = some tab := by
    intro rs
    induction rs with
    | nil => intro res i _ hi; simp at hi
    | cons r0 rs ih =>
      intro res i h hi
      rw [List.mapM_cons] at h
      cases h1 : pyMH b incl (ownPairs val keys mhWh c.listWh r0) with
      | none => rw [h1] at h; cases h
      | some t0 =>
        rw [h1] at h
        cases h2 : (rs.mapM fun r => (pyMH b incl (ownPairs val keys mhWh c.listWh r)).map fun res => (r.name, res)) with
        | none => rw [h2] at h; cases h
        | some ts =>
          rw [h2] at h
          cases h
          cases i with
          | zero =>
            simp only [List.getElem?_cons_zero, Option.some.injEq] at hi ⊢
            subst hi
            exact ⟨t0, rfl, h1⟩
          | succ i =>
            simp only [List.getElem?_cons_succ] at hi ⊢
            exact ih ts i h2 hi
  obtain ⟨tab, ht, hp⟩ := aux c.ratios res i h hi
  refine ⟨tab, ht, fun s d x => ?_⟩
  rw [C35_value b incl _ hv tab hp s d x]
  have : (∃ g v, ((s, d, g), v) ∈ ownPairs val keys mhWh c.listWh r) ↔ ∃ g, (s, d, g) ∈ keys r := by
    unfold ownPairs
    constructor
    · rintro ⟨g, v, hm⟩
      obtain ⟨k, hk, e⟩ := List.mem_map.1 hm
      cases e
      exact ⟨g, hk⟩
    · rintro ⟨g, hg⟩
      exact ⟨g, _, List.mem_map.2 ⟨_, hg, rfl⟩⟩
  rw [this]

/-- **C82** (violated if the names clash) `Sum('x', where='a') / Sum('x')`: both are called `sum(x)`, so the frame has
no single column for the numerator, whatever the numbers are. The same happens with a denominator called like the
numerator followed by `_base`. -/
theorem C82_dataframe_violation (val : MHLeaf → List String → S × D × G → Option K)
    (keys : MHRatio → List (S × D × G)) (mhWh : List String) (b : D) (incl : Bool) (c : MHChild) (r : MHRatio)
    (h : r.numer.name = r.denom.name ∨ r.denom.name = r.numer.name ++ mhSuffix) (hr : c = .one r) :
    computeMHAll val keys mhWh b incl c = none := by
  subst hr
  unfold computeMHAll
  simp only [MHChild.ratios, List.mapM_cons, List.mapM_nil]
  have : computeMH b incl r (mhChildFrame val keys mhWh (.one r) r) = none := by
    unfold computeMH
    split
    · rfl
    · have hh : (frameJoin b (mhChildFrame val keys mhWh (.one r) r)).header =
          [r.numer.name, r.denom.name, r.numer.name ++ mhSuffix, r.denom.name ++ mhSuffix] := rfl
      simp only [hh]
      have : pickCol [r.numer.name, r.denom.name, r.numer.name ++ mhSuffix, r.denom.name ++ mhSuffix]
          r.denom.name = none := by
        unfold pickCol
        rw [if_neg]
        have s2 := suffix_ne r.denom.name
        rcases h with h | h
        · rw [h]
          simp [List.count_cons, s2.symm]
        · rw [← h]
          have s1 := suffix_ne r.numer.name
          rw [← h] at s1
          simp [List.count_cons, s1, s2.symm]
      simp only [this]
      split <;> simp_all
  rw [this]
  rfl

end

/-! ## In a query -/

/-- Filters that apply to the whole query are not repeated. -/
theorem localFilter_glob (wh loc glob : List String) (hwh : ∀ w ∈ wh, w ∈ glob) (hnd : loc.Nodup)
    (hl : ∀ w ∈ loc, w ∉ glob) : localFilter wh loc glob = loc := by
  unfold localFilter
  induction wh with
  | nil =>
    rw [List.nil_append, hnd.dedup, List.filter_eq_self]
    intro a ha
    simpa using hl a ha
  | cons x xs ih =>
    have ih' := ih (fun w h => hwh w (by simp [h]))
    by_cases hx : x ∈ xs ++ loc
    · rw [List.cons_append, List.dedup_cons_of_mem hx, ih']
    · rw [List.cons_append, List.dedup_cons_of_notMem hx, List.filter_cons_of_neg, ih']
      simpa using hwh x (by simp)

theorem mem_localFilter (wh loc glob : List String) (w : String) :
    w ∈ localFilter wh loc glob ↔ (w ∈ wh ∨ w ∈ loc) ∧ w ∉ glob := by
  unfold localFilter
  simp [List.mem_filter, List.mem_dedup]

theorem localFilter_nodup (wh loc glob : List String) : (localFilter wh loc glob).Nodup :=
  (List.nodup_dedup _).filter _

/-- Invariant: the columns are among `U`, and have unique names and expressions. -/
structure InU (U cols : List SCol) : Prop where
  ok : ColsOk cols
  sub : ∀ d ∈ cols, d ∈ U

theorem InU.single {U : List SCol} (hU : NoConflict U) {c : SCol} (hc : c ∈ U) : InU U [c] := by
  obtain ⟨h1, h2, h3⟩ := hU.1 c hc
  refine ⟨⟨by simpa using h1, by simp, ?_⟩, by simpa using hc⟩
  obtain ⟨a, ha⟩ := Option.ne_none_iff_exists'.1 h3
  refine ⟨[a], ?_, by simp⟩
  unfold aliasesOf
  simp [ha]

theorem addColumn_inU {U cols : List SCol} (hU : NoConflict U) (h : InU U cols) {c : SCol} (hc : c ∈ U) :
    ∃ cols' c', addColumn cols c = some (cols', c') ∧ InU U cols' ∧ cols <+: cols' ∧
      c.expr ∈ cols'.map SCol.expr := by
  have hsome := C22_add_terminates cols c
    (by obtain ⟨as, has, _⟩ := h.ok.aliases; rw [has]; rfl) (hU.1 c hc).2.2
  obtain ⟨⟨cols', c'⟩, hadd⟩ := Option.isSome_iff_exists.1 hsome
  obtain ⟨hok, hpre, hmem, -, -⟩ := addColumn_ok h.ok (hU.1 c hc).1 hadd
  refine ⟨cols', c', hadd, ⟨hok, ?_⟩, hpre, hmem⟩
  have hadd' := hadd
  unfold addColumn at hadd'
  rw [addCol] at hadd'
  obtain ⟨a, ha⟩ := Option.ne_none_iff_exists'.1 (hU.1 c hc).2.2
  rw [ha] at hadd'
  simp only at hadd'
  split at hadd'
  · cases hadd'; exact h.sub
  · rename_i hg
    have hnew := (getAlias_named h.ok.named c.expr).1 (fun f fs => hg f fs)
    obtain ⟨as, has, _⟩ := h.ok.aliases
    unfold aliasesOf at has
    rw [has] at hadd'
    simp only at hadd'
    split at hadd'
    · cases hadd'
      intro d hd
      rcases List.mem_append.1 hd with hd | hd
      · exact h.sub d hd
      · rw [List.mem_singleton.1 hd]; exact hc
    · rename_i hmem'
      rw [not_not] at hmem'
      obtain ⟨d, hdm, hda⟩ := mapM_alias_mem' has a hmem'
      have := hU.2 d (h.sub d hdm) c hc (by rw [hda, ha])
      exact absurd (List.mem_map.2 ⟨d, hdm, this⟩) hnew

theorem addColumns_inU {U : List SCol} (hU : NoConflict U) (cs : List SCol) : ∀ cols, InU U cols →
    (∀ c ∈ cs, c ∈ U) → ∃ cols' cs', addColumns cols cs = some (cols', cs') ∧ InU U cols' ∧ cols <+: cols' ∧
      ∀ c ∈ cs, c.expr ∈ cols'.map SCol.expr := by
  induction cs with
  | nil => intro cols h _; exact ⟨cols, [], rfl, h, List.prefix_rfl, by simp⟩
  | cons c cs ih =>
    intro cols h hcs
    obtain ⟨c1, d1, e1, i1, p1, m1⟩ := addColumn_inU hU h (hcs c (by simp))
    obtain ⟨c2, d2, e2, i2, p2, m2⟩ := ih c1 i1 (fun x hx => hcs x (by simp [hx]))
    refine ⟨c2, d1 :: d2, ?_, i2, p1.trans p2, ?_⟩
    · rw [addColumns, e1]
      simp [e2]
    · intro x hx
      rcases List.mem_cons.1 hx with rfl | hx
      · obtain ⟨t, rfl⟩ := p2
        rw [List.map_append]
        exact List.mem_append_left _ m1
      · exact m2 x hx

theorem mergeCols_inU {U a b : List SCol} (hU : NoConflict U) (ha : InU U a) (hb : ∀ c ∈ b, c ∈ U) :
    ∃ a' b', mhMergeCols a b = some (a', b') ∧ InU U a' ∧ a <+: a' ∧ ∀ c ∈ b, c.expr ∈ a'.map SCol.expr := by
  unfold mhMergeCols
  split
  · rename_i h
    refine ⟨a, b, rfl, ha, List.prefix_rfl, fun c hc => ?_⟩
    have h' : a.map SCol.expr = b.map SCol.expr := by
      have := congrArg (List.map Prod.fst) h
      simpa [List.map_map, Function.comp_def, SCol.text] using this
    rw [h']
    exact List.mem_map_of_mem hc
  · exact addColumns_inU hU b a ha hb

theorem foldMerge_inU {U : List SCol} (hU : NoConflict U) (css : List (List SCol)) : ∀ a, InU U a →
    (∀ cs ∈ css, ∀ c ∈ cs, c ∈ U) →
    ∃ r, css.foldlM (fun a b => (mhMergeCols a b).map (·.1)) a = some r ∧ InU U r ∧ a <+: r ∧
      ∀ cs ∈ css, ∀ c ∈ cs, c.expr ∈ r.map SCol.expr := by
  induction css with
  | nil => intro a ha _; exact ⟨a, rfl, ha, List.prefix_rfl, by simp⟩
  | cons b css ih =>
    intro a ha h
    obtain ⟨a', b', e, i, p, m⟩ := mergeCols_inU hU ha (h b (by simp))
    obtain ⟨r, er, ir, pr, mr⟩ := ih a' i (fun cs hcs => h cs (by simp [hcs]))
    refine ⟨r, ?_, ir, p.trans pr, ?_⟩
    · rw [List.foldlM_cons, e]
      exact er
    · intro cs hcs c hc
      rcases List.mem_cons.1 hcs with rfl | hcs
      · obtain ⟨t, rfl⟩ := pr
        rw [List.map_append]
        exact List.mem_append_left _ (m c hc)
      · exact mr cs hcs c hc

theorem listCols_inU {U : List SCol} (hU : NoConflict U) (css : List (List SCol)) (hne : css ≠ [])
    (h : ∀ cs ∈ css, InU U cs) :
    ∃ r, mhListCols css = some r ∧ InU U r ∧ ∀ cs ∈ css, ∀ c ∈ cs, c.expr ∈ r.map SCol.expr := by
  cases css with
  | nil => exact absurd rfl hne
  | cons a css =>
    obtain ⟨r, er, ir, pr, mr⟩ := foldMerge_inU hU css a (h a (by simp)) (fun cs hcs => (h cs (by simp [hcs])).sub)
    refine ⟨r, er, ir, ?_⟩
    intro cs hcs c hc
    rcases List.mem_cons.1 hcs with rfl | hcs
    · obtain ⟨t, rfl⟩ := pr
      rw [List.map_append]
      exact List.mem_append_left _ (List.mem_map_of_mem hc)
    · exact mr cs hcs c hc

theorem ratioCols_inU {U : List SCol} (hU : NoConflict U) (glob loc : List String) (r : MHRatio)
    (hn : mhLeafCol glob (localFilter r.wh loc glob) r.numer ∈ U)
    (hd : mhLeafCol glob (localFilter r.wh loc glob) r.denom ∈ U) :
    ∃ cs, ratioCols glob loc r = some cs ∧ InU U cs ∧
      (mhLeafCol glob (localFilter r.wh loc glob) r.numer).expr ∈ cs.map SCol.expr ∧
      (mhLeafCol glob (localFilter r.wh loc glob) r.denom).expr ∈ cs.map SCol.expr := by
  obtain ⟨cs, e, i, m⟩ := listCols_inU hU [[mhLeafCol glob (localFilter r.wh loc glob) r.numer],
    [mhLeafCol glob (localFilter r.wh loc glob) r.denom]] (by simp) (by
      intro cs hcs
      simp only [List.mem_cons, List.not_mem_nil, or_false] at hcs
      rcases hcs with rfl | rfl
      · exact InU.single hU hn
      · exact InU.single hU hd)
  exact ⟨cs, e, i, m _ (List.mem_cons_self ..) _ (List.mem_cons_self ..),
    m _ (List.mem_cons_of_mem _ (List.mem_cons_self ..)) _ (List.mem_cons_self ..)⟩

theorem mapRatioCols_inU {U : List SCol} (hU : NoConflict U) (glob loc : List String) (rs : List MHRatio)
    (h : ∀ r ∈ rs, mhLeafCol glob (localFilter r.wh loc glob) r.numer ∈ U ∧
      mhLeafCol glob (localFilter r.wh loc glob) r.denom ∈ U) :
    ∃ css, rs.mapM (ratioCols glob loc) = some css ∧ css.length = rs.length ∧ (∀ cs ∈ css, InU U cs) ∧
      ∀ r ∈ rs, ∃ cs ∈ css, (mhLeafCol glob (localFilter r.wh loc glob) r.numer).expr ∈ cs.map SCol.expr ∧
        (mhLeafCol glob (localFilter r.wh loc glob) r.denom).expr ∈ cs.map SCol.expr := by
  induction rs with
  | nil => exact ⟨[], rfl, rfl, by simp, by simp⟩
  | cons r rs ih =>
    obtain ⟨cs, e, i, m1, m2⟩ := ratioCols_inU hU glob loc r (h r (by simp)).1 (h r (by simp)).2
    obtain ⟨css, e', hl, i', m'⟩ := ih (fun x hx => h x (by simp [hx]))
    refine ⟨cs :: css, ?_, by simp [hl], ?_, ?_⟩
    · rw [List.mapM_cons, e, e']; rfl
    · intro x hx
      rcases List.mem_cons.1 hx with rfl | hx
      · exact i
      · exact i' x hx
    · intro x hx
      rcases List.mem_cons.1 hx with rfl | hx
      · exact ⟨cs, by simp, m1, m2⟩
      · obtain ⟨y, hy, h1, h2⟩ := m' x hx
        exact ⟨y, by simp [hy], h1, h2⟩

/-- The reference finds the column of the expression. -/
theorem mhRef_ok {U raw : List SCol} (hU : NoConflict U) (h : InU U raw) {c : SCol} (hc : c ∈ U)
    (hm : c.expr ∈ raw.map SCol.expr) :
    ∃ a, mhRef raw c = some a ∧ SelectedAs raw c.expr a ∧ ∀ d ∈ raw, d.alias = some a → d.expr = c.expr := by
  have key : ∃ a, mhRef raw c = some a ∧ SelectedAs raw c.expr a := by
    unfold mhRef mhMergeCols
    split
    · rename_i heq
      obtain ⟨a, ha⟩ := Option.ne_none_iff_exists'.1 (hU.1 c hc).2.2
      refine ⟨a, by simp [ha], ?_⟩
      match raw, heq with
      | [d], heq =>
        simp only [List.map_cons, List.map_nil, List.cons.injEq, and_true, SCol.text, Prod.mk.injEq] at heq
        exact ⟨d, by simp, heq.1, by rw [heq.2, ha]⟩
      | [], heq => simp at heq
      | _ :: _ :: _, heq => simp at heq
    · obtain ⟨cols', c', e, i, p, m⟩ := addColumn_inU hU h hc
      have hcols : cols' = raw := by
        have e' := e
        unfold addColumn at e'
        rcases addCol_spec _ _ _ _ e' with ⟨h1, _⟩ | ⟨h1, _⟩
        · exact h1
        · exact absurd hm ((getAlias_named h.ok.named c.expr).1 h1)
      subst hcols
      obtain ⟨a, ha, hs⟩ := C23_name_partial cols' cols' c c' h.ok.named e
        (Or.inl ⟨(hU.1 c hc).2.1, fun d hd _ => (hU.1 d (h.sub d hd)).2⟩)
      refine ⟨a, ?_, hs⟩
      have : addColumns cols' [c] = some (cols', [c']) := by
        rw [addColumns, e]; rfl
      rw [this]
      simp [ha]
  obtain ⟨a, ha, d, hd, hde, hda⟩ := key
  refine ⟨a, ha, ⟨d, hd, hde, hda⟩, fun x hx hxa => ?_⟩
  rw [← hde]
  exact hU.2 x (h.sub x hx) d (h.sub d hd) (by rw [hxa, hda])

theorem mhLeafCols_mem (glob loc : List String) (c : MHChild) (r : MHRatio) (hr : r ∈ c.ratios) :
    mhLeafCol glob (localFilter r.wh loc glob) r.numer ∈ mhLeafCols glob loc c ∧
      mhLeafCol glob (localFilter r.wh loc glob) r.denom ∈ mhLeafCols glob loc c := by
  unfold mhLeafCols
  exact ⟨List.mem_flatMap.2 ⟨r, hr, by simp⟩, List.mem_flatMap.2 ⟨r, hr, by simp⟩⟩

/-- **C82** The query of `MH` of a ratio or a list of ratios, if the filters of the list apply to the whole query and
different aggregations have different names: it is generated, and in the column of each ratio, the two names refer
unambiguously to the ratio's own numerator and denominator under their own conditions. -/
theorem C82_sql_partial (glob mhWh loc0 : List String) (c : MHChild) (hne : c.ratios ≠ [])
    (hlist : ∀ w ∈ c.listWh, w ∈ glob)
    (hU : NoConflict (mhLeafCols glob (localFilter mhWh loc0 glob) c)) :
    ∃ raw refs, mhSql glob mhWh loc0 c = some (raw, refs) ∧
      List.Forall₂ (fun r ref => ref.1 = r.name ∧
        RefersTo raw glob loc0 (mhWh ++ (c.listWh ++ (r.wh ++ r.numer.wh))) r.numer ref.2.1 ∧
        RefersTo raw glob loc0 (mhWh ++ (c.listWh ++ (r.wh ++ r.denom.wh))) r.denom ref.2.2) c.ratios refs := by
  set L := localFilter mhWh loc0 glob with hL
  have hlf : ∀ wh : List String, (∀ w ∈ wh, w ∈ glob) → localFilter wh L glob = L := fun wh hwh =>
    localFilter_glob wh L glob hwh (localFilter_nodup _ _ _) (fun w hw => ((mem_localFilter _ _ _ w).1 hw).2)
  -- the raw table
  have hraw : ∃ raw, mhRawCols glob L c = some raw ∧ InU (mhLeafCols glob L c) raw ∧ ∀ r ∈ c.ratios,
      (mhLeafCol glob (localFilter r.wh L glob) r.numer).expr ∈ raw.map SCol.expr ∧
      (mhLeafCol glob (localFilter r.wh L glob) r.denom).expr ∈ raw.map SCol.expr := by
    cases c with
    | one r =>
      obtain ⟨h1, h2⟩ := mhLeafCols_mem glob L (.one r) r (by simp [MHChild.ratios])
      obtain ⟨cs, e, i, m1, m2⟩ := ratioCols_inU hU glob L r h1 h2
      refine ⟨cs, e, i, ?_⟩
      intro x hx
      rw [MHChild.ratios, List.mem_singleton] at hx
      subst hx
      exact ⟨m1, m2⟩
    | many rs wh =>
      obtain ⟨css, e, hl, i, m⟩ := mapRatioCols_inU hU glob L rs
        (fun r hr => mhLeafCols_mem glob L (.many rs wh) r hr)
      have hne' : css ≠ [] := by
        intro h0
        rw [h0] at hl
        exact hne (List.length_eq_zero_iff.1 hl.symm)
      obtain ⟨raw, er, ir, mr⟩ := listCols_inU hU css hne' i
      refine ⟨raw, ?_, ir, ?_⟩
      · rw [mhRawCols, hlf wh hlist, e]
        exact er
      · intro r hr
        obtain ⟨cs, hcs, h1, h2⟩ := m r hr
        obtain ⟨d1, hd1, e1⟩ := List.mem_map.1 h1
        obtain ⟨d2, hd2, e2⟩ := List.mem_map.1 h2
        rw [← e1, ← e2]
        exact ⟨mr cs hcs d1 hd1, mr cs hcs d2 hd2⟩
  obtain ⟨raw, er, ir, mr⟩ := hraw
  have hconds : ∀ (r : MHRatio) (l : MHLeaf) (w : String),
      w ∈ localFilter l.wh (localFilter r.wh L glob) glob ↔
        (w ∈ mhWh ++ (c.listWh ++ (r.wh ++ l.wh)) ∨ w ∈ loc0) ∧ w ∉ glob := by
    intro r l w
    rw [mem_localFilter, mem_localFilter, hL, mem_localFilter]
    simp only [List.mem_append]
    constructor
    · tauto
    · rintro ⟨(h | h | h | h) | h, hg⟩
      · tauto
      · exact absurd (hlist w h) hg
      · tauto
      · tauto
      · tauto
  have hrefs : ∀ rs : List MHRatio, (∀ r ∈ rs, r ∈ c.ratios) → ∃ refs, rs.mapM (mhRefs glob L raw) = some refs ∧
      List.Forall₂ (fun r ref => ref.1 = r.name ∧
        RefersTo raw glob loc0 (mhWh ++ (c.listWh ++ (r.wh ++ r.numer.wh))) r.numer ref.2.1 ∧
        RefersTo raw glob loc0 (mhWh ++ (c.listWh ++ (r.wh ++ r.denom.wh))) r.denom ref.2.2) rs refs := by
    intro rs
    induction rs with
    | nil => intro _; exact ⟨[], rfl, .nil⟩
    | cons r rs ih =>
      intro h
      obtain ⟨refs, e, f⟩ := ih (fun x hx => h x (by simp [hx]))
      obtain ⟨m1, m2⟩ := mhLeafCols_mem glob L c r (h r (by simp))
      obtain ⟨a1, ea1, s1, u1⟩ := mhRef_ok hU ir m1 (mr r (h r (by simp))).1
      obtain ⟨a2, ea2, s2, u2⟩ := mhRef_ok hU ir m2 (mr r (h r (by simp))).2
      refine ⟨(r.name, a1, a2) :: refs, ?_, .cons ⟨rfl, ⟨_, hconds r r.numer, s1, u1⟩, ⟨_, hconds r r.denom, s2, u2⟩⟩ f⟩
      rw [List.mapM_cons]
      have : mhRefs glob L raw r = some (r.name, a1, a2) := by
        unfold mhRefs
        simp [ea1, ea2]
      rw [this, e]
      rfl
  obtain ⟨refs, ef, hf⟩ := hrefs c.ratios (fun _ h => h)
  refine ⟨raw, refs, ?_, hf⟩
  unfold mhSql
  rw [← hL]
  simp [er, ef]

/-- The text of a sum of `x`. -/
def sumX (cs : List String) : Txt :=
  match cs with
  | [] => "SUM(x)".toList
  | c :: _ => "SUM(IF(".toList ++ c.toList ++ ", x, NULL))".toList

/-- **C82** (violated if the names clash) `Sum('x', where='a') / Sum('x')`: the two aggregations are selected as `sum_x`
and `sum_x_1`, but the final query refers to both as `sum_x`: it divides the numerator by itself. -/
theorem C82_sql_violation :
    let r : MHRatio := ⟨"r".toList, ⟨"sum(x)".toList, ["a"], sumX⟩, ⟨"sum(x)".toList, [], sumX⟩, []⟩
    mhSql [] [] [] (.one r) = some
        ([⟨"SUM(IF(a, x, NULL))".toList, some "sum(x)".toList, 0⟩, ⟨"SUM(x)".toList, some "sum(x)".toList, 1⟩],
          [("r".toList, some "sum_x".toList, some "sum_x".toList)]) ∧
      ∀ raw refs, mhSql [] [] [] (.one r) = some (raw, refs) → ∀ ref ∈ refs,
        ¬ RefersTo raw [] [] [] r.denom ref.2.2 := by
  have h : mhSql [] [] [] (.one ⟨"r".toList, ⟨"sum(x)".toList, ["a"], sumX⟩, ⟨"sum(x)".toList, [], sumX⟩, []⟩) = some
        ([⟨"SUM(IF(a, x, NULL))".toList, some "sum(x)".toList, 0⟩, ⟨"SUM(x)".toList, some "sum(x)".toList, 1⟩],
          [("r".toList, some "sum_x".toList, some "sum_x".toList)]) := by rfl
  refine ⟨h, ?_⟩
  intro raw refs h' ref href hr
  rw [h] at h'
  cases h'
  rw [List.mem_singleton.1 href] at hr
  obtain ⟨conds, hc, ⟨d, hd, hde, hda⟩, hu⟩ := hr
  have hnil : conds = [] := by
    rw [List.eq_nil_iff_forall_not_mem]
    intro w hw
    simpa using (hc w).1 hw
  subst hnil
  have := hu ⟨"SUM(IF(a, x, NULL))".toList, some "sum(x)".toList, 0⟩ (by simp) (by decide)
  revert this
  decide

/-- **C82** (violated if the list has a filter that does not apply to the whole query) The list's filter is forgotten
when the columns are looked for: the final query refers to `sum_x_1`, which `MHRaw` does not have. -/
theorem C82_sql_list_violation :
    let r : MHRatio := ⟨"r".toList, ⟨"sum(x)".toList, [], sumX⟩, ⟨"n".toList, [], fun _ => "COUNT(y)".toList⟩, []⟩
    ∃ raw, mhSql [] [] [] (.many [r] ["b"]) = some (raw, [("r".toList, some "sum_x_1".toList, some "n".toList)]) ∧
      aliasesOf raw = some [some "sum_x".toList, some "n".toList] := by
  refine ⟨[⟨"SUM(IF(b, x, NULL))".toList, some "sum(x)".toList, 0⟩, ⟨"COUNT(y)".toList, some "n".toList, 0⟩],
    by rfl, by decide⟩

/-- The hypotheses are met: two ratios with filters on every level, sharing a numerator. -/
example :
    let sx : MHLeaf := ⟨"sum(x)".toList, ["a"], sumX⟩
    let c : MHChild := .many [⟨"r".toList, sx, ⟨"n".toList, [], fun _ => "COUNT(y)".toList⟩, []⟩,
      ⟨"q".toList, sx, ⟨"m".toList, [], fun _ => "AVG(y)".toList⟩, []⟩] ["b"]
    c.ratios ≠ [] ∧ (∀ w ∈ c.listWh, w ∈ ["b"]) ∧ NoConflict (mhLeafCols ["b"] (localFilter ["c"] [] ["b"]) c) ∧
      (∀ r ∈ c.ratios, r.numer.name ≠ r.denom.name ∧ r.numer.name ≠ r.denom.name ++ mhSuffix ∧
        r.denom.name ≠ r.numer.name ++ mhSuffix) := by
  refine ⟨by simp [MHChild.ratios], by simp [MHChild.listWh], ⟨?_, ?_⟩, ?_⟩
  · intro c hc
    refine ⟨?_, ?_, ?_⟩
    · simp only [mhLeafCols, MHChild.ratios, List.flatMap_cons, List.flatMap_nil, List.append_nil, List.mem_append,
        List.mem_cons, List.not_mem_nil, or_false] at hc
      rcases hc with (rfl | rfl) | rfl | rfl <;> exact ⟨_, _, rfl⟩
    · revert c; decide
    · revert c; decide
  · decide
  · decide

end Verif
