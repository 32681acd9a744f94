import Verif.Lemmas.CiTable

/-!
# C80: beside every estimate stand its own standard error, interval and compared value
-/

namespace Verif

variable {κ : Type} [DecidableEq κ]

theorem ciCellOf_spec (jk : Bool) (ppf : ℝ → ℤ → ℝ) (c : ℝ) (pt dof : Option ℝ) (xs : List ℝ)
    (hd : ciHalfWidth ppf c (specSE jk xs) (dofInt dof) = ciHalfWidth ppf c (specSE jk xs) ((xs.length : ℤ) - 1)) :
    ciCellOf ppf c pt (specSE jk xs) dof = specCi jk ppf c pt xs := by
  unfold ciCellOf specCi
  simp only [hd]
  cases pt with
  | none => rfl
  | some p =>
    cases specSE jk xs with
    | none => rfl
    | some s =>
      simp only [ciHalfWidth, Option.map_some, Option.bind_some]
      congr 3 <;> ring

/-! ## The columns of the query -/

/-- What the query is made of: sources with different names that are identifiers; columns with different aliases and with names;
two columns per metric in the table of the standard errors if there is a confidence level, else one; index columns. -/
structure CiShape (conf : Bool) (ptA seA baseA : Txt) (using_ : List SCol) (pt se base : List (Txt × Txt)) : Prop where
  sources : ptA ≠ seA ∧ ptA ≠ baseA ∧ seA ≠ baseA ∧ '.' ∉ ptA ∧ '.' ∉ seA ∧ '.' ∉ baseA
  aliases : (pt.map Prod.fst).Nodup ∧ (se.map Prod.fst).Nodup ∧ (base.map Prod.fst).Nodup
  names : ∀ c, c ∈ pt ∨ c ∈ se ∨ c ∈ base → c.2 ≠ []
  width : se.length = if conf then 2 * pt.length else pt.length
  index : ∀ d ∈ using_, d.named ∧ '.' ∉ d.expr

theorem dot_inj : ∀ {s t a b : Txt}, '.' ∉ s → '.' ∉ t → s ++ '.' :: a = t ++ '.' :: b → s = t ∧ a = b
  | [], [], _, _, _, _, h => by simpa using h
  | [], y :: t, _, _, _, ht, h => by
      simp only [List.nil_append, List.cons_append, List.cons.injEq] at h
      exact absurd (List.mem_cons.2 (Or.inl h.1)) ht
  | x :: s, [], _, _, hs, _, h => by
      simp only [List.nil_append, List.cons_append, List.cons.injEq] at h
      exact absurd (List.mem_cons.2 (Or.inl h.1.symm)) hs
  | x :: s, y :: t, _, _, hs, ht, h => by
      simp only [List.cons_append, List.cons.injEq] at h
      obtain ⟨e1, e2⟩ := dot_inj (fun hh => hs (List.mem_cons_of_mem _ hh)) (fun hh => ht (List.mem_cons_of_mem _ hh)) h.2
      exact ⟨by rw [h.1, e1], e2⟩

theorem fromSource_nodup {src : Txt} {l : List (Txt × Txt)} (hs : '.' ∉ src) (h : (l.map Prod.fst).Nodup) :
    ((l.map (fromSource src)).map SCol.expr).Nodup := by
  rw [List.map_map]
  rw [show SCol.expr ∘ fromSource src = (fun a => src ++ '.' :: a) ∘ Prod.fst from rfl, ← List.map_map]
  exact h.map fun a b e => (dot_inj hs hs e).2

theorem fromSource_disjoint {s t : Txt} {l m : List (Txt × Txt)} (hs : '.' ∉ s) (ht : '.' ∉ t) (hne : s ≠ t) {e : Txt}
    (h1 : e ∈ (l.map (fromSource s)).map SCol.expr) (h2 : e ∈ (m.map (fromSource t)).map SCol.expr) : False := by
  simp only [List.map_map, List.mem_map] at h1 h2
  obtain ⟨a, _, rfl⟩ := h1
  obtain ⟨b, _, e2⟩ := h2
  exact hne (dot_inj ht hs e2).1.symm

theorem fromSource_dot {src : Txt} {l : List (Txt × Txt)} {d : SCol} (h : d ∈ l.map (fromSource src)) : '.' ∈ d.expr := by
  obtain ⟨a, _, rfl⟩ := List.mem_map.1 h
  simp [fromSource]

theorem fromSource_named {src : Txt} {l : List (Txt × Txt)} (hl : ∀ c ∈ l, c.2 ≠ []) {d : SCol}
    (h : d ∈ l.map (fromSource src)) : d.named := by
  obtain ⟨a, ha, rfl⟩ := List.mem_map.1 h
  cases e : a.2 with
  | nil => exact absurd e (hl a ha)
  | cons f fs => exact ⟨f, fs, by simp [fromSource, e]⟩

theorem core_expr {a b : List SCol} (h : a.map SCol.core = b.map SCol.core) : a.map SCol.expr = b.map SCol.expr := by
  have := congrArg (List.map Prod.fst) h
  simpa [List.map_map, Function.comp_def, SCol.core] using this

theorem core_raw {a b : List SCol} (h : a.map SCol.core = b.map SCol.core) : a.map SCol.raw = b.map SCol.raw := by
  have := congrArg (List.map Prod.snd) h
  simpa [List.map_map, Function.comp_def, SCol.core] using this

theorem core_named {a b : List SCol} (h : a.map SCol.core = b.map SCol.core) (hb : ∀ d ∈ b, d.named) : ∀ d ∈ a, d.named := by
  intro d hd
  have : d.raw ∈ b.map SCol.raw := by rw [← core_raw h]; exact List.mem_map_of_mem hd
  obtain ⟨e, he, hr⟩ := List.mem_map.1 this
  obtain ⟨f, fs, hf⟩ := hb e he
  exact ⟨f, fs, by rw [← hr, hf]⟩

/-- **C80** The query selects the index columns, then for each metric its estimate, standard error and, with a confidence level, degrees
of freedom, then the compared values; each from its own source and under its own name. -/
theorem C80_columns {conf : Bool} {ptA seA baseA : Txt} {using_ : List SCol} {pt se base : List (Txt × Txt)}
    (hs : CiShape conf ptA seA baseA using_ pt se base) {cols : List SCol}
    (h : ciColumns conf ptA seA baseA using_ pt se base = some cols) :
    ∃ rest, cols = using_ ++ rest ∧
      rest.map SCol.expr = (ciSelect conf (pt.map fun c => ptA ++ '.' :: c.1) (se.map fun c => seA ++ '.' :: c.1))
        ++ base.map (fun c => baseA ++ '.' :: c.1) ∧
      rest.map SCol.raw = (ciSelect conf (pt.map fun c => some c.2) (se.map fun c => some c.2)) ++ base.map (fun c => some c.2) := by
  obtain ⟨⟨n1, n2, n3, d1, d2, d3⟩, ⟨a1, a2, a3⟩, hn, hw, hi⟩ := hs
  set P := pt.map (fromSource ptA) with hP
  set S := se.map (fromSource seA) with hS
  set B := base.map (fromSource baseA) with hB
  have nP : ∀ d ∈ P, d.named := fun d hd => fromSource_named (fun c hc => hn c (Or.inl hc)) hd
  have nS : ∀ d ∈ S, d.named := fun d hd => fromSource_named (fun c hc => hn c (Or.inr (Or.inl hc))) hd
  have nB : ∀ d ∈ B, d.named := fun d hd => fromSource_named (fun c hc => hn c (Or.inr (Or.inr hc))) hd
  have nC : ∀ d ∈ ciSelect conf P S, d.named := fun d hd => (ciSelect_mem conf P S d hd).elim (nP d) (nS d)
  have ndPS : (P.map SCol.expr ++ S.map SCol.expr).Nodup :=
    List.nodup_append.2 ⟨fromSource_nodup d1 a1, fromSource_nodup d2 a2, fun x hx y hy e =>
      fromSource_disjoint d1 d2 n1 hx (e ▸ hy)⟩
  have ndC : ((ciSelect conf P S).map SCol.expr).Nodup := by
    rw [ciSelect_map]
    cases conf with
    | true => exact (ciSelect_nodup _ _ ndPS).1 (by simpa [hP, hS] using hw)
    | false => exact (ciSelect_nodup _ _ ndPS).2 (by simpa [hP, hS] using hw)
  unfold ciColumns at h
  rw [← hP, ← hS, ← hB] at h
  cases h1 : addColumns [] (ciSelect conf P S) with
  | none => rw [h1] at h; cases h
  | some p =>
    obtain ⟨c1, c1'⟩ := p
    obtain ⟨e1, k1⟩ := addColumns_new _ _ _ _ (by simp) nC ndC (by simp) h1
    simp only [List.nil_append] at e1
    subst e1
    cases h2 : addColumns c1 B with
    | none => rw [h1] at h; simp [h2] at h
    | some q =>
      obtain ⟨c2, c2'⟩ := q
      obtain ⟨e2, k2⟩ := addColumns_new _ _ _ _ (core_named k1 nC) nB (fromSource_nodup d3 a3) (by
        intro d hd hm
        rw [core_expr k1, ciSelect_map] at hm
        have hm' := ciSelect_mem conf _ _ _ hm
        rcases hm' with hm' | hm'
        · exact fromSource_disjoint d1 d3 n2 hm' (List.mem_map_of_mem hd)
        · exact fromSource_disjoint d2 d3 n3 hm' (List.mem_map_of_mem hd)) h2
      subst e2
      cases h3 : addColumns using_ (c1 ++ c2') with
      | none => rw [h1] at h; simp [h2, h3] at h
      | some r =>
        obtain ⟨c3, c3'⟩ := r
        rw [h1] at h
        simp only [h2, h3, Option.bind_eq_bind, Option.bind_some, Option.pure_def, Option.some.injEq] at h
        subst h
        have hcore : (c1 ++ c2').map SCol.core = (ciSelect conf P S ++ B).map SCol.core := by
          rw [List.map_append, List.map_append, k1, k2]
        have hexpr := core_expr hcore
        obtain ⟨e3, k3⟩ := addColumns_new _ _ _ _ (fun d hd => (hi d hd).1)
          (core_named hcore (by
            intro d hd
            rcases List.mem_append.1 hd with hd | hd
            · exact nC d hd
            · exact nB d hd))
          (by
            rw [hexpr, List.map_append]
            refine List.nodup_append.2 ⟨ndC, fromSource_nodup d3 a3, fun x hx y hy e => ?_⟩
            rw [ciSelect_map] at hx
            rcases ciSelect_mem conf _ _ _ hx with hx | hx
            · exact fromSource_disjoint d1 d3 n2 hx (e ▸ hy)
            · exact fromSource_disjoint d2 d3 n3 hx (e ▸ hy))
          (by
            intro d hd hm
            have hx : d.expr ∈ (ciSelect conf P S ++ B).map SCol.expr := by rw [← hexpr]; exact List.mem_map_of_mem hd
            have hdot : '.' ∈ d.expr := by
              rw [List.map_append, List.mem_append] at hx
              rcases hx with hx | hx
              · obtain ⟨z, hz, e⟩ := List.mem_map.1 hx
                rw [← e]
                rcases ciSelect_mem conf _ _ _ hz with hz | hz
                · exact fromSource_dot hz
                · exact fromSource_dot hz
              · obtain ⟨z, hz, e⟩ := List.mem_map.1 hx
                rw [← e]
                exact fromSource_dot hz
            obtain ⟨z, hz, e⟩ := List.mem_map.1 hm
            exact (hi z hz).2 (e ▸ hdot)) h3
        refine ⟨c3', e3, ?_, ?_⟩
        · rw [core_expr k3, hexpr, List.map_append, ciSelect_map, hP, hS, hB]
          simp [List.map_map, Function.comp_def, fromSource]
        · rw [core_raw k3, core_raw hcore, List.map_append, ciSelect_map, hP, hS, hB]
          simp [List.map_map, Function.comp_def, fromSource]

/-- The columns of the table of the standard errors are all selected, in the order of the metrics: aliases are different identifiers. -/
theorem C80_se_columns (jk conf : Bool) (l : List (Txt × Txt)) (hnd : (l.map Prod.fst).Nodup) (hid : ∀ c ∈ l, ')' ∉ c.1)
    {cols cs : List SCol} (h : addColumns [] (seColumns jk conf l) = some (cols, cs)) :
    cols.map SCol.expr = l.flatMap (fun c => seExpr jk c.1 :: if conf then [dofExpr c.1] else []) ∧
    cols.length = if conf then 2 * l.length else l.length := by
  have par : ∀ {a b x y : Txt}, ')' ∉ a → ')' ∉ b → a ++ ')' :: x = b ++ ')' :: y → a = b := by
    intro a
    induction a with
    | nil =>
      intro b x y _ hb e
      cases b with
      | nil => rfl
      | cons z b =>
        simp only [List.nil_append, List.cons_append, List.cons.injEq] at e
        exact absurd (List.mem_cons.2 (Or.inl e.1)) hb
    | cons u a ih =>
      intro b x y ha hb e
      cases b with
      | nil =>
        simp only [List.nil_append, List.cons_append, List.cons.injEq] at e
        exact absurd (List.mem_cons.2 (Or.inl e.1.symm)) ha
      | cons z b =>
        simp only [List.cons_append, List.cons.injEq] at e
        rw [e.1, ih (fun hh => ha (List.mem_cons_of_mem _ hh)) (fun hh => hb (List.mem_cons_of_mem _ hh)) e.2]
  have seInj : ∀ a b : Txt, ')' ∉ a → ')' ∉ b → seExpr jk a = seExpr jk b → a = b := by
    intro a b ha hb e
    unfold seExpr at e
    rw [List.append_assoc, List.append_assoc] at e
    exact par ha hb (List.append_cancel_left e)
  have dofInj : ∀ a b : Txt, ')' ∉ a → ')' ∉ b → dofExpr a = dofExpr b → a = b := by
    intro a b ha hb e
    unfold dofExpr at e
    rw [List.append_assoc, List.append_assoc, show ") - 1".toList = ')' :: " - 1".toList by simp] at e
    exact par ha hb (List.append_cancel_left e)
  have sd : ∀ a b : Txt, seExpr jk a ≠ dofExpr b := by
    intro a b e
    unfold seExpr dofExpr at e
    rw [show "STDDEV_SAMP(".toList = 'S' :: "TDDEV_SAMP(".toList by simp, show "COUNT(".toList = 'C' :: "OUNT(".toList by simp] at e
    simp only [List.cons_append, List.cons.injEq] at e
    exact absurd e.1 (by decide)
  have named : ∀ d ∈ seColumns jk conf l, d.named := by
    clear h hnd hid
    induction l with
    | nil => simp [seColumns]
    | cons c l ih =>
      intro d hd
      simp only [seColumns, List.mem_cons, List.mem_append] at hd
      have ne : ∀ (r s : Txt), s ≠ [] → ∃ f fs, some (r ++ s) = some (f :: fs) := by
        intro r s hs
        cases e : r ++ s with
        | nil => simp at e; exact absurd e.2 hs
        | cons f fs => exact ⟨f, fs, rfl⟩
      rcases hd with rfl | hd | hd
      · exact ne _ _ (by cases jk <;> simp)
      · cases conf with
        | true =>
          simp only [if_true, List.mem_singleton] at hd
          subst hd
          exact ne _ _ (by simp)
        | false => simp at hd
      · exact ih d hd
  have exprs : (seColumns jk conf l).map SCol.expr = l.flatMap (fun c => seExpr jk c.1 :: if conf then [dofExpr c.1] else []) := by
    clear h hnd hid named
    induction l with
    | nil => rfl
    | cons c l ih =>
      simp only [seColumns, List.map_cons, List.map_append, ih, List.flatMap_cons]
      cases conf <;> simp
  have nd : (l.flatMap (fun c => seExpr jk c.1 :: if conf then [dofExpr c.1] else [])).Nodup := by
    clear h named exprs
    induction l with
    | nil => simp
    | cons c l ih =>
      rw [List.flatMap_cons]
      simp only [List.map_cons, List.nodup_cons, List.mem_map, not_exists, not_and] at hnd
      refine List.nodup_append.2 ⟨?_, ih hnd.2 (fun x hx => hid x (List.mem_cons_of_mem _ hx)), ?_⟩
      · cases conf with
        | true => simp [sd]
        | false => simp
      · intro x hx y hy e
        subst e
        obtain ⟨b, hb, hx'⟩ := List.mem_flatMap.1 hy
        have hcid := hid c List.mem_cons_self
        have hbid := hid b (List.mem_cons_of_mem _ hb)
        have hne : c.1 ≠ b.1 := fun e => hnd.1 b hb e.symm
        have h1 : x = seExpr jk c.1 ∨ x = dofExpr c.1 := by
          cases conf <;> simp at hx
          · exact Or.inl hx
          · exact hx
        have h2 : x = seExpr jk b.1 ∨ x = dofExpr b.1 := by
          cases conf <;> simp at hx'
          · exact Or.inl hx'
          · exact hx'
        rcases h1 with h1 | h1 <;> rcases h2 with h2 | h2
        · exact hne (seInj _ _ hcid hbid (h1.symm.trans h2))
        · exact sd _ _ (h1.symm.trans h2)
        · exact sd _ _ (h2.symm.trans h1)
        · exact hne (dofInj _ _ hcid hbid (h1.symm.trans h2))
  obtain ⟨e1, k1⟩ := addColumns_new _ _ _ _ (by simp) named (by rw [exprs]; exact nd) (by simp) h
  have e2 := core_expr k1
  simp only [List.nil_append] at e1
  subst e1
  refine ⟨by rw [e2, exprs], ?_⟩
  have e3 := congrArg List.length (e2.trans exprs)
  rw [List.length_map] at e3
  rw [e3, List.length_flatMap]
  cases conf <;> simp [Nat.mul_comm]

/-- **C80** What the texts of the two columns of a metric mean: the standard error of the estimates in the group, and their number less
one. -/
theorem C80_expressions (jk : Bool) (a : Txt) : ∃ se dof : AggExpr, seExpr jk a = se.text a ∧ dofExpr a = dof.text a ∧
    ∀ vs : List (Option ℝ), se.value vs = specSE jk (vs.filterMap id) ∧
      dof.value vs = some (((vs.filterMap id).length : ℝ) - 1) := by
  refine ⟨if jk then .times .stddev (.safeDiv (.minusOne .count) (.sqrt .count)) else .stddev, .minusOne .count, ?_, ?_,
    fun vs => ⟨?_, ?_⟩⟩
  · have e1 : " * (IF((SQRT(COUNT(".toList = " * (".toList ++ ("IF((".toList ++ ("SQRT(".toList ++ "COUNT(".toList)) := by simp
    have e2 : "))) = 0, NULL, (COUNT(".toList = ")".toList ++ (")".toList ++ (") = 0, NULL, (".toList ++ "COUNT(".toList)) := by simp
    have e3 : ") - 1) / (SQRT(COUNT(".toList = ")".toList ++ (" - 1".toList ++ (") / (".toList ++ ("SQRT(".toList ++ "COUNT(".toList))) := by
      simp
    have e4 : ")))))".toList = ")".toList ++ (")".toList ++ ("))".toList ++ ")".toList)) := by simp
    have e0 : ∀ l : Txt, ')' :: l = ")".toList ++ l := fun l => by rw [show ")".toList = [')'] by simp]; rfl
    unfold seExpr
    cases jk
    · rw [if_neg (by decide), if_neg (by decide), e0, List.append_nil]
      simp only [-String.reduceToList, AggExpr.text, chars]
    · rw [if_pos rfl, if_pos rfl, e0, e1, e2, e3, e4]
      simp only [-String.reduceToList, AggExpr.text, chars]
      simp only [-String.reduceToList, List.append_assoc]
  · unfold dofExpr
    rw [show ") - 1".toList = ")".toList ++ " - 1".toList by simp]
    simp only [-String.reduceToList, AggExpr.text, chars, List.append_assoc]
  · rw [← seSql_spec]
    cases jk
    · simp [seSql, AggExpr.value, stdSamp]
    · simp only [if_true, seSql, sqlJkStderr, AggExpr.value, stdSamp, Option.map_some]
      by_cases h : (vs.filterMap id).length < 2
      · simp only [if_pos h, Option.bind_none]
      · have h0 : Real.sqrt ((vs.filterMap id).length : ℝ) ≠ 0 :=
          (Real.sqrt_pos.2 (by exact_mod_cast (by omega : 0 < (vs.filterMap id).length))).ne'
        simp only [if_neg h, if_neg h0, Option.bind_some, Option.map_some]
  · simp [AggExpr.value]

/-! ## The rows -/

/-- The rows of the query, before the columns are put in order. -/
theorem ciJoin_ci (jk indexed : Bool) (n : ℕ) (pt samples : RTab κ) (hnull : ∀ r ∈ pt, none ∉ r.1)
    (hi : indexed = false → ∀ r ∈ pt, r.1 = []) :
    ∃ s : RKey κ → List (Option ℝ), (∀ r ∈ pt, ∀ j, j < n → (s r.1).length = 2 * n ∧
        colVal (s r.1) (2 * j) = specSE jk (estimatesOf samples r.1 j) ∧
        ∀ ppf c, ciHalfWidth ppf c (specSE jk (estimatesOf samples r.1 j)) (dofInt (colVal (s r.1) (2 * j + 1)))
          = ciHalfWidth ppf c (specSE jk (estimatesOf samples r.1 j)) (((estimatesOf samples r.1 j).length : ℤ) - 1)) ∧
      joinRows indexed (2 * n) pt (seTab jk true indexed n samples) = pt.map fun r => (r.1, r.2, s r.1) := by
  cases indexed with
  | true =>
    refine ⟨rowWith (2 * n) (seTab jk true true n samples), fun r _ j hj => seRow_ci jk n samples r.1 j hj, ?_⟩
    exact joinRows_indexed _ _ _ (seTab_nodup ..) hnull
  | false =>
    refine ⟨fun k => (List.range n).flatMap fun j => seCells jk true (repsOf samples k j), fun r _ j hj => ?_, ?_⟩
    · simp only [seCells, if_true]
      have hp := flatMap_pair (fun j => seSql jk (repsOf samples r.1 j))
        (fun j => some ((((repsOf samples r.1 j).filterMap id).length : ℝ) - 1)) n
      refine ⟨hp.1, ?_, fun ppf c => ?_⟩
      · rw [colVal_eq (hp.2 j hj).1, seSql_spec, repsOf_estimates]
      · rw [colVal_eq (hp.2 j hj).2, repsOf_estimates]
        congr 1
        simp only [dofInt, Option.getD_some]
        rw [show (((estimatesOf samples r.1 j).length : ℝ) - 1) = (((estimatesOf samples r.1 j).length : ℤ) - 1 : ℤ) by push_cast; ring]
        exact Int.floor_intCast _
    · unfold seTab
      simp only [Bool.false_eq_true, if_false, List.map_cons, List.map_nil]
      rw [joinRows_cross]
      refine List.map_congr_left fun r hr => ?_
      rw [hi rfl r hr]

theorem ciJoin_se (jk indexed : Bool) (n : ℕ) (pt samples : RTab κ) (hnull : ∀ r ∈ pt, none ∉ r.1)
    (hi : indexed = false → ∀ r ∈ pt, r.1 = []) :
    ∃ s : RKey κ → List (Option ℝ), (∀ r ∈ pt, ∀ j, j < n → (s r.1).length = n ∧
        colVal (s r.1) j = specSE jk (estimatesOf samples r.1 j)) ∧
      joinRows indexed n pt (seTab jk false indexed n samples) = pt.map fun r => (r.1, r.2, s r.1) := by
  cases indexed with
  | true =>
    refine ⟨rowWith n (seTab jk false true n samples), fun r _ j hj => seRow_se jk n samples r.1 j hj, ?_⟩
    exact joinRows_indexed _ _ _ (seTab_nodup ..) hnull
  | false =>
    refine ⟨fun k => (List.range n).flatMap fun j => seCells jk false (repsOf samples k j), fun r _ j hj => ?_, ?_⟩
    · simp only [seCells, Bool.false_eq_true, if_false]
      rw [flatMap_single]
      refine ⟨by simp, ?_⟩
      rw [colVal_eq (x := seSql jk (repsOf samples r.1 j)) (by simp [hj]), seSql_spec, repsOf_estimates]
    · unfold seTab
      simp only [Bool.false_eq_true, if_false, List.map_cons, List.map_nil]
      rw [joinRows_cross]
      refine List.map_congr_left fun r hr => ?_
      rw [hi rfl r hr]

/-- One metric of one row. -/
theorem ciCell_at {jk : Bool} {n : ℕ} {samples : RTab κ} {k : RKey κ} {p s b : List (Option ℝ)} (hp : p.length = n)
    (hs : ∀ j, j < n → s.length = 2 * n ∧ colVal s (2 * j) = specSE jk (estimatesOf samples k j) ∧
        ∀ ppf c, ciHalfWidth ppf c (specSE jk (estimatesOf samples k j)) (dofInt (colVal s (2 * j + 1)))
          = ciHalfWidth ppf c (specSE jk (estimatesOf samples k j)) (((estimatesOf samples k j).length : ℤ) - 1))
    (ppf : ℝ → ℤ → ℝ) (c : ℝ) {j : ℕ} (hj : j < n) :
    ciCellOf ppf c (colVal (ciSelect true p s ++ b) (3 * j)) (colVal (ciSelect true p s ++ b) (3 * j + 1))
      (colVal (ciSelect true p s ++ b) (3 * j + 2)) = specCi jk ppf c (colVal p j) (estimatesOf samples k j) := by
  obtain ⟨h1, h2, h3⟩ := hs j hj
  obtain ⟨l1, l2⟩ := ciSelect_ci p s (by rw [h1, hp])
  obtain ⟨c1, c2, c3⟩ := l2 j (by omega)
  have get : ∀ i, i < 3 * n → colVal (ciSelect true p s ++ b) i = ((ciSelect true p s)[i]?).join := by
    intro i hi
    unfold colVal
    rw [List.getElem?_append_left (by rw [l1, hp]; exact hi)]
  rw [get _ (by omega), get _ (by omega), get _ (by omega), c1, c2, c3]
  show ciCellOf ppf c (colVal p j) (colVal s (2 * j)) (colVal s (2 * j + 1)) = _
  rw [h2]
  exact ciCellOf_spec jk ppf c _ _ _ (h3 ppf c)

/-- **C80** With a confidence level: for every metric the result has, for every slice of the estimates, the estimate and the bounds that
belong to the resampled estimates of this metric in this slice. -/
theorem C80_sql_ci (jk indexed : Bool) (n : ℕ) (pt samples : RTab κ) (hw : ∀ r ∈ pt, r.2.length = n)
    (hnull : ∀ r ∈ pt, none ∉ r.1) (hi : indexed = false → ∀ r ∈ pt, r.1 = []) (ppf : ℝ → ℤ → ℝ) (c : ℝ) (tmpl : Txt → Txt)
    (ptNames seNames : List Txt) (h1 : ptNames.length = n) (h2 : seNames.length = 2 * n) :
    decodeCi ppf c false tmpl (ciSelect true ptNames seNames) (ciRows jk true indexed n pt samples none)
      = some ((List.range n).map fun j => ⟨ptNames.getD j [], pt.map fun r =>
          (r.1, specCi jk ppf c (colVal r.2 j) (estimatesOf samples r.1 j))⟩, none) := by
  obtain ⟨s, hs, hj⟩ := ciJoin_ci jk indexed n pt samples hnull hi
  obtain ⟨l1, l2⟩ := ciSelect_ci ptNames seNames (by rw [h1, h2])
  unfold decodeCi ciRows
  simp only [Bool.false_and, Bool.false_eq_true, if_false, l1, h1, Nat.sub_zero, Nat.mul_mod_right, bne_self_eq_false, if_true, hj,
    List.map_map, Nat.mul_div_cancel_left n (by decide : 0 < 3)]
  congr 2
  refine List.map_congr_left fun j hjn => ?_
  have hjn := List.mem_range.1 hjn
  congr 1
  · rw [List.getD_eq_getElem?_getD, (l2 j (by omega)).1, List.getD_eq_getElem?_getD]
  · refine List.map_congr_left fun r hr => ?_
    simp only [Function.comp_apply, Prod.mk.injEq, true_and]
    have := ciCell_at (b := []) (hw r hr) (hs r hr) ppf c hjn
    simpa using this

/-- **C80** Without one: the estimate and the standard error. -/
theorem C80_sql_se (jk indexed : Bool) (n : ℕ) (pt samples : RTab κ) (hw : ∀ r ∈ pt, r.2.length = n)
    (hnull : ∀ r ∈ pt, none ∉ r.1) (hi : indexed = false → ∀ r ∈ pt, r.1 = [])
    (ptNames seNames : List Txt) (h1 : ptNames.length = n) (h2 : seNames.length = n) :
    decodeSe (ciSelect false ptNames seNames) (ciRows jk false indexed n pt samples none)
      = some ((List.range n).map fun j => ⟨ptNames.getD j [], pt.map fun r =>
          (r.1, colVal r.2 j, specSE jk (estimatesOf samples r.1 j))⟩) := by
  obtain ⟨s, hs, hj⟩ := ciJoin_se jk indexed n pt samples hnull hi
  obtain ⟨l1, l2⟩ := ciSelect_se ptNames seNames (by rw [h1, h2])
  unfold decodeSe ciRows
  simp only [Bool.false_eq_true, if_false, l1, h1, Nat.mul_mod_right, bne_self_eq_false, hj,
    List.map_map, Nat.mul_div_cancel_left n (by decide : 0 < 2)]
  congr 1
  refine List.map_congr_left fun j hjn => ?_
  have hjn := List.mem_range.1 hjn
  congr 1
  · rw [List.getD_eq_getElem?_getD, (l2 j (by omega)).1, List.getD_eq_getElem?_getD]
  · refine List.map_congr_left fun r hr => ?_
    obtain ⟨a1, a2⟩ := hs r hr j hjn
    obtain ⟨_, b2⟩ := ciSelect_se r.2 (s r.1) (by rw [a1, hw r hr])
    obtain ⟨c1, c2⟩ := b2 j (by rw [hw r hr]; exact hjn)
    simp only [Function.comp_apply, Prod.mk.injEq, true_and]
    unfold colVal at a2 ⊢
    rw [c1, c2, a2]
    exact ⟨rfl, rfl⟩

theorem rowOf_valueAt (w : ℕ) (b : RTab κ) (k : RKey κ) (j : ℕ) : colVal (rowWith w b k) j = valueAt b k j := by
  unfold rowWith valueAt
  cases b.find? fun r => decide (r.1 = k) with
  | none => exact colVal_replicate w j
  | some r => rfl

/-- **C80** If the child is a change, the result also has the values that are compared: for every metric and every slice of the
estimates the value of the metric in this slice. -/
theorem C80_sql_change (jk : Bool) (n : ℕ) (pt samples base : RTab κ) (hw : ∀ r ∈ pt, r.2.length = n)
    (hnull : ∀ r ∈ pt, none ∉ r.1) (hb : (base.map Prod.fst).Nodup) (ppf : ℝ → ℤ → ℝ) (c : ℝ) (tmpl : Txt → Txt)
    (ptNames seNames baseNames : List Txt) (h1 : ptNames.length = n) (h2 : seNames.length = 2 * n) (h3 : baseNames.length = n) :
    decodeCi ppf c true tmpl (ciSelect true ptNames seNames ++ baseNames) (ciRows jk true true n pt samples (some (n, base)))
      = some ((List.range n).map fun j => ⟨ptNames.getD j [], pt.map fun r =>
            (r.1, specCi jk ppf c (colVal r.2 j) (estimatesOf samples r.1 j))⟩,
          some ((List.range n).map fun j => ⟨tmpl (baseNames.getD j []), pt.map fun r => (r.1, valueAt base r.1 j)⟩)) := by
  obtain ⟨s, hs, hj⟩ := ciJoin_ci jk true n pt samples hnull (by simp)
  obtain ⟨l1, l2⟩ := ciSelect_ci ptNames seNames (by rw [h1, h2])
  have hlen : (ciSelect true ptNames seNames ++ baseNames).length = 4 * n := by rw [List.length_append, l1, h1, h3]; ring
  have hrows : ciRows jk true true n pt samples (some (n, base))
      = pt.map fun r => (r.1, ciSelect true r.2 (s r.1) ++ rowWith n base r.1) := by
    unfold ciRows
    simp only [if_true, hj]
    rw [joinRows_indexed _ _ _ hb (by
      intro a ha
      obtain ⟨r, hr, rfl⟩ := List.mem_map.1 ha
      exact hnull r hr), List.map_map, List.map_map]
    rfl
  rw [hrows]
  unfold decodeCi
  have e1 : 4 * n / 4 = n := Nat.mul_div_cancel_left n (by decide)
  have e2 : 4 * n - n = 3 * n := by omega
  simp only [hlen, Nat.mul_mod_right, bne_self_eq_false, Bool.and_false, Bool.false_eq_true, if_false, if_true, e1, e2,
    Nat.mul_div_cancel_left n (by decide : 0 < 3), List.map_map]
  congr 2
  · refine List.map_congr_left fun j hjn => ?_
    have hjn := List.mem_range.1 hjn
    congr 1
    · rw [List.getD_eq_getElem?_getD, List.getElem?_append_left (by rw [l1, h1]; omega), (l2 j (by omega)).1,
        List.getD_eq_getElem?_getD]
    · refine List.map_congr_left fun r hr => ?_
      simp only [Function.comp_apply, Prod.mk.injEq, true_and]
      exact ciCell_at (hw r hr) (hs r hr) ppf c hjn
  · congr 1
    refine List.map_congr_left fun j hjn => ?_
    have hjn := List.mem_range.1 hjn
    congr 1
    · rw [List.getD_eq_getElem?_getD, List.getElem?_append_right (by rw [l1, h1]; omega), l1, h1,
        Nat.add_sub_cancel_left, List.getD_eq_getElem?_getD]
    · refine List.map_congr_left fun r hr => ?_
      have hlen' : (ciSelect true r.2 (s r.1)).length = 3 * n := by
        rw [(ciSelect_ci r.2 (s r.1) (by rw [(hs r hr j hjn).1, hw r hr])).1, hw r hr]
      simp only [Function.comp_apply, Prod.mk.injEq, true_and]
      rw [← rowOf_valueAt n]
      unfold colVal
      rw [List.getElem?_append_right (by rw [hlen']; omega), hlen', Nat.add_sub_cancel_left]

/-- The names under which the columns of the query are read (/repo/metrics.py:681-683): those after the index. -/
def valueNames (using_ cols : List SCol) : List Txt := (cols.drop using_.length).map fun c => c.raw.getD []

theorem valueNames_eq {conf : Bool} {ptA seA baseA : Txt} {using_ : List SCol} {pt se base : List (Txt × Txt)}
    (hs : CiShape conf ptA seA baseA using_ pt se base) {cols : List SCol}
    (h : ciColumns conf ptA seA baseA using_ pt se base = some cols) :
    valueNames using_ cols = ciSelect conf (pt.map Prod.snd) (se.map Prod.snd) ++ base.map Prod.snd := by
  obtain ⟨rest, rfl, _, h2⟩ := C80_columns hs h
  unfold valueNames
  rw [List.drop_left]
  have := congrArg (List.map fun x : Option Txt => x.getD []) h2
  rw [List.map_map, List.map_append, ciSelect_map] at this
  simpa [List.map_map, Function.comp_def] using this

/-- **C80** The query of a Jackknife or Bootstrap of a change and the table that is read from its result: metric by metric, under the
name of the column of the change, the estimates with their bounds, and under the name of the compared metric the compared values. -/
theorem C80_sql (jk : Bool) {ptA seA baseA : Txt} {using_ : List SCol} {ptC seC baseC : List (Txt × Txt)} {cols : List SCol}
    (hs : CiShape true ptA seA baseA using_ ptC seC baseC) (hcols : ciColumns true ptA seA baseA using_ ptC seC baseC = some cols)
    (hbw : baseC.length = ptC.length) (pt samples base : RTab κ) (hw : ∀ r ∈ pt, r.2.length = ptC.length)
    (hnull : ∀ r ∈ pt, none ∉ r.1) (hb : (base.map Prod.fst).Nodup) (ppf : ℝ → ℤ → ℝ) (c : ℝ) (tmpl : Txt → Txt) :
    ∃ out outBase, decodeCi ppf c true tmpl (valueNames using_ cols)
        (ciRows jk true true ptC.length pt samples (some (ptC.length, base))) = some (out, some outBase) ∧
      out.length = ptC.length ∧ outBase.length = ptC.length ∧
      (∀ (j : ℕ) (col : Txt × Txt), ptC[j]? = some col → out[j]? = some ⟨col.2, pt.map fun r =>
        (r.1, specCi jk ppf c (colVal r.2 j) (estimatesOf samples r.1 j))⟩) ∧
      ∀ (j : ℕ) (col : Txt × Txt), baseC[j]? = some col → outBase[j]? = some ⟨tmpl col.2, pt.map fun r =>
        (r.1, valueAt base r.1 j)⟩ := by
  rw [valueNames_eq hs hcols]
  refine ⟨_, _, C80_sql_change jk ptC.length pt samples base hw hnull hb ppf c tmpl (ptC.map Prod.snd) (seC.map Prod.snd)
    (baseC.map Prod.snd) (by simp) (by simpa using hs.width) (by simpa using hbw), by simp, by simp, fun j col hj => ?_, fun j col hj => ?_⟩
  · have : j < ptC.length := (List.getElem?_eq_some_iff.1 hj).1
    rw [List.getElem?_map, List.getElem?_range this, Option.map_some, List.getD_eq_getElem?_getD, List.getElem?_map, hj]
    rfl
  · have : j < ptC.length := by rw [← hbw]; exact (List.getElem?_eq_some_iff.1 hj).1
    rw [List.getElem?_map, List.getElem?_range this, Option.map_some, List.getD_eq_getElem?_getD, List.getElem?_map, hj]
    rfl

/-! ## On a DataFrame -/

theorem lookup_block (m m' : Txt) (k : RKey κ) (t : RTab κ) (j : ℕ) :
    (t.map fun r => ((m, r.1), colVal r.2 j)).lookup (m', k)
      = if m' = m then (t.find? fun r => decide (r.1 = k)).map fun r => colVal r.2 j else none := by
  induction t with
  | nil => simp
  | cons r t ih =>
    rw [List.map_cons, List.lookup_cons]
    by_cases e : m' = m
    · subst e
      by_cases e2 : r.1 = k
      · subst e2
        simp
      · rw [List.find?_cons_of_neg (by simpa using e2)]
        have : ((m', k) == (m', r.1)) = false := by
          simp only [beq_eq_false_iff_ne, ne_eq, Prod.mk.injEq, true_and]
          exact fun h => e2 h.symm
        rw [this]
        simpa using ih
    · have : ((m', k) == (m, r.1)) = false := by
        simp only [beq_eq_false_iff_ne, ne_eq, Prod.mk.injEq, not_and]
        exact fun h => absurd h e
      rw [this]
      simpa [e] using ih

theorem lookup_append_ite {α β : Type} [BEq α] [LawfulBEq α] (l1 l2 : List (α × β)) (a : α) :
    (l1 ++ l2).lookup a = (l1.lookup a).or (l2.lookup a) := by
  induction l1 with
  | nil => simp
  | cons x l1 ih =>
    rw [List.cons_append, List.lookup_cons, List.lookup_cons]
    cases a == x.1 with
    | true => simp
    | false => simpa using ih

theorem melt_lookup (t : RTab κ) (k : RKey κ) : ∀ (names : List Txt) (s j : ℕ) (m : Txt), names.Nodup → names[j]? = some m →
    ((names.zip (List.range' s names.length)).flatMap fun p => t.map fun r => ((p.1, r.1), colVal r.2 p.2)).lookup (m, k)
      = (t.find? fun r => decide (r.1 = k)).map fun r => colVal r.2 (s + j)
  | [], _, _, _, _, h => by simp at h
  | n :: names, s, j, m, hnd, h => by
      rw [List.length_cons, List.range'_succ, List.zip_cons_cons, List.flatMap_cons, lookup_append_ite, lookup_block]
      have hnd' : names.Nodup := (List.nodup_cons.1 hnd).2
      cases j with
      | zero =>
        simp only [List.getElem?_cons_zero, Option.some.injEq] at h
        subst h
        rw [if_pos rfl]
        cases hf : t.find? fun r => decide (r.1 = k) with
        | some r => simp
        | none =>
          simp only [Option.map_none, Option.none_or]
          have hnot : ∀ (l : List Txt) (s : ℕ), ((l.zip (List.range' s l.length)).flatMap fun p =>
              t.map fun r => ((p.1, r.1), colVal r.2 p.2)).lookup (n, k) = none := by
            intro l
            induction l with
            | nil => simp
            | cons a l ih =>
              intro s
              rw [List.length_cons, List.range'_succ, List.zip_cons_cons, List.flatMap_cons, lookup_append_ite, lookup_block, hf, ih]
              simp
          exact hnot names (s + 1)
      | succ j =>
        simp only [List.getElem?_cons_succ] at h
        have hne : m ≠ n := by
          rintro rfl
          exact (List.nodup_cons.1 hnd).1 (List.mem_of_getElem? h)
        rw [if_neg hne, Option.none_or, melt_lookup t k names (s + 1) j m hnd' h]
        rw [show s + 1 + j = s + (j + 1) by omega]

theorem meltTab_lookup (t : RTab κ) (k : RKey κ) (names : List Txt) (hnd : names.Nodup) (j : ℕ) (m : Txt) (h : names[j]? = some m) :
    ((meltTab names t).lookup (m, k)).join = valueAt t k j := by
  unfold meltTab
  rw [List.range_eq_range', melt_lookup t k names 0 j m hnd h]
  unfold valueAt
  cases t.find? fun r => decide (r.1 = k) with
  | none => rfl
  | some r => simp

/-- The row of a metric and slice in the concatenated resamples: its resampled estimates. -/
theorem concatRow_estimates (names : List Txt) (hnd : names.Nodup) (reps : List (RTab κ))
    (hk : ∀ t ∈ reps, (t.map Prod.fst).Nodup) (j : ℕ) (m : Txt) (h : names[j]? = some m) (k : RKey κ) :
    (concatRow (reps.map (meltTab names)) (m, k)).filterMap id = estimatesOf reps.flatten k j := by
  unfold concatRow
  induction reps with
  | nil => rfl
  | cons t reps ih =>
    have ih := ih fun x hx => hk x (List.mem_cons_of_mem _ hx)
    rw [List.map_cons, List.map_cons, meltTab_lookup t k names hnd j m h, List.filterMap_cons, List.flatten_cons]
    have hone : estimatesOf t k j = (valueAt t k j).toList := by
      have ht := hk t List.mem_cons_self
      clear ih hk
      unfold estimatesOf valueAt
      induction t with
      | nil => rfl
      | cons r t ih =>
        by_cases e : r.1 = k
        · rw [List.find?_cons_of_pos (by simpa using e), List.filterMap_cons, if_pos e]
          have hn : estimatesOf t k j = [] := by
            refine estimates_nil (fun hm => ?_) j
            simp only [List.map_cons, List.nodup_cons] at ht
            exact ht.1 (e ▸ hm)
          unfold estimatesOf at hn
          rw [hn]
          show _ = (colVal r.2 j).toList
          cases colVal r.2 j <;> rfl
        · rw [List.find?_cons_of_neg (by simpa using e), List.filterMap_cons, if_neg e]
          exact ih (by simp only [List.map_cons, List.nodup_cons] at ht; exact ht.2)
    have happ : estimatesOf (t ++ reps.flatten) k j = estimatesOf t k j ++ estimatesOf reps.flatten k j := by
      unfold estimatesOf
      rw [List.filterMap_append]
    rw [happ, hone]
    cases hv : valueAt t k j with
    | none => simpa using ih
    | some x =>
      simp only [id]
      simpa using ih

theorem stdTab_lookup (jk : Bool) (reps : List (LongTab κ)) (i : Txt × RKey κ) :
    (stdTab jk reps).lookup i = if i ∈ concatIndex reps then some (getStderrs jk (concatRow reps i)) else none := by
  unfold stdTab
  generalize concatIndex reps = l
  induction l with
  | nil => simp
  | cons a l ih =>
    rw [List.map_cons, List.lookup_cons]
    by_cases e : i = a
    · subst e
      simp
    · have : (i == a) = false := by simpa using e
      rw [this]
      simp only [ih, List.mem_cons, e, false_or]

theorem concatRow_out (reps : List (LongTab κ)) (i : Txt × RKey κ) (h : i ∉ concatIndex reps) :
    (concatRow reps i).filterMap id = [] := by
  unfold concatIndex at h
  rw [List.mem_dedup, List.mem_flatMap] at h
  unfold concatRow
  rw [List.filterMap_eq_nil_iff]
  intro x hx
  obtain ⟨t, ht, rfl⟩ := List.mem_map.1 hx
  have : t.lookup i = none := by
    rw [List.lookup_eq_none_iff]
    intro p hp
    simp only [bne_iff_ne, ne_eq]
    rintro rfl
    exact h ⟨t, ht, List.mem_map_of_mem hp⟩
  rw [this]
  rfl

/-- **C80** On a DataFrame, and in mixed mode: the same, metric by metric, in long format. -/
theorem C80_dataframe_ci (jk : Bool) (ppf : ℝ → ℤ → ℝ) (c : ℝ) (names : List Txt) (hnd : names.Nodup) (pt : RTab κ)
    (reps : List (RTab κ)) (hk : ∀ t ∈ reps, (t.map Prod.fst).Nodup) :
    dfCi jk ppf c (meltTab names pt) (reps.map (meltTab names))
      = (names.zip (List.range names.length)).flatMap fun p => pt.map fun r =>
          ((p.1, r.1), specCi jk ppf c (colVal r.2 p.2) (estimatesOf reps.flatten r.1 p.2)) := by
  unfold dfCi
  conv_lhs => unfold meltTab
  rw [List.map_flatMap]
  refine List.flatMap_congr fun p hp => ?_
  rw [List.map_map]
  refine List.map_congr_left fun r _ => ?_
  obtain ⟨j, hj, hpj⟩ := List.getElem_of_mem hp
  have hj' : j < names.length := by simpa using hj
  have hp2 : p.2 = j := by rw [← hpj]; simp
  have hp1 : names[p.2]? = some p.1 := by rw [hp2, ← hpj]; simp [hj']
  simp only [Function.comp_apply, Prod.mk.injEq, true_and]
  rw [show (List.map (fun t => (names.zip (List.range names.length)).flatMap fun p => List.map (fun r => ((p.1, r.1), colVal r.2 p.2)) t) reps)
    = reps.map (meltTab names) from rfl]
  rw [stdTab_lookup]
  have hest := concatRow_estimates names hnd reps hk p.2 p.1 hp1 r.1
  have hh : ((if (p.1, r.1) ∈ concatIndex (reps.map (meltTab names)) then
        some (getStderrs jk (concatRow (reps.map (meltTab names)) (p.1, r.1))) else none).bind
        fun s => ciHalfWidth ppf c s.1 s.2)
      = ciHalfWidth ppf c (specSE jk (estimatesOf reps.flatten r.1 p.2)) (((estimatesOf reps.flatten r.1 p.2).length : ℤ) - 1) := by
    split
    · rw [Option.bind_some, getStderrs_spec, hest]
    · rename_i hno
      have := concatRow_out _ _ hno
      rw [hest] at this
      rw [this]
      simp [specSE, ciHalfWidth]
  rw [hh]
  unfold specCi
  cases colVal r.2 p.2 with
  | none => cases specSE jk (estimatesOf reps.flatten r.1 p.2) <;> simp [ciHalfWidth]
  | some v =>
    cases specSE jk (estimatesOf reps.flatten r.1 p.2) with
    | none => simp [ciHalfWidth]
    | some s =>
      simp only [ciHalfWidth, Option.map_some, Option.bind_some, Prod.mk.injEq, Option.some.injEq, true_and]
      constructor <;> ring

/-- Without a confidence level. -/
theorem C80_dataframe_se (jk : Bool) (names : List Txt) (hnd : names.Nodup) (pt : RTab κ)
    (reps : List (RTab κ)) (hk : ∀ t ∈ reps, (t.map Prod.fst).Nodup) :
    dfSe jk (meltTab names pt) (reps.map (meltTab names))
      = (names.zip (List.range names.length)).flatMap fun p => pt.map fun r =>
          ((p.1, r.1), colVal r.2 p.2, specSE jk (estimatesOf reps.flatten r.1 p.2)) := by
  unfold dfSe
  conv_lhs => unfold meltTab
  rw [List.map_flatMap]
  refine List.flatMap_congr fun p hp => ?_
  rw [List.map_map]
  refine List.map_congr_left fun r _ => ?_
  obtain ⟨j, hj, hpj⟩ := List.getElem_of_mem hp
  have hj' : j < names.length := by simpa using hj
  have hp2 : p.2 = j := by rw [← hpj]; simp
  have hp1 : names[p.2]? = some p.1 := by rw [hp2, ← hpj]; simp [hj']
  simp only [Function.comp_apply, Prod.mk.injEq, true_and]
  rw [show (List.map (fun t => (names.zip (List.range names.length)).flatMap fun p => List.map (fun r => ((p.1, r.1), colVal r.2 p.2)) t) reps)
    = reps.map (meltTab names) from rfl]
  rw [stdTab_lookup]
  have hest := concatRow_estimates names hnd reps hk p.2 p.1 hp1 r.1
  split
  · rw [Option.bind_some, getStderrs_spec, hest]
  · rename_i hno
    have := concatRow_out _ _ hno
    rw [hest] at this
    rw [this]
    simp [specSE]

/-! ## Where it fails -/

/-- A slice whose value is NULL: `USING` does not match it, so it has an estimate but no standard error, though its resampled
estimates are there. -/
theorem C80_null_violation : ∃ (pt samples : RTab ℕ), pt = [([none], [some 1])] ∧
    2 ≤ (estimatesOf samples [none] 0).length ∧
    decodeSe ["x".toList, "x Jackknife SE".toList] (ciRows true false true 1 pt samples none)
      = some [⟨"x".toList, [([none], some 1, none)]⟩] := by
  refine ⟨_, [([none], [some 1]), ([none], [some 2])], rfl, by simp [estimatesOf, colVal], ?_⟩
  simp [decodeSe, ciRows, joinRows, seTab, keyMatch, ciSelect, colVal]

/-! ## Examples -/

/-- A query with one metric and a change. -/
example : CiShape true "JackknifePointEstimate".toList "JackknifeSE".toList "ChangeRaw".toList [⟨"grp".toList, some "grp".toList, 0⟩]
    [("sum_x_Percent_Change".toList, "sum(x) Percent Change".toList)]
    [("sum_x_Percent_Change_Jackknife_SE".toList, "sum(x) Percent Change Jackknife SE".toList),
      ("sum_x_Percent_Change_dof".toList, "sum(x) Percent Change dof".toList)]
    [("sum_x".toList, "sum(x)".toList)] := by
  refine ⟨?_, ?_, ?_, rfl, ?_⟩
  · simp
  · simp
  · intro c hc
    simp only [List.mem_singleton, List.mem_cons, List.not_mem_nil, or_false] at hc
    rcases hc with rfl | (rfl | rfl) | rfl <;> simp
  · intro d hd
    simp only [List.mem_singleton] at hd
    subst hd
    exact ⟨⟨'g', "rp".toList, by simp⟩, by simp⟩

example : (ciColumns true "P".toList "S".toList "C".toList [⟨"grp".toList, some "grp".toList, 0⟩]
    [("x".toList, "x".toList)] [("se".toList, "se".toList), ("d".toList, "d".toList)] [("b".toList, "b".toList)]).isSome := by
  decide +kernel

end Verif
