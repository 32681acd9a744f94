import Verif.Lemmas.WhereText

/-!
# C07: a filter list means a set of conditions
-/

namespace Verif

/-- **C07** (DataFrame side) The text `Metric.where` builds from non-empty conditions
is true of a row exactly if every condition is, whatever connectives the conditions
contain and however `sorted` orders them; and the text has no other reading. -/
theorem C07_python_where_is_conjunction (ρ : Nat → Bool) (le : Text → Text → Bool)
    (cs : List Text) (hne : cs ≠ []) (val : Text → Bool) (h : ∀ c ∈ cs, Denotes ρ c (val c)) :
    ∀ v, Denotes ρ (pyWhere le cs) v ↔ v = cs.all val := by
  have key : Denotes ρ (pyWhere le cs) (cs.all val) := by
    unfold pyWhere Denotes
    split
    · have hp : ∀ c ∈ (cs.mergeSort le).map paren,
          IsAnd ρ (stripWs c) (val (c.tail.dropLast)) := by
        intro c hc
        obtain ⟨d, hd, rfl⟩ := List.mem_map.1 hc
        rw [List.mem_mergeSort] at hd
        rw [stripWs_paren]
        have : (paren d).tail.dropLast = d := by simp [paren]
        rw [this]
        exact .fac (.paren (h d hd))
      have := joinAnd_isAnd ρ (cs := (cs.mergeSort le).map paren) (by
        intro h0
        have := congrArg List.length h0
        simp at this
        exact hne this) hp
      have e : ((cs.mergeSort le).map paren).all (fun c => val (c.tail.dropLast)) = cs.all val := by
        rw [List.all_map]
        have : (fun c => val (c.tail.dropLast)) ∘ paren = val := by
          funext d; simp [paren]
        rw [this]
        exact all_eq_of_mem val (fun x => List.mem_mergeSort)
      rw [e] at this
      exact .one this
    · rename_i hl
      match cs, hne, hl with
      | [c], _, _ => simpa [joinAnd, Denotes] using h c (by simp)
      | _ :: _ :: _, _, hl => simp at hl
  intro v
  exact ⟨fun hv => isOr_unique ρ hv key, fun hv => hv ▸ key⟩

/-- **C07** Order and repetition do not matter: two lists with the same members give
conditions with the same truth value on every row. -/
theorem C07_python_where_set (ρ : Nat → Bool) (le : Text → Text → Bool) (cs ds : List Text)
    (hne : cs ≠ []) (hset : ∀ c, c ∈ cs ↔ c ∈ ds) (val : Text → Bool)
    (h : ∀ c ∈ cs, Denotes ρ c (val c)) :
    ∀ v, Denotes ρ (pyWhere le cs) v ↔ Denotes ρ (pyWhere le ds) v := by
  intro v
  have hne' : ds ≠ [] := by
    rintro rfl
    match cs, hne with
    | c :: _, _ => simpa using (hset c).1 (by simp)
  rw [C07_python_where_is_conjunction ρ le cs hne val h,
    C07_python_where_is_conjunction ρ le ds hne' val (fun c hc => h c ((hset c).2 hc)),
    all_eq_of_mem val hset]

/-- **C07** After any history of `add_where` calls the filter holds exactly the
conditions that were ever given. -/
theorem C07_add_where_history {α : Type} [DecidableEq α] (init : List α) (calls : List (List α)) :
    ∀ c, c ∈ addWheres init calls ↔ c ∈ init ∨ ∃ call ∈ calls, c ∈ call := by
  induction calls generalizing init with
  | nil => simp [addWheres]
  | cons call calls ih =>
    intro c
    have := ih (addWhere init call) c
    simp only [addWheres, List.foldl_cons] at this ⊢
    rw [this]
    unfold addWhere
    split
    · rename_i h; subst h; simp
    · simp [or_assoc]

theorem hasSpacedOr_iff {c : Text} : hasSpacedOr c = true ↔ ∃ a b, c = a ++ [.sp, .or, .sp] ++ b := by
  induction c with
  | nil => simp [hasSpacedOr]
  | cons t ts ih =>
    rw [hasSpacedOr, Bool.or_eq_true, ih, List.isPrefixOf_iff_prefix]
    constructor
    · rintro (⟨b, h⟩ | ⟨a, b, h⟩)
      · exact ⟨[], b, by simpa using h.symm⟩
      · exact ⟨t :: a, b, by simp [h]⟩
    · rintro ⟨a, b, h⟩
      match a with
      | [] => exact Or.inl ⟨b, by simpa using h.symm⟩
      | x :: a =>
        simp only [List.cons_append, List.cons.injEq] at h
        exact Or.inr ⟨a, b, by simp [h.2]⟩

/-- **C07** (SQL side, partial) If every condition that contains an `or` has one written
with single spaces around it, the WHERE text is the conjunction. What is missing: an
`or` next to other white space, see `C07_sql_or_newline_violation`. -/
theorem C07_sql_where_is_conjunction_partial (ρ : Nat → Bool) (le : Text → Text → Bool)
    (cs : List Text) (hne : cs ≠ []) (val : Text → Bool) (h : ∀ c ∈ cs, Denotes ρ c (val c))
    (hor : ∀ c ∈ cs, Tok.or ∈ c → ∃ a b, c = a ++ [.sp, .or, .sp] ++ b) :
    ∀ v, Denotes ρ (sqlWhere le cs) v ↔ v = cs.all val := by
  have key : Denotes ρ (sqlWhere le cs) (cs.all val) := by
    unfold sqlWhere Denotes
    have hP : ∀ t ∈ (cs.dedup.map sqlFilter).mergeSort le, ∃ v, IsAnd ρ (stripWs t) v := by
      intro t ht
      rw [List.mem_mergeSort, List.mem_map] at ht
      obtain ⟨c, hc, rfl⟩ := ht
      rw [List.mem_dedup] at hc
      unfold sqlFilter
      split
      · rw [stripWs_paren]; exact ⟨_, .fac (.paren (h c hc))⟩
      · rename_i hno
        refine ⟨_, isOr_no_or ρ (h c hc) ?_⟩
        intro hm
        exact hno (hasSpacedOr_iff.2 (hor c hc (List.mem_filter.1 hm).1))
    classical
    let w : Text → Bool := fun t => if hx : ∃ v, IsAnd ρ (stripWs t) v then hx.choose else true
    have hw : ∀ t ∈ (cs.dedup.map sqlFilter).mergeSort le, IsAnd ρ (stripWs t) (w t) := by
      intro t ht
      have := hP t ht
      simp only [w, this, dif_pos]
      exact this.choose_spec
    have hj := joinAnd_isAnd ρ (cs := (cs.dedup.map sqlFilter).mergeSort le) (by
      intro h0
      have h1 := congrArg List.length h0
      rw [List.length_mergeSort, List.length_map] at h1
      match cs, hne with
      | c :: cs', _ =>
        have : c ∈ (c :: cs').dedup := by simp
        rw [List.length_nil, List.length_eq_zero_iff] at h1
        rw [h1] at this; simp at this) hw
    have e : ((cs.dedup.map sqlFilter).mergeSort le).all w = cs.all val := by
      rw [all_eq_of_mem w (fun x => List.mem_mergeSort), List.all_map,
        all_eq_of_mem _ (fun x => List.mem_dedup)]
      rw [Bool.eq_iff_iff, List.all_eq_true, List.all_eq_true]
      have hv : ∀ c ∈ cs, (w ∘ sqlFilter) c = val c := by
        intro c hc
        have h1 : IsAnd ρ (stripWs (sqlFilter c)) (w (sqlFilter c)) :=
          hw _ (by rw [List.mem_mergeSort, List.mem_map]; exact ⟨c, by simpa using hc, rfl⟩)
        have h2 : IsOr ρ (stripWs (sqlFilter c)) (val c) := by
          unfold sqlFilter
          split
          · rw [stripWs_paren]; exact .one (.fac (.paren (h c hc)))
          · exact h c hc
        exact isOr_unique ρ (.one h1) h2
      exact ⟨fun H c hc => by rw [← hv c hc]; exact H c hc, fun H c hc => by rw [hv c hc]; exact H c hc⟩
    rw [e] at hj
    exact .one hj
  intro v
  exact ⟨fun hv => isOr_unique ρ hv key, fun hv => hv ▸ key⟩

/-! ### Concrete cases -/

/-- The conditions `a or b` and `c`, with `b` true and `a`, `c` false: the combined
condition is false. -/
example : Denotes (fun n => n = 1) (pyWhere (fun _ _ => true)
      [[.atom 0, .sp, .or, .sp, .atom 1], [.atom 2]]) false ∧
    Denotes (fun n => n = 1) (sqlWhere (fun _ _ => true)
      [[.atom 0, .sp, .or, .sp, .atom 1], [.atom 2]]) false := by
  have h1 : Denotes (fun n => decide (n = 1)) [.atom 0, .sp, .or, .sp, .atom 1] true :=
    .or (.one (.fac (.atom 0))) (.fac (.atom 1))
  have h2 : Denotes (fun n => decide (n = 1)) [.atom 2] false := .one (.fac (.atom 2))
  let val : Text → Bool := fun c => c.contains (.atom 1)
  have h : ∀ c ∈ [[Tok.atom 0, .sp, .or, .sp, .atom 1], [.atom 2]],
      Denotes (fun n => decide (n = 1)) c (val c) := by
    intro c hc
    simp only [List.mem_cons, List.not_mem_nil, or_false] at hc
    rcases hc with rfl | rfl
    · exact h1
    · exact h2
  exact ⟨(C07_python_where_is_conjunction _ _ _ (by simp) val h false).2 (by decide +kernel),
    (C07_sql_where_is_conjunction_partial _ _ _ (by simp) val h (by
      intro c hc ho
      simp only [List.mem_cons, List.not_mem_nil, or_false] at hc
      rcases hc with rfl | rfl
      · exact ⟨[.atom 0], [.atom 1], rfl⟩
      · simp at ho) false).2
      (by decide +kernel)⟩

/-- **C07 violated in SQL**: the conditions `c` and `a⏎or b`, or `a or⏎b`, become
`c AND a⏎or b`, which is true of a row where only `b` holds, though `c` does not. -/
theorem C07_sql_or_newline_violation (s t : Tok) (hst : (s, t) = (.nl, .sp) ∨ (s, t) = (.sp, .nl) ∨ (s, t) = (.nl, .nl)) :
    let ρ : Nat → Bool := fun n => n = 1
    let cs : List Text := [[.atom 2], [.atom 0, s, .or, t, .atom 1]]
    Denotes ρ [.atom 2] false ∧ Denotes ρ [.atom 0, s, .or, t, .atom 1] true ∧
    Denotes ρ (sqlWhere (fun _ _ => true) cs) true ∧
    Denotes ρ (pyWhere (fun _ _ => true) cs) false := by
  have hs : stripWs [.atom 0, s, .or, t, .atom 1] = [.atom 0, .or, .atom 1] := by
    rcases hst with h | h | h <;> obtain ⟨rfl, rfl⟩ := Prod.mk.inj h <;> rfl
  have hor : Denotes (fun n => decide (n = 1)) [.atom 0, s, .or, t, .atom 1] true := by
    rw [Denotes, hs]
    exact .or (.one (.fac (.atom 0))) (.fac (.atom 1))
  refine ⟨.one (.fac (.atom 2)), hor, ?_, ?_⟩
  · have e : sqlWhere (fun _ _ => true) [[.atom 2], [.atom 0, s, .or, t, .atom 1]]
        = [.atom 2, .sp, .and, .sp, .atom 0, s, .or, t, .atom 1] := by
      have hd : (([[.atom 2], [.atom 0, s, .or, t, .atom 1]] : List Text).dedup.map sqlFilter)
          = [[.atom 2], [.atom 0, s, .or, t, .atom 1]] := by
        rcases hst with h | h | h <;> obtain ⟨rfl, rfl⟩ := Prod.mk.inj h <;> decide +kernel
      unfold sqlWhere
      rw [hd]
      simp [List.mergeSort, List.MergeSort.Internal.splitInTwo, joinAnd, List.merge]
    have e2 : stripWs [.atom 2, .sp, .and, .sp, .atom 0, s, .or, t, .atom 1] = [.atom 2, .and, .atom 0, .or, .atom 1] := by
      rcases hst with h | h | h <;> obtain ⟨rfl, rfl⟩ := Prod.mk.inj h <;> rfl
    show Denotes _ (sqlWhere _ [[.atom 2], [.atom 0, s, .or, t, .atom 1]]) true
    rw [e, Denotes, e2]
    exact IsOr.or (ts := [.atom 2, .and, .atom 0]) (us := [.atom 1]) (v := false) (w := true)
      (.one (.and (ts := [.atom 2]) (us := [.atom 0]) (.fac (.atom 2)) (.atom 0))) (.fac (.atom 1))
  · refine (C07_python_where_is_conjunction _ _ _ (by simp) (fun c => c.contains (.atom 1)) ?_
      false).2 ?_
    · intro c hc
      simp only [List.mem_cons, List.not_mem_nil, or_false] at hc
      rcases hc with rfl | rfl
      · exact .one (.fac (.atom 2))
      · have : ([.atom 0, s, .or, t, .atom 1] : Text).contains (.atom 1) = true := by simp
        rw [this]
        exact hor
    · rcases hst with h | h | h <;> obtain ⟨rfl, rfl⟩ := Prod.mk.inj h <;> decide +kernel

end Verif
