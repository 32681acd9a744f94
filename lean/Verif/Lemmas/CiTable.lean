import Verif.Spec.CiTable
import Verif.Props.StdErr
import Verif.Props.SqlColumns

/-!
# Lemmas for C80
-/

namespace Verif

variable {κ : Type} [DecidableEq κ]

/-! ## Positions -/

theorem ciSelect_ci {α : Type} : ∀ (p s : List α), s.length = 2 * p.length →
    (ciSelect true p s).length = 3 * p.length ∧
    ∀ j, j < p.length → (ciSelect true p s)[3 * j]? = p[j]? ∧ (ciSelect true p s)[3 * j + 1]? = s[2 * j]? ∧
      (ciSelect true p s)[3 * j + 2]? = s[2 * j + 1]?
  | [], s, h => by
      have : s = [] := by cases s <;> simp_all
      subst this
      simp [ciSelect]
  | a :: p, s, h => by
      match s, h with
      | x :: y :: s, h =>
        have hs : s.length = 2 * p.length := by simp at h; omega
        obtain ⟨h1, h2⟩ := ciSelect_ci p s hs
        have e : ciSelect true (a :: p) (x :: y :: s) = a :: x :: y :: ciSelect true p s := by
          simp [ciSelect, evens, odds]
        rw [e]
        refine ⟨by simp [h1]; omega, fun j hj => ?_⟩
        cases j with
        | zero => simp
        | succ j =>
          obtain ⟨a1, a2, a3⟩ := h2 j (by simpa using hj)
          refine ⟨?_, ?_, ?_⟩
          · rw [show 3 * (j + 1) = 3 * j + 1 + 1 + 1 by ring]; simpa using a1
          · rw [show 3 * (j + 1) + 1 = 3 * j + 1 + 1 + 1 + 1 by ring, show 2 * (j + 1) = 2 * j + 1 + 1 by ring]
            simpa using a2
          · rw [show 3 * (j + 1) + 2 = 3 * j + 2 + 1 + 1 + 1 by ring, show 2 * (j + 1) + 1 = 2 * j + 1 + 1 + 1 by ring]
            simpa using a3
      | [_], h => simp at h; omega
      | [], h => simp at h

theorem ciSelect_se {α : Type} : ∀ (p s : List α), s.length = p.length →
    (ciSelect false p s).length = 2 * p.length ∧
    ∀ j, j < p.length → (ciSelect false p s)[2 * j]? = p[j]? ∧ (ciSelect false p s)[2 * j + 1]? = s[j]?
  | [], s, h => by
      have : s = [] := by cases s <;> simp_all
      subst this
      simp [ciSelect]
  | a :: p, s, h => by
      match s, h with
      | x :: s, h =>
        obtain ⟨h1, h2⟩ := ciSelect_se p s (by simpa using h)
        have e : ciSelect false (a :: p) (x :: s) = a :: x :: ciSelect false p s := by simp [ciSelect]
        rw [e]
        refine ⟨by simp [h1]; omega, fun j hj => ?_⟩
        cases j with
        | zero => simp
        | succ j =>
          obtain ⟨a1, a2⟩ := h2 j (by simpa using hj)
          refine ⟨?_, ?_⟩
          · rw [show 2 * (j + 1) = 2 * j + 1 + 1 by ring]; simpa using a1
          · rw [show 2 * (j + 1) + 1 = 2 * j + 1 + 1 + 1 by ring]; simpa using a2
      | [], h => simp at h

theorem flatMap_pair {α : Type} (A B : ℕ → α) (n : ℕ) :
    ((List.range n).flatMap fun j => [A j, B j]).length = 2 * n ∧
    ∀ j, j < n → ((List.range n).flatMap fun j => [A j, B j])[2 * j]? = some (A j) ∧
      ((List.range n).flatMap fun j => [A j, B j])[2 * j + 1]? = some (B j) := by
  induction n with
  | zero => simp
  | succ n ih =>
    obtain ⟨h1, h2⟩ := ih
    rw [List.range_succ, List.flatMap_append]
    refine ⟨by simp only [List.length_append, h1]; simp; omega, fun j hj => ?_⟩
    by_cases hjn : j < n
    · rw [List.getElem?_append_left (by rw [h1]; omega), List.getElem?_append_left (by rw [h1]; omega)]
      exact h2 j hjn
    · have : j = n := by omega
      subst this
      rw [List.getElem?_append_right (by rw [h1]), List.getElem?_append_right (by rw [h1]; omega), h1]
      simp

theorem flatMap_single {α : Type} (A : ℕ → α) (n : ℕ) : ((List.range n).flatMap fun j => [A j]) = (List.range n).map A := by
  induction n with
  | zero => rfl
  | succ n ih => rw [List.range_succ, List.flatMap_append, ih]; simp

theorem colVal_eq {l : List (Option ℝ)} {j : ℕ} {x : Option ℝ} (h : l[j]? = some x) : colVal l j = x := by
  simp [colVal, h]

theorem colVal_replicate (w j : ℕ) : colVal (List.replicate w none) j = none := by
  unfold colVal
  rw [List.getElem?_replicate]
  split <;> rfl

/-! ## Joins -/

/-- Rows of the right table for a key. -/
def rowWith (w : ℕ) (r : RTab κ) (k : RKey κ) : List (Option ℝ) :=
  match r.find? fun b => decide (b.1 = k) with
  | some b => b.2
  | none => List.replicate w none

theorem filter_one (r : RTab κ) (hr : (r.map Prod.fst).Nodup) (k : RKey κ) (hk : none ∉ k) :
    (r.filter fun b => keyMatch k b.1) = (r.find? fun b => decide (b.1 = k)).toList := by
  induction r with
  | nil => rfl
  | cons b r ih =>
    have hr' : (r.map Prod.fst).Nodup := by simp at hr ⊢; exact hr.2
    by_cases e : b.1 = k
    · rw [List.filter_cons_of_pos (by simp [keyMatch, e, hk]), List.find?_cons_of_pos (by simp [e])]
      have : (r.filter fun b => keyMatch k b.1) = [] := by
        rw [List.filter_eq_nil_iff]
        intro x hx hm
        simp only [keyMatch, Bool.and_eq_true, decide_eq_true_eq] at hm
        simp only [List.map_cons, List.nodup_cons, List.mem_map, not_exists, not_and] at hr
        exact hr.1 x hx (by rw [e, hm.1])
      simp [this]
    · rw [List.filter_cons_of_neg (by simp [keyMatch, Ne.symm e]), List.find?_cons_of_neg (by simp [e])]
      exact ih hr'

theorem joinRows_indexed {β : Type} (w : ℕ) (l : List (RKey κ × β)) (r : RTab κ) (hr : (r.map Prod.fst).Nodup)
    (hl : ∀ a ∈ l, none ∉ a.1) : joinRows true w l r = l.map fun a => (a.1, a.2, rowWith w r a.1) := by
  unfold joinRows
  rw [if_pos rfl]
  induction l with
  | nil => rfl
  | cons a l ih =>
    rw [List.flatMap_cons, List.map_cons, ih (fun x hx => hl x (List.mem_cons_of_mem _ hx)),
      filter_one r hr a.1 (hl a List.mem_cons_self)]
    unfold rowWith
    cases r.find? fun b => decide (b.1 = a.1) <;> simp

theorem joinRows_cross {β : Type} (w : ℕ) (l : List (RKey κ × β)) (b : RKey κ × List (Option ℝ)) :
    joinRows false w l [b] = l.map fun a => (a.1, a.2, b.2) := by
  unfold joinRows
  rw [if_neg (by simp)]
  induction l with
  | nil => rfl
  | cons a l ih => rw [List.flatMap_cons, List.map_cons, ih]; rfl

/-! ## Standard errors -/

theorem repsOf_estimates (t : RTab κ) (k : RKey κ) (j : ℕ) : (repsOf t k j).filterMap id = estimatesOf t k j := by
  unfold repsOf estimatesOf
  induction t with
  | nil => rfl
  | cons r t ih =>
    by_cases e : r.1 = k
    · rw [List.filter_cons_of_pos (by simpa using e), List.map_cons]
      rw [List.filterMap_cons, List.filterMap_cons, if_pos e, ih]
      rfl
    · rw [List.filter_cons_of_neg (by simpa using e), List.filterMap_cons, if_neg e, ih]

theorem seSql_spec (jk : Bool) (reps : List (Option ℝ)) : seSql jk reps = specSE jk (reps.filterMap id) := by
  unfold seSql specSE
  cases jk with
  | true =>
    rw [if_pos rfl, C39_sql_agrees]
    by_cases h : (reps.filterMap id).length < 2
    · rw [if_pos h]
      simp only [jkStderr, bsStderr, stdSamp, if_pos h, Option.map_none]
    · rw [if_neg h]
      rw [C39_value, if_pos (by omega)]
      simp
  | false =>
    simp only [stdSamp]
    simp

theorem getStderrs_spec (jk : Bool) (reps : List (Option ℝ)) :
    getStderrs jk reps = (specSE jk (reps.filterMap id), ((reps.filterMap id).length : ℤ) - 1) := by
  have h1 : (getStderrs jk reps).1 = seSql jk reps := by
    cases jk with
    | true => simp [getStderrs, seSql, C39_sql_agrees]
    | false => simp [getStderrs, seSql, bsStderr]
  have h2 : (getStderrs jk reps).2 = ((reps.filterMap id).length : ℤ) - 1 := by
    cases jk <;> simp [getStderrs, jkStderr, bsStderr]
  rw [← seSql_spec, ← h1, ← h2]

theorem seTab_nodup (jk conf indexed : Bool) (n : ℕ) (samples : RTab κ) :
    ((seTab jk conf indexed n samples).map Prod.fst).Nodup := by
  unfold seTab
  simp only [List.map_map]
  rw [show (Prod.fst ∘ fun k => (k, (List.range n).flatMap fun j => seCells jk conf (repsOf samples k j))) = id from rfl,
    List.map_id]
  split
  · exact List.nodup_dedup _
  · simp

theorem find_map_key {l : List (RKey κ)} (f : RKey κ → List (Option ℝ)) (k : RKey κ) :
    ((l.map fun k => (k, f k)).find? fun b => decide (b.1 = k)) = if k ∈ l then some (k, f k) else none := by
  induction l with
  | nil => simp
  | cons a l ih =>
    rw [List.map_cons]
    by_cases e : a = k
    · subst e
      rw [List.find?_cons_of_pos (by simp)]
      simp
    · rw [List.find?_cons_of_neg (by simpa using e), ih]
      have : k ∈ a :: l ↔ k ∈ l := by simp [Ne.symm e]
      simp [this]

theorem estimates_nil {t : RTab κ} {k : RKey κ} (h : k ∉ t.map Prod.fst) (j : ℕ) : estimatesOf t k j = [] := by
  unfold estimatesOf
  rw [List.filterMap_eq_nil_iff]
  intro r hr
  rw [if_neg]
  rintro rfl
  exact h (List.mem_map_of_mem hr)

/-- What the join puts beside the estimates of the key. -/
theorem seRow_ci (jk : Bool) (n : ℕ) (samples : RTab κ) (k : RKey κ) (j : ℕ) (hj : j < n) :
    (rowWith (2 * n) (seTab jk true true n samples) k).length = 2 * n ∧
    colVal (rowWith (2 * n) (seTab jk true true n samples) k) (2 * j) = specSE jk (estimatesOf samples k j) ∧
    ∀ ppf c, ciHalfWidth ppf c (specSE jk (estimatesOf samples k j))
        (dofInt (colVal (rowWith (2 * n) (seTab jk true true n samples) k) (2 * j + 1)))
      = ciHalfWidth ppf c (specSE jk (estimatesOf samples k j)) (((estimatesOf samples k j).length : ℤ) - 1) := by
  unfold rowWith seTab
  simp only [if_true]
  rw [find_map_key (fun k => (List.range n).flatMap fun j => seCells jk true (repsOf samples k j))]
  by_cases h : k ∈ (samples.map Prod.fst).dedup
  · rw [if_pos h]
    simp only [seCells, if_true]
    have hp := flatMap_pair (fun j => seSql jk (repsOf samples k j))
      (fun j => some ((((repsOf samples k j).filterMap id).length : ℝ) - 1)) n
    refine ⟨hp.1, ?_, fun ppf c => ?_⟩
    · rw [colVal_eq (hp.2 j hj).1, seSql_spec, repsOf_estimates]
    · rw [colVal_eq (hp.2 j hj).2, repsOf_estimates]
      congr 1
      simp only [dofInt, Option.getD_some]
      rw [show (((estimatesOf samples k j).length : ℝ) - 1) = (((estimatesOf samples k j).length : ℤ) - 1 : ℤ) by push_cast; ring]
      exact Int.floor_intCast _
  · rw [if_neg h]
    have hn := estimates_nil (fun hh => h (List.mem_dedup.2 hh)) j
    have hs : specSE jk ([] : List ℝ) = none := by simp [specSE]
    refine ⟨by simp, ?_, fun ppf c => ?_⟩
    · simp only [colVal_replicate]
      rw [hn, hs]
    · simp only
      rw [hn, hs]
      rfl

theorem seRow_se (jk : Bool) (n : ℕ) (samples : RTab κ) (k : RKey κ) (j : ℕ) (hj : j < n) :
    (rowWith n (seTab jk false true n samples) k).length = n ∧
    colVal (rowWith n (seTab jk false true n samples) k) j = specSE jk (estimatesOf samples k j) := by
  unfold rowWith seTab
  simp only [if_true]
  rw [find_map_key (fun k => (List.range n).flatMap fun j => seCells jk false (repsOf samples k j))]
  by_cases h : k ∈ (samples.map Prod.fst).dedup
  · rw [if_pos h]
    simp only [seCells, Bool.false_eq_true, if_false]
    rw [flatMap_single]
    refine ⟨by simp, ?_⟩
    rw [colVal_eq (x := seSql jk (repsOf samples k j)) (by simp [hj]), seSql_spec, repsOf_estimates]
  · rw [if_neg h]
    refine ⟨by simp, ?_⟩
    simp only [colVal_replicate]
    rw [estimates_nil (fun hh => h (List.mem_dedup.2 hh)) j]
    simp [specSE]

/-! ## The names of the columns -/

/-- Expression and name. -/
def SCol.core (c : SCol) : Txt × Option Txt := (c.expr, c.raw)

theorem addColumn_new {cols cols' : List SCol} {c c' : SCol} (hn : ∀ d ∈ cols, d.named) (he : c.expr ∉ cols.map SCol.expr)
    (h : addColumn cols c = some (cols', c')) : cols' = cols ++ [c'] ∧ c'.core = c.core := by
  unfold addColumn at h
  rcases addCol_spec _ _ _ _ h with ⟨_, f, fs, hg, _⟩ | ⟨_, h1, ⟨k, _, h2⟩, _⟩
  · exact absurd hg ((getAlias_named hn _).2 he f fs)
  · exact ⟨h1, by rw [h2]; rfl⟩

/-- Columns with new and different expressions are all added, in their order, with their names. -/
theorem addColumns_new : ∀ (cs cols cols' cs' : List SCol), (∀ d ∈ cols, d.named) → (∀ d ∈ cs, d.named) →
    (cs.map SCol.expr).Nodup → (∀ d ∈ cs, d.expr ∉ cols.map SCol.expr) → addColumns cols cs = some (cols', cs') →
    cols' = cols ++ cs' ∧ cs'.map SCol.core = cs.map SCol.core
  | [], cols, cols', cs', _, _, _, _, h => by
      cases h
      exact ⟨by simp, rfl⟩
  | c :: cs, cols, cols', cs', hc, hcs, hnd, hnew, h => by
      rw [addColumns] at h
      cases h1 : addColumn cols c with
      | none => rw [h1] at h; cases h
      | some p =>
        obtain ⟨cols1, c1⟩ := p
        cases h2 : addColumns cols1 cs with
        | none => rw [h1] at h; simp [h2] at h
        | some q =>
          obtain ⟨cols2, cs2⟩ := q
          rw [h1] at h
          simp only [h2, Option.bind_eq_bind, Option.bind_some, Option.pure_def, Option.some.injEq, Prod.mk.injEq] at h
          obtain ⟨rfl, rfl⟩ := h
          obtain ⟨e1, e2⟩ := addColumn_new hc (hnew c List.mem_cons_self) h1
          have e3 : c1.expr = c.expr := congrArg Prod.fst e2
          have e4 : c1.raw = c.raw := congrArg Prod.snd e2
          subst e1
          obtain ⟨i1, i2⟩ := addColumns_new cs _ _ _ (by
              intro d hd
              rcases List.mem_append.1 hd with hd | hd
              · exact hc d hd
              · rw [List.mem_singleton.1 hd]
                unfold SCol.named
                rw [e4]
                exact hcs c List.mem_cons_self)
            (fun d hd => hcs d (List.mem_cons_of_mem _ hd)) (by simp at hnd ⊢; exact hnd.2) (by
              intro d hd hm
              rw [List.map_append, List.mem_append] at hm
              rcases hm with hm | hm
              · exact hnew d (List.mem_cons_of_mem _ hd) hm
              · simp only [List.map_cons, List.map_nil, List.mem_singleton] at hm
                simp only [List.map_cons, List.nodup_cons, List.mem_map, not_exists, not_and] at hnd
                exact hnd.1 d hd (by rw [hm, e3])) h2
          exact ⟨by rw [i1]; simp, by simp [i2, e2]⟩

theorem ciSelect_mem {α : Type} (conf : Bool) (p s : List α) : ∀ x ∈ ciSelect conf p s, x ∈ p ∨ x ∈ s := by
  have ev : ∀ (l : List α), (∀ x ∈ evens l, x ∈ l) ∧ ∀ x ∈ odds l, x ∈ l := by
    intro l
    induction l using evens.induct with
    | case1 => simp [evens, odds]
    | case2 a => simp [evens, odds]
    | case3 a b l ih =>
      constructor
      · intro x hx
        rcases List.mem_cons.1 hx with rfl | hx
        · simp
        · simp [ih.1 x hx]
      · intro x hx
        rcases List.mem_cons.1 hx with rfl | hx
        · simp
        · simp [ih.2 x hx]
  intro x hx
  cases conf with
  | true =>
    simp only [ciSelect, if_true, List.mem_flatMap] at hx
    obtain ⟨⟨a, b, c⟩, h1, h2⟩ := hx
    have ha := (List.of_mem_zip h1).1
    have hb := (List.of_mem_zip (List.of_mem_zip h1).2).1
    have hc := (List.of_mem_zip (List.of_mem_zip h1).2).2
    simp only [List.mem_cons, List.not_mem_nil, or_false] at h2
    rcases h2 with rfl | rfl | rfl
    · exact Or.inl ha
    · exact Or.inr ((ev s).1 _ hb)
    · exact Or.inr ((ev s).2 _ hc)
  | false =>
    simp only [ciSelect, Bool.false_eq_true, if_false, List.mem_flatMap] at hx
    obtain ⟨⟨a, b⟩, h1, h2⟩ := hx
    simp only [List.mem_cons, List.not_mem_nil, or_false] at h2
    rcases h2 with rfl | rfl
    · exact Or.inl (List.of_mem_zip h1).1
    · exact Or.inr (List.of_mem_zip h1).2

theorem ciSelect_map {α β : Type} (f : α → β) (conf : Bool) (p s : List α) :
    (ciSelect conf p s).map f = ciSelect conf (p.map f) (s.map f) := by
  have ev : ∀ (l : List α), (evens l).map f = evens (l.map f) ∧ (odds l).map f = odds (l.map f) := by
    intro l
    induction l using evens.induct with
    | case1 => simp [evens, odds]
    | case2 a => simp [evens, odds]
    | case3 a b l ih => simp [evens, odds, ih.1, ih.2]
  cases conf with
  | true =>
    simp only [ciSelect, if_true, ← (ev s).1, ← (ev s).2]
    rw [List.zip_map, List.zip_map, List.map_flatMap, List.flatMap_map]
    rfl
  | false =>
    simp only [ciSelect, Bool.false_eq_true, if_false]
    rw [List.zip_map, List.map_flatMap, List.flatMap_map]
    rfl

theorem ciSelect_nodup {α : Type} (p s : List α) (h : (p ++ s).Nodup) :
    (s.length = 2 * p.length → (ciSelect true p s).Nodup) ∧ (s.length = p.length → (ciSelect false p s).Nodup) := by
  constructor
  · induction p generalizing s with
    | nil => intro _; simp [ciSelect]
    | cons a p ih =>
      intro hl
      match s, hl with
      | x :: y :: s, hl =>
        have hl' : s.length = 2 * p.length := by simp at hl; omega
        have hnd : (p ++ s).Nodup := by
          refine h.sublist ?_
          rw [List.cons_append]
          exact ((List.Sublist.refl p).append ((List.sublist_cons_self y s).cons x)).cons a
        have e : ciSelect true (a :: p) (x :: y :: s) = a :: x :: y :: ciSelect true p s := by
          simp [ciSelect, evens, odds]
        have hm := ciSelect_mem true p s
        have hp : (a :: x :: y :: (p ++ s)).Nodup := by
          refine (List.Perm.nodup_iff ?_).1 h
          rw [List.cons_append]
          refine List.Perm.cons a ?_
          exact (List.perm_middle).trans (List.Perm.cons x List.perm_middle)
        rw [e]
        simp only [List.nodup_cons, List.mem_cons, List.mem_append, not_or] at hp ⊢
        refine ⟨⟨hp.1.1, hp.1.2.1, fun hx => ?_⟩, ⟨hp.2.1.1, fun hx => ?_⟩, fun hx => ?_, ih s hnd hl'⟩
        · rcases hm _ hx with hx | hx
          · exact hp.1.2.2.1 hx
          · exact hp.1.2.2.2 hx
        · rcases hm _ hx with hx | hx
          · exact hp.2.1.2.1 hx
          · exact hp.2.1.2.2 hx
        · rcases hm _ hx with hx | hx
          · exact hp.2.2.1.1 hx
          · exact hp.2.2.1.2 hx
      | [_], hl => simp at hl; omega
      | [], hl => simp at hl
  · induction p generalizing s with
    | nil => intro _; simp [ciSelect]
    | cons a p ih =>
      intro hl
      match s, hl with
      | x :: s, hl =>
        have hnd : (p ++ s).Nodup := by
          refine h.sublist ?_
          rw [List.cons_append]
          exact ((List.Sublist.refl p).append (List.sublist_cons_self x s)).cons a
        have e : ciSelect false (a :: p) (x :: s) = a :: x :: ciSelect false p s := by simp [ciSelect]
        have hm := ciSelect_mem false p s
        have hp : (a :: x :: (p ++ s)).Nodup := by
          refine (List.Perm.nodup_iff ?_).1 h
          rw [List.cons_append]
          exact List.Perm.cons a List.perm_middle
        rw [e]
        simp only [List.nodup_cons, List.mem_cons, List.mem_append, not_or] at hp ⊢
        refine ⟨⟨hp.1.1, fun hx => ?_⟩, fun hx => ?_, ih s hnd (by simpa using hl)⟩
        · rcases hm _ hx with hx | hx
          · exact hp.1.2.1 hx
          · exact hp.1.2.2 hx
        · rcases hm _ hx with hx | hx
          · exact hp.2.1.1 hx
          · exact hp.2.1.2 hx
      | [], hl => simp at hl

end Verif
