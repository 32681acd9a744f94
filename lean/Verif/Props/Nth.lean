import Verif.Model.Nth
import Verif.Spec.Nth
import Verif.Spec.Example

/-!
# C14 Nth picks the right row from either end
-/

namespace Verif

theorem split_at {α : Type} : ∀ (l : List α) (k : Nat) (r : α), l[k]? = some r →
    ∃ a b, l = a ++ r :: b ∧ a.length = k
  | [], k, r, h => by simp at h
  | x :: xs, 0, r, h => by
      simp at h; exact ⟨[], xs, by simp [h], rfl⟩
  | x :: xs, k + 1, r, h => by
      simp at h
      obtain ⟨a, b, h1, h2⟩ := split_at xs k r h
      exact ⟨x :: a, b, by simp [h1], by simp [h2]⟩

/-- The row at position `k` of a sorted arrangement, by counting. -/
theorem rank_of_pairwise {α : Type} (lt : α → α → Bool) (hirr : ∀ a, lt a a = false)
    (l : List α) (hp : l.Pairwise (fun a b => lt b a = false)) (k : Nat) (r : α)
    (h : l[k]? = some r) :
    (l.filter (fun x => lt x r)).length ≤ k ∧ k < (l.filter (fun x => !lt r x)).length := by
  obtain ⟨a, b, rfl, ha⟩ := split_at l k r h
  rw [List.pairwise_append] at hp
  obtain ⟨_, hb, hab⟩ := hp
  rw [List.pairwise_cons] at hb
  have hb0 : b.filter (fun x => lt x r) = [] := by
    rw [List.filter_eq_nil_iff]
    intro x hx; simp [hb.1 x hx]
  have ha1 : a.filter (fun x => !lt r x) = a := by
    rw [List.filter_eq_self]
    intro x hx; simp [hab x hx r (by simp)]
  constructor
  · simp only [List.filter_append, List.filter_cons, hirr, hb0, List.length_append]
    have := List.length_filter_le (fun x => lt x r) a
    simp; omega
  · simp only [List.filter_append, List.filter_cons, hirr, ha1, List.length_append]
    simp; omega

theorem perm_filter_length {α : Type} {l l' : List α} (h : l.Perm l') (p : α → Bool) :
    (l.filter p).length = (l'.filter p).length := (h.filter p).length_eq

theorem sortsBefore_earlier (asc : Bool) (c : String) (x r : Row) (hx : (x c).isSome)
    (hr : (r c).isSome) : sortsBefore asc (x c) (r c) = decide (earlier asc c x r) := by
  obtain ⟨a, ha⟩ := Option.isSome_iff_exists.1 hx
  obtain ⟨b, hb⟩ := Option.isSome_iff_exists.1 hr
  have : earlier asc c x r ↔ (if asc then a < b else b < a) := by
    constructor
    · rintro ⟨a', b', h1, h2, h⟩
      rw [ha] at h1; rw [hb] at h2; cases h1; cases h2; exact h
    · intro h; exact ⟨a, b, ha, hb, h⟩
  rw [Bool.eq_iff_iff, decide_eq_true_iff, this, ha, hb, sortsBefore]
  cases asc <;> simp

theorem sortsBefore_flip (asc : Bool) (c : String) (x r : Row) (hx : (x c).isSome)
    (hr : (r c).isSome) : sortsBefore (!asc) (x c) (r c) = decide (earlier asc c r x) := by
  obtain ⟨a, ha⟩ := Option.isSome_iff_exists.1 hx
  obtain ⟨b, hb⟩ := Option.isSome_iff_exists.1 hr
  have : earlier asc c r x ↔ (if asc then b < a else a < b) := by
    constructor
    · rintro ⟨a', b', h1, h2, h⟩
      rw [hb] at h1; rw [ha] at h2; cases h1; cases h2; exact h
    · intro h; exact ⟨b, a, hb, ha, h⟩
  rw [Bool.eq_iff_iff, decide_eq_true_iff, this, ha, hb, sortsBefore]
  cases asc <;> simp

theorem sortsBefore_irr (asc : Bool) (c : Cell) : sortsBefore asc c c = false := by
  cases c <;> cases asc <;> simp [sortsBefore]

/-- The picked row of one group. -/
theorem nth_of_group (a : NthArgs) (rows out : List Row)
    (hkeys : ∀ r ∈ rows, (r a.sortBy).isSome)
    (hs : SortedBy a.init.ascending a.sortBy rows out) (r : Row)
    (h : out[a.init.n]? = some r) : IsNth a.ascending a.sortBy a.n rows r := by
  have hr : r ∈ rows := hs.1.mem_iff.1 (List.mem_of_getElem? h)
  have hrank := rank_of_pairwise (fun x y => sortsBefore a.init.ascending (x a.sortBy) (y a.sortBy))
    (fun x => sortsBefore_irr _ _) out hs.2 a.init.n r h
  rw [perm_filter_length hs.1, perm_filter_length hs.1] at hrank
  refine ⟨hr, ?_⟩
  obtain ⟨v, n, c, asc, dn⟩ := a
  cases n with
  | ofNat k =>
    have h1 : ¬ (Int.ofNat k < 0) := by simp
    simp only [NthArgs.init, if_neg h1] at hrank
    have hk : (Int.ofNat k).toNat = k := rfl
    rw [hk] at hrank
    constructor
    · rw [List.filter_congr (q := fun x => sortsBefore asc (x c) (r c))
        (fun x hx => (sortsBefore_earlier asc c x r (hkeys x hx) (hkeys r hr)).symm)]
      exact hrank.1
    · rw [List.filter_congr (q := fun x => !sortsBefore asc (r c) (x c))
        (fun x hx => by rw [sortsBefore_earlier asc c r x (hkeys r hr) (hkeys x hx)])]
      exact hrank.2
  | negSucc k =>
    have h1 : Int.negSucc k < 0 := Int.negSucc_lt_zero k
    simp only [NthArgs.init, if_pos h1] at hrank
    have hk : (-(Int.negSucc k) - 1).toNat = k := by omega
    rw [hk] at hrank
    constructor
    · rw [List.filter_congr (q := fun x => sortsBefore (!asc) (x c) (r c))
        (fun x hx => (sortsBefore_flip asc c x r (hkeys x hx) (hkeys r hr)).symm)]
      exact hrank.1
    · rw [List.filter_congr (q := fun x => !sortsBefore (!asc) (r c) (x c))
        (fun x hx => by rw [sortsBefore_flip asc c r x (hkeys r hr) (hkeys x hx)])]
      exact hrank.2

theorem init_n (a : NthArgs) (rows : List Row) : a.init.n < rows.length ↔ HasNth a.n rows := by
  obtain ⟨v, n, c, asc, dn⟩ := a
  cases n with
  | ofNat k =>
    have h1 : ¬ (Int.ofNat k < 0) := by simp
    simp only [NthArgs.init, if_neg h1, HasNth]
    rfl
  | negSucc k =>
    have h1 : Int.negSucc k < 0 := Int.negSucc_lt_zero k
    simp only [NthArgs.init, if_pos h1, HasNth]
    have hk : (-(Int.negSucc k) - 1).toNat = k := by omega
    rw [hk]

theorem init_fields (a : NthArgs) :
    a.init.var = a.var ∧ a.init.sortBy = a.sortBy ∧ a.init.dropna = a.dropna := by
  unfold NthArgs.init; split <;> simp

theorem get_filterMap_none (g : Key → Option (Key × PyVal)) (v : Key)
    (hg : ∀ k p, g k = some p → p.1 = k) : ∀ ks : List Key,
    Tbl.get (ks.filterMap g) v = if v ∈ ks then (g v).map Prod.snd else none
  | [] => by simp [Tbl.get]
  | k :: ks => by
      have ih := get_filterMap_none g v hg ks
      by_cases hkv : k = v
      · subst hkv
        cases h : g k with
        | none =>
          simp only [List.filterMap_cons, h, List.mem_cons, true_or, if_true, Option.map_none]
          rw [ih]; split <;> simp [h]
        | some p =>
          simp [List.filterMap_cons, h, Tbl.get, hg k p h]
      · have hvk : ¬ v = k := fun e => hkv e.symm
        cases h : g k with
        | none =>
          simp only [List.filterMap_cons, h]
          rw [ih]; simp [hvk]
        | some p =>
          have hp : ¬ p.1 = v := by rw [hg k p h]; exact hkv
          simp only [List.filterMap_cons, h, Tbl.get, List.find?_cons, hp, decide_false]
          have := ih; simp only [Tbl.get] at this
          rw [this]; simp [hvk]

theorem rowsAt_nil (rs : List Row) (k : Key) : rowsAt [] k rs = if k = [] then rs else [] := by
  unfold rowsAt keyOf
  by_cases h : k = []
  · simp [h]
  · simp [h, Ne.symm h]

/-- Value reported for a slice: a missing row and NaN are both "null". -/
def reported (t : Tbl) (v : Key) : Cell := ((t.get v).getD .nan).toCell

theorem toCell_ofCell (c : Cell) : (PyVal.ofCell c).toCell = c := by
  cases c <;> rfl

theorem groupKeys_mem_perm (sb : List String) (hsb : sb ≠ []) {rs rs' : List Row} (h : rs.Perm rs')
    (v : Key) : v ∈ groupKeys sb rs ↔ v ∈ groupKeys sb rs' := by
  unfold groupKeys
  rw [if_neg hsb, if_neg hsb, List.mem_dedup, List.mem_dedup]
  exact (h.filterMap _).mem_iff

/-- What `compute_slices` reports for a slice is the entry at position `n` of the slice's rows
in sorted order. -/
theorem onSorted_reported (p : Nth) (sorted : List Row) (sb : List String) (v : Key)
    (hv : sb = [] → v = []) :
    reported (p.onSorted sorted sb) v
      = match (rowsAt sb v sorted)[p.n]? with | some r => r p.var | none => none := by
  unfold Nth.onSorted reported
  by_cases hsb : sb = []
  · subst hsb
    rw [hv rfl, if_pos rfl, rowsAt_nil, if_pos rfl]
    cases h : sorted[p.n]? with
    | none => simp [Tbl.get, PyVal.toCell, h]
    | some r => simp [Tbl.get, h, toCell_ofCell]
  · rw [if_neg hsb, get_filterMap_none _ _ (by
      intro k q hq
      rw [Option.map_eq_some_iff] at hq
      obtain ⟨_, _, rfl⟩ := hq; rfl)]
    cases h : (rowsAt sb v sorted)[p.n]? with
    | none => simp [PyVal.toCell]
    | some r =>
      have hm : v ∈ groupKeys sb sorted := by
        unfold groupKeys
        rw [if_neg hsb, List.mem_dedup, List.mem_filterMap]
        have := List.mem_of_getElem? h
        unfold rowsAt at this
        rw [List.mem_filter] at this
        exact ⟨r, this.1, by simpa using this.2⟩
      rw [if_pos hm]
      simp [toCell_ofCell]

/-- **C14** For every data set, split, slice, `n` of either sign, order and `dropna`, and whatever
order the sort leaves ties in: if the sort column has no missing values, `Nth(var, n, sort_by)`
reports the value of an `n`-th row of the slice (counting only rows with a value under `dropna`),
and null if the slice has no such row. -/
theorem C14_nth (a : NthArgs) (rows out : List Row) (sb : List String) (v : Key)
    (hv : sb = [] → v = [])
    (hkeys : ∀ r ∈ rows, (r a.sortBy).isSome)
    (hs : SortedBy a.init.ascending a.init.sortBy (a.init.dropNa rows) out) :
    let slice := (rowsAt sb v rows).filter (fun r => !a.dropna || (r a.var).isSome)
    (¬ HasNth a.n slice → reported (a.init.onSorted out sb) v = none) ∧
    (HasNth a.n slice → ∃ r, IsNth a.ascending a.sortBy a.n slice r ∧
      reported (a.init.onSorted out sb) v = r a.var) := by
  intro slice
  obtain ⟨hvar, hsort, hdrop⟩ := init_fields a
  have hdn : a.init.dropNa rows = rows.filter (fun r => !a.dropna || (r a.var).isSome) := by
    unfold Nth.dropNa
    rw [hdrop, hvar]
    cases a.dropna <;> simp
  have hperm : (rowsAt sb v out).Perm slice := by
    have := hs.1.filter (fun r => decide (keyOf sb r = some v))
    rw [hdn] at this
    refine this.trans ?_
    simp only [slice, rowsAt]
    rw [List.filter_filter, List.filter_filter]
    rw [List.filter_congr]
    intro x _; exact Bool.and_comm _ _
  have hsorted : SortedBy a.init.ascending a.sortBy slice (rowsAt sb v out) :=
    ⟨hperm, by
      have := hs.2.sublist (List.filter_sublist (p := fun r => decide (keyOf sb r = some v)))
      rw [hsort] at this; exact this⟩
  rw [onSorted_reported _ _ _ _ hv, ← init_n a slice, ← hperm.length_eq, hvar]
  constructor
  · intro h
    rw [List.getElem?_eq_none (by omega)]
  · intro h
    obtain ⟨r, hr⟩ : ∃ r, (rowsAt sb v out)[a.init.n]? = some r :=
      ⟨_, List.getElem?_eq_getElem h⟩
    refine ⟨r, ?_, by rw [hr]⟩
    apply nth_of_group a slice _ ?_ hsorted r hr
    intro x hx
    simp only [slice, List.mem_filter, rowsAt] at hx
    exact hkeys x hx.1.1

/-- In a sorted arrangement the rows without a key come last. -/
theorem sorted_split {asc : Bool} {c : String} {out : List Row} (h : out.Pairwise fun a b => sortsBefore asc (b c) (a c) = false) :
    out = out.filter (fun r => (r c).isSome) ++ out.filter (fun r => !(r c).isSome) := by
  induction out with
  | nil => rfl
  | cons x out ih =>
    rw [List.pairwise_cons] at h
    cases hx : (x c).isSome with
    | true =>
      rw [List.filter_cons_of_pos (by simpa using hx), List.filter_cons_of_neg (by simp [hx]), List.cons_append, ← ih h.2]
    | false =>
      have hall : ∀ r ∈ out, (r c).isSome = false := by
        intro r hr
        have := h.1 r hr
        cases hrc : r c with
        | none => rfl
        | some v =>
          have hn : x c = none := Option.not_isSome_iff_eq_none.1 (by rw [hx]; decide)
          rw [hrc, hn] at this
          simp [sortsBefore] at this
      have h1 : (x :: out).filter (fun r => (r c).isSome) = [] := by
        rw [List.filter_eq_nil_iff]
        intro r hr
        rcases List.mem_cons.1 hr with rfl | hr
        · simp [hx]
        · simp [hall r hr]
      have h2 : (x :: out).filter (fun r => !(r c).isSome) = x :: out := by
        rw [List.filter_eq_self]
        intro r hr
        rcases List.mem_cons.1 hr with rfl | hr
        · simp [hx]
        · simp [hall r hr]
      rw [h1, h2, List.nil_append]

/-- **C14** with missing sort keys: rows without a key come after all the others in both directions. So the value is that of an `n`-th row among the
rows of the slice that have a key if there are that many, from either end; else that of some row without a key; and null if the slice has not so
many rows. -/
theorem C14_missing_keys (a : NthArgs) (rows out : List Row) (sb : List String) (v : Key) (hv : sb = [] → v = [])
    (hs : SortedBy a.init.ascending a.init.sortBy (a.init.dropNa rows) out) :
    let slice := (rowsAt sb v rows).filter (fun r => !a.dropna || (r a.var).isSome)
    let keyed := slice.filter fun r => (r a.sortBy).isSome
    (¬ HasNth a.n slice → reported (a.init.onSorted out sb) v = none) ∧
    (HasNth a.n keyed → ∃ r, IsNth a.ascending a.sortBy a.n keyed r ∧ reported (a.init.onSorted out sb) v = r a.var) ∧
    (HasNth a.n slice → ¬ HasNth a.n keyed → ∃ r ∈ slice, r a.sortBy = none ∧ reported (a.init.onSorted out sb) v = r a.var) := by
  intro slice keyed
  obtain ⟨hvar, hsort, hdrop⟩ := init_fields a
  have hdn : a.init.dropNa rows = rows.filter (fun r => !a.dropna || (r a.var).isSome) := by
    unfold Nth.dropNa
    rw [hdrop, hvar]
    cases a.dropna <;> simp
  have hperm : (rowsAt sb v out).Perm slice := by
    have := hs.1.filter (fun r => decide (keyOf sb r = some v))
    rw [hdn] at this
    refine this.trans ?_
    simp only [slice, rowsAt]
    rw [List.filter_filter, List.filter_filter]
    rw [List.filter_congr]
    intro x _; exact Bool.and_comm _ _
  have hpw : (rowsAt sb v out).Pairwise fun x y => sortsBefore a.init.ascending (y a.sortBy) (x a.sortBy) = false := by
    have := hs.2.sublist (List.filter_sublist (p := fun r => decide (keyOf sb r = some v)))
    rw [hsort] at this; exact this
  have hsplit := sorted_split hpw
  have hkperm : ((rowsAt sb v out).filter fun r => (r a.sortBy).isSome).Perm keyed := hperm.filter _
  rw [onSorted_reported _ _ _ _ hv, ← init_n a slice, ← init_n a keyed, ← hperm.length_eq, ← hkperm.length_eq, hvar]
  refine ⟨?_, ?_, ?_⟩
  · intro h
    rw [List.getElem?_eq_none (by omega)]
  · intro h
    obtain ⟨r, hr⟩ : ∃ r, ((rowsAt sb v out).filter fun r => (r a.sortBy).isSome)[a.init.n]? = some r := ⟨_, List.getElem?_eq_getElem h⟩
    have hr' : (rowsAt sb v out)[a.init.n]? = some r := by
      rw [hsplit, List.getElem?_append_left h, hr]
    refine ⟨r, ?_, by rw [hr']⟩
    refine nth_of_group a keyed _ ?_ ⟨hkperm, hpw.sublist List.filter_sublist⟩ r hr
    intro x hx
    simp only [keyed, List.mem_filter] at hx
    exact hx.2
  · intro h h'
    obtain ⟨r, hr⟩ : ∃ r, (rowsAt sb v out)[a.init.n]? = some r := ⟨_, List.getElem?_eq_getElem h⟩
    have hm : r ∈ (rowsAt sb v out).filter (fun r => !(r a.sortBy).isSome) := by
      rw [hsplit, List.getElem?_append_right (by omega)] at hr
      exact List.mem_of_getElem? hr
    refine ⟨r, hperm.mem_iff.1 (List.mem_of_getElem? hr), ?_, by rw [hr]⟩
    rw [List.mem_filter] at hm
    simpa using hm.2

/-- With distinct sort keys there is only one `n`-th row, so the counting specification
determines the result. -/
theorem C14_nth_unique (asc : Bool) (c : String) (n : Int) (rows : List Row)
    (hkeys : ∀ r ∈ rows, (r c).isSome)
    (hdist : ∀ r ∈ rows, ∀ r' ∈ rows, r c = r' c → r = r')
    (r r' : Row) (h : IsNth asc c n rows r) (h' : IsNth asc c n rows r') : r = r' := by
  have htot : ∀ x ∈ rows, ∀ y ∈ rows, x ≠ y → earlier asc c x y ∨ earlier asc c y x := by
    intro x hx y hy hne
    obtain ⟨p, hp⟩ := Option.isSome_iff_exists.1 (hkeys x hx)
    obtain ⟨q, hq⟩ := Option.isSome_iff_exists.1 (hkeys y hy)
    have hpq : p ≠ q := fun e => hne (hdist x hx y hy (by rw [hp, hq, e]))
    rcases lt_or_gt_of_ne hpq with hlt | hlt
    · cases asc
      · exact Or.inr ⟨q, p, hq, hp, by simpa using hlt⟩
      · exact Or.inl ⟨p, q, hp, hq, by simpa using hlt⟩
    · cases asc
      · exact Or.inl ⟨p, q, hp, hq, by simpa using hlt⟩
      · exact Or.inr ⟨q, p, hq, hp, by simpa using hlt⟩
  have htrans : ∀ x y z, earlier asc c x y → ¬ earlier asc c z y → z ∈ rows → y ∈ rows → earlier asc c x z := by
    rintro x y z ⟨p, q, hp, hq, h⟩ hn hz hy
    obtain ⟨w, hw⟩ := Option.isSome_iff_exists.1 (hkeys z hz)
    refine ⟨p, w, hp, hw, ?_⟩
    have : ¬ (if asc then w < q else q < w) := fun h' => hn ⟨w, q, hw, hq, h'⟩
    cases asc
    · simp at *; exact lt_of_le_of_lt this h
    · simp at *; exact lt_of_lt_of_le h this
  have htrans' : ∀ x y z, earlier asc c y x → ¬ earlier asc c y z → z ∈ rows → y ∈ rows → earlier asc c z x := by
    rintro x y z ⟨q, p, hq, hp, h⟩ hn hz hy
    obtain ⟨w, hw⟩ := Option.isSome_iff_exists.1 (hkeys z hz)
    refine ⟨w, p, hw, hp, ?_⟩
    have : ¬ (if asc then q < w else w < q) := fun h' => hn ⟨q, w, hq, hw, h'⟩
    cases asc
    · simp at *; exact lt_of_lt_of_le h this
    · simp at *; exact lt_of_le_of_lt this h
  have hmono : ∀ (P Q : Row → Bool), (∀ x ∈ rows, P x = true → Q x = true) →
      (rows.filter P).length ≤ (rows.filter Q).length := by
    intro P Q hPQ
    rw [← List.countP_eq_length_filter, ← List.countP_eq_length_filter]
    exact List.countP_mono_left hPQ
  by_contra hne
  -- one of the two is earlier; by symmetry
  have key : ∀ r r', IsNth asc c n rows r → IsNth asc c n rows r' → ¬ earlier asc c r r' := by
    intro r r' ⟨hr, h⟩ ⟨hr', h'⟩ he
    cases n with
    | ofNat k =>
      have : (rows.filter (fun x => !decide (earlier asc c r x))).length
          ≤ (rows.filter (fun x => earlier asc c x r')).length := by
        apply hmono
        intro x hx hn
        simp only [Bool.not_eq_true', decide_eq_false_iff_not, decide_eq_true_eq] at hn ⊢
        exact htrans' r' r x he hn hx hr
      have h1 := h.2; have h2 := h'.1
      omega
    | negSucc k =>
      have : (rows.filter (fun x => !decide (earlier asc c x r'))).length
          ≤ (rows.filter (fun x => earlier asc c r x)).length := by
        apply hmono
        intro x hx hn
        simp only [Bool.not_eq_true', decide_eq_false_iff_not, decide_eq_true_eq] at hn ⊢
        exact htrans r r' x he hn hx hr'
      have h1 := h'.2; have h2 := h.1
      omega
  rcases htot r h.1 r' h'.1 hne with he | he
  · exact key r r' h h' he
  · exact key r' r h' h he

/-- **C14** `Nth(var, -1, ascending)` is the same metric as `Nth(var, 0, descending)`, and
generally `-n-1` from one end is `n` from the other. -/
theorem C14_ends_exchange (var sortBy : String) (asc dropna : Bool) (n : Nat) :
    (⟨var, -(n : Int) - 1, sortBy, asc, dropna⟩ : NthArgs).init
      = (⟨var, n, sortBy, !asc, dropna⟩ : NthArgs).init := by
  have h1 : -(n : Int) - 1 < 0 := by omega
  have h2 : ¬ ((n : Int) < 0) := by omega
  simp only [NthArgs.init, if_pos h1, if_neg h2]
  congr 1
  omega

/-- **C14** The generated SQL agrees for every group with present, distinct sort keys. -/
theorem C14_sql_agrees (a : NthArgs) (rows out sqlOut : List Row) (sb : List String) (v : Key)
    (hv : sb = [] → v = [])
    (hkeys : ∀ r ∈ rows, (r a.sortBy).isSome)
    (hdist : ∀ r ∈ rowsAt sb v rows, ∀ r' ∈ rowsAt sb v rows, r a.sortBy = r' a.sortBy → r = r')
    (hs : SortedBy a.init.ascending a.init.sortBy (a.init.dropNa rows) out)
    (hsql : SqlSortedBy a.init.ascending a.init.sortBy (a.init.dropNa (rowsAt sb v rows)) sqlOut) :
    a.init.sql sqlOut = reported (a.init.onSorted out sb) v := by
  obtain ⟨hvar, hsort, hdrop⟩ := init_fields a
  have hdn : ∀ rs, a.init.dropNa rs = rs.filter (fun r => !a.dropna || (r a.var).isSome) := by
    intro rs
    unfold Nth.dropNa
    rw [hdrop, hvar]
    cases a.dropna <;> simp
  have hmem : ∀ x ∈ sqlOut, x ∈ rowsAt sb v rows := by
    intro x hx
    have := hsql.1.mem_iff.1 hx
    rw [hdn, List.mem_filter] at this
    exact this.1
  have hpy : SortedBy a.init.ascending a.sortBy
      ((rowsAt sb v rows).filter (fun r => !a.dropna || (r a.var).isSome)) sqlOut := by
    refine ⟨by rw [← hdn]; exact hsql.1, ?_⟩
    have h2 := hsql.2
    rw [hsort] at h2
    refine List.Pairwise.imp_of_mem ?_ h2
    intro x y hx hy h
    have hx' := hkeys x (List.mem_of_mem_filter (hmem x hx))
    have hy' := hkeys y (List.mem_of_mem_filter (hmem y hy))
    obtain ⟨p, hp⟩ := Option.isSome_iff_exists.1 hx'
    obtain ⟨q, hq⟩ := Option.isSome_iff_exists.1 hy'
    rw [hp, hq] at h ⊢
    exact h
  have htake : a.init.sql sqlOut
      = match sqlOut[a.init.n]? with | some r => r a.init.var | none => none := by
    unfold Nth.sql
    rw [List.getElem?_take, if_pos (Nat.lt_succ_self _), List.getElem?_map]
    cases sqlOut[a.init.n]? <;> rfl
  obtain ⟨h1, h2⟩ := C14_nth a rows out sb v hv hkeys hs
  rw [htake]
  by_cases hh : HasNth a.n ((rowsAt sb v rows).filter (fun r => !a.dropna || (r a.var).isSome))
  · obtain ⟨r, hr, hrep⟩ := h2 hh
    rw [hrep]
    have hlt : a.init.n < sqlOut.length := by
      rw [hpy.1.length_eq, init_n]; exact hh
    obtain ⟨r', hr'⟩ : ∃ r', sqlOut[a.init.n]? = some r' := ⟨_, List.getElem?_eq_getElem hlt⟩
    have hr2 := nth_of_group a _ _ (by
      intro x hx
      simp only [List.mem_filter, rowsAt] at hx
      exact hkeys x hx.1.1) hpy r' hr'
    have : r' = r := C14_nth_unique a.ascending a.sortBy a.n _
      (by intro x hx
          simp only [List.mem_filter, rowsAt] at hx
          exact hkeys x hx.1.1)
      (by intro x hx y hy
          rw [List.mem_filter] at hx hy
          exact hdist x hx.1 y hy.1)
      r' r hr2 hr
    rw [hr', this, hvar]
  · rw [h1 hh]
    have hlt : ¬ a.init.n < sqlOut.length := by
      rw [hpy.1.length_eq, init_n]; exact hh
    rw [List.getElem?_eq_none (by omega)]

/-- In the order of the query the rows without a key come first (ascending) or last (descending). -/
theorem sql_sorted_split {asc : Bool} {c : String} {out : List Row} (h : out.Pairwise fun a b => sqlSortsBefore asc (b c) (a c) = false) :
    out = if asc then out.filter (fun r => !(r c).isSome) ++ out.filter (fun r => (r c).isSome)
      else out.filter (fun r => (r c).isSome) ++ out.filter (fun r => !(r c).isSome) := by
  cases asc with
  | false =>
    refine sorted_split (asc := false) (h.imp ?_)
    intro a b hab
    cases ha : a c <;> cases hb : b c <;> rw [ha, hb] at hab <;> simp_all [sortsBefore, sqlSortsBefore]
  | true =>
    rw [if_pos rfl]
    induction out with
    | nil => rfl
    | cons x out ih =>
      rw [List.pairwise_cons] at h
      cases hx : (x c).isSome with
      | false =>
        rw [List.filter_cons_of_pos (by simp [hx]), List.filter_cons_of_neg (by simp [hx]), List.cons_append, ← ih h.2]
      | true =>
        have hall : ∀ r ∈ x :: out, (r c).isSome = true := by
          intro r hr
          rcases List.mem_cons.1 hr with rfl | hr
          · exact hx
          · have := h.1 r hr
            cases hrc : r c with
            | some v => rfl
            | none =>
              obtain ⟨w, hw⟩ := Option.isSome_iff_exists.1 hx
              rw [hrc, hw] at this
              simp [sqlSortsBefore] at this
        rw [List.filter_eq_nil_iff.2 (fun r hr => by simp [hall r hr]), List.filter_eq_self.2 (fun r hr => hall r hr), List.nil_append]

/-- **C14** The generated SQL with missing sort keys, in a group `group`, for `n` counted from the front (a negative `n` is the same metric
counted from the other end, `C14_ends_exchange`). In ascending order the rows without a key come before all others: the value is that of one of
them, or of the row that remains to be counted among the rows with a key. In descending order they come last, as in Python
(`C14_missing_keys`). With too few rows the value is null. -/
theorem C14_sql_missing_keys (var sortBy : String) (k : ℕ) (asc dropna : Bool) (group sqlOut : List Row)
    (hsql : SqlSortedBy asc sortBy ((⟨var, k, sortBy, asc, dropna⟩ : NthArgs).init.dropNa group) sqlOut) :
    let slice := group.filter (fun r => !dropna || (r var).isSome)
    let keyed := slice.filter fun r => (r sortBy).isSome
    let keyless := (slice.filter fun r => !(r sortBy).isSome).length
    let value := (⟨var, k, sortBy, asc, dropna⟩ : NthArgs).init.sql sqlOut
    (slice.length ≤ k → value = none) ∧
    (asc = true → (k < keyless → ∃ r ∈ slice, r sortBy = none ∧ value = r var) ∧
      (keyless ≤ k → k < slice.length → ∃ r, IsNth true sortBy ((k - keyless : ℕ) : ℤ) keyed r ∧ value = r var)) ∧
    (asc = false → (k < keyed.length → ∃ r, IsNth false sortBy k keyed r ∧ value = r var) ∧
      (keyed.length ≤ k → k < slice.length → ∃ r ∈ slice, r sortBy = none ∧ value = r var)) := by
  intro slice keyed keyless value
  have hneg : ¬ ((k : ℤ) < 0) := by omega
  have hinit : (⟨var, k, sortBy, asc, dropna⟩ : NthArgs).init = ⟨var, k, sortBy, asc, dropna⟩ := by
    simp [NthArgs.init, hneg]
  have hdn : (⟨var, k, sortBy, asc, dropna⟩ : NthArgs).init.dropNa group = slice := by
    rw [hinit]
    cases dropna <;> simp [Nth.dropNa, slice]
  rw [hdn] at hsql
  have hval : value = match sqlOut[k]? with | some r => r var | none => none := by
    simp only [value, hinit, Nth.sql]
    rw [List.getElem?_take, if_pos (Nat.lt_succ_self _), List.getElem?_map]
    cases sqlOut[k]? <;> rfl
  have hlen := hsql.1.length_eq
  have hk1 : (sqlOut.filter fun r => (r sortBy).isSome).Perm keyed := hsql.1.filter _
  have hk0 : (sqlOut.filter fun r => !(r sortBy).isSome).Perm (slice.filter fun r => !(r sortBy).isSome) := hsql.1.filter _
  have hl0 : (sqlOut.filter fun r => !(r sortBy).isSome).length = keyless := hk0.length_eq
  have hsum : keyed.length + keyless = slice.length := by
    have := congrArg List.length (sql_sorted_split hsql.2)
    cases asc <;> simp only [if_true, if_false, Bool.false_eq_true, List.length_append, hl0, hk1.length_eq, hlen] at this <;> omega
  have hpw : (sqlOut.filter fun r => (r sortBy).isSome).Pairwise fun a b => sortsBefore asc (b sortBy) (a sortBy) = false := by
    refine List.Pairwise.imp_of_mem ?_ (hsql.2.sublist List.filter_sublist)
    intro x y hx hy h
    obtain ⟨p, hp⟩ := Option.isSome_iff_exists.1 (List.mem_filter.1 hx).2
    obtain ⟨q, hq⟩ := Option.isSome_iff_exists.1 (List.mem_filter.1 hy).2
    rw [hp, hq] at h ⊢
    exact h
  have nthOf : ∀ (j : ℕ) (r : Row), (sqlOut.filter fun r => (r sortBy).isSome)[j]? = some r → IsNth asc sortBy (j : ℤ) keyed r := by
    intro j r hr
    have hj : ¬ ((j : ℤ) < 0) := by omega
    have hi : (⟨var, j, sortBy, asc, dropna⟩ : NthArgs).init = ⟨var, j, sortBy, asc, dropna⟩ := by simp [NthArgs.init, hj]
    refine nth_of_group ⟨var, j, sortBy, asc, dropna⟩ keyed _ ?_ ?_ r (by rw [hi]; exact hr)
    · intro x hx
      exact (List.mem_filter.1 hx).2
    · rw [hi]; exact ⟨hk1, hpw⟩
  have keyOf0 : ∀ r, r ∈ sqlOut.filter (fun r => !(r sortBy).isSome) → r ∈ slice ∧ r sortBy = none := by
    intro r hr
    have := List.mem_filter.1 hr
    exact ⟨hsql.1.mem_iff.1 this.1, by simpa using this.2⟩
  have hsplit := sql_sorted_split hsql.2
  refine ⟨fun h => by rw [hval, List.getElem?_eq_none (by omega)], ?_, ?_⟩
  · rintro rfl
    rw [if_pos rfl] at hsplit
    constructor
    · intro h
      obtain ⟨r, hr⟩ : ∃ r, (sqlOut.filter fun r => !(r sortBy).isSome)[k]? = some r := ⟨_, List.getElem?_eq_getElem (by omega)⟩
      have hr' : sqlOut[k]? = some r := by rw [hsplit, List.getElem?_append_left (by omega), hr]
      obtain ⟨h1, h2⟩ := keyOf0 r (List.mem_of_getElem? hr)
      exact ⟨r, h1, h2, by rw [hval, hr']⟩
    · intro h h'
      have hlt : k - keyless < (sqlOut.filter fun r => (r sortBy).isSome).length := by rw [hk1.length_eq]; omega
      obtain ⟨r, hr⟩ : ∃ r, (sqlOut.filter fun r => (r sortBy).isSome)[k - keyless]? = some r := ⟨_, List.getElem?_eq_getElem hlt⟩
      have hr' : sqlOut[k]? = some r := by rw [hsplit, List.getElem?_append_right (by omega), hl0, hr]
      exact ⟨r, nthOf _ r hr, by rw [hval, hr']⟩
  · rintro rfl
    rw [if_neg (by decide)] at hsplit
    constructor
    · intro h
      obtain ⟨r, hr⟩ : ∃ r, (sqlOut.filter fun r => (r sortBy).isSome)[k]? = some r :=
        ⟨_, List.getElem?_eq_getElem (by rw [hk1.length_eq]; omega)⟩
      have hr' : sqlOut[k]? = some r := by rw [hsplit, List.getElem?_append_left (by rw [hk1.length_eq]; omega), hr]
      exact ⟨r, nthOf _ r hr, by rw [hval, hr']⟩
    · intro h h'
      obtain ⟨r, hr⟩ : ∃ r, (sqlOut.filter fun r => !(r sortBy).isSome)[k - keyed.length]? = some r :=
        ⟨_, List.getElem?_eq_getElem (by omega)⟩
      have hr' : sqlOut[k]? = some r := by
        rw [hsplit, List.getElem?_append_right (by rw [hk1.length_eq]; omega), hk1.length_eq, hr]
      obtain ⟨h1, h2⟩ := keyOf0 r (List.mem_of_getElem? hr)
      exact ⟨r, h1, h2, by rw [hval, hr']⟩

/-- Rows for the examples: sort key `t`, value `x`. -/
def nthRows : List Row :=
  [mkRow [("g", 0), ("t", 3), ("x", 30)], mkRow [("g", 0), ("t", 1), ("x", 10)],
   mkRow [("g", 0), ("t", 2), ("x", 20)], mkRow [("g", 1), ("t", 5), ("x", 50)]]

def nthRowsDesc : List Row :=
  [mkRow [("g", 1), ("t", 5), ("x", 50)], mkRow [("g", 0), ("t", 3), ("x", 30)],
   mkRow [("g", 0), ("t", 2), ("x", 20)], mkRow [("g", 0), ("t", 1), ("x", 10)]]

/-- The hypotheses are met: `Nth("x", -2, "t")` sorts in descending order; slice 0 reports the
second from the end, 20, slice 1 has no such row. -/
example : SortedBy (⟨"x", -2, "t", true, false⟩ : NthArgs).init.ascending "t" nthRows nthRowsDesc ∧
    (∀ r ∈ nthRows, (r "t").isSome) ∧
    reported ((⟨"x", -2, "t", true, false⟩ : NthArgs).init.onSorted nthRowsDesc ["g"]) [0] = some 20 ∧
    reported ((⟨"x", -2, "t", true, false⟩ : NthArgs).init.onSorted nthRowsDesc ["g"]) [1] = none := by
  refine ⟨⟨?_, ?_⟩, ?_, by decide +kernel, by decide +kernel⟩
  · unfold nthRows nthRowsDesc
    refine List.Perm.symm ?_
    refine ((List.Perm.cons _ (List.perm_append_comm (l₁ := [_]) (l₂ := [_]))).append_right
      [mkRow [("g", 1), ("t", 5), ("x", 50)]]).trans ?_
    exact List.perm_append_comm (l₂ := [mkRow [("g", 1), ("t", 5), ("x", 50)]])
  · simp only [nthRowsDesc, List.pairwise_cons, List.mem_cons, List.not_mem_nil, or_false]
    refine ⟨?_, ?_, ?_, ?_, List.Pairwise.nil⟩
    · rintro x (rfl | rfl | rfl) <;> decide +kernel
    · rintro x (rfl | rfl) <;> decide +kernel
    · rintro x rfl; decide +kernel
    · intro x h; exact absurd h (by simp)
  · simp only [nthRows, List.mem_cons, List.not_mem_nil, or_false]
    rintro x (rfl | rfl | rfl | rfl) <;> decide +kernel

/-- Missing sort keys are where SQL and Python part: in ascending order pandas puts them last,
the query's `ORDER BY` first. Rows: key missing with `x = 7`, key 1 with `x = 9`. -/
theorem C14_null_key_sql_violation :
    let rows : List Row := [mkRow [("x", 7)], mkRow [("t", 1), ("x", 9)]]
    let pyOut : List Row := [mkRow [("t", 1), ("x", 9)], mkRow [("x", 7)]]
    let p : Nth := (⟨"x", 0, "t", true, false⟩ : NthArgs).init
    SortedBy p.ascending p.sortBy rows pyOut ∧ SqlSortedBy p.ascending p.sortBy rows rows ∧
    reported (p.onSorted pyOut []) [] = some 9 ∧ p.sql rows = some 7 := by
  refine ⟨⟨List.Perm.swap _ _ _, ?_⟩, ⟨List.Perm.refl _, ?_⟩, by decide +kernel, by decide +kernel⟩
  · simp only [List.pairwise_cons, List.mem_cons, List.not_mem_nil, or_false]
    refine ⟨?_, ?_, List.Pairwise.nil⟩
    · rintro x rfl; decide +kernel
    · intro x h; exact absurd h (by simp)
  · simp only [List.pairwise_cons, List.mem_cons, List.not_mem_nil, or_false]
    refine ⟨?_, ?_, List.Pairwise.nil⟩
    · rintro x rfl; decide +kernel
    · intro x h; exact absurd h (by simp)

end Verif
