import Verif.Lemmas.AuxCols

/-!
# C20 Auxiliary columns never clash
-/

namespace Verif

/-- The DataFrames reached from the user's by adding auxiliary columns, with the prefix chosen for
the user's DataFrame, in any number of rounds. -/
inductive AuxReach (U : DF) (len : Nat) : DF → Prop
  | start : AuxReach U len U
  | add (df df' : DF) (q : AReq) (n : CName) : AuxReach U len df →
      addAux (uniquePrefix (U.map Prod.fst)) len df q = some (df', n) → AuxReach U len df'

theorem reach_inv (U : DF) (len : Nat) (hU : ∀ c, (U.lookup c).isSome → PlainName c) (df : DF)
    (h : AuxReach U len df) : AuxInv (uniquePrefix (U.map Prod.fst)) U len df := by
  induction h with
  | start => exact ⟨fun c v h => h, fun c v h => Or.inl h⟩
  | add df df' q n _ h ih => exact (addAux_inv len (uniquePrefix_good U) hU ih q df' n h).1

/-- **C20** The prefix never begins a column of the user's DataFrame, so no auxiliary column
has the name of a user column. No assumption on the user's names. -/
theorem C20_prefix_fresh (U : DF) (c : CName) (hc : (U.lookup c).isSome) (n : CName) :
    c ≠ uniquePrefix (U.map Prod.fst) ++ n := by
  intro h
  exact (uniquePrefix_good U).fresh c hc ⟨n, h.symm⟩

/-- **C20** However many columns were added before, no column that exists is changed by adding
another; in particular the user's columns keep their values. No assumption on names. -/
theorem C20_columns_kept (pre : CName) (len : Nat) (df df' : DF) (q : AReq) (n : CName)
    (h : addAux pre len df q = some (df', n)) (c : CName) (v : List Cell)
    (hc : df.lookup c = some v) : df'.lookup c = some v := by
  unfold addAux at h
  cases hq : parseAux df len q with
  | none => rw [hq] at h; cases h
  | some p =>
    rw [hq] at h
    simp only [Option.some.injEq, Prod.mk.injEq] at h
    rw [← h.1]
    split
    · exact hc
    · rw [lookup_snoc, hc]

/-- **C20** (partial) With ordinary column names, after any sequence of requests (also requests
that use columns added earlier), the column found under the name returned for a request holds the
requested value. So different derived columns never share a name.
Missing: column names with blanks, parentheses, commas or a leading digit, for which it is
false (next theorem). -/
theorem C20_request_gets_its_value_partial (U : DF) (len : Nat)
    (hU : ∀ c, (U.lookup c).isSome → PlainName c) (df : DF) (hr : AuxReach U len df) (q : AReq)
    (df' : DF) (n : CName)
    (h : addAux (uniquePrefix (U.map Prod.fst)) len df q = some (df', n)) :
    df'.lookup n = q.value df len ∧ (q.value df len).isSome := by
  obtain ⟨_, h2, _⟩ := addAux_inv len (uniquePrefix_good U) hU (reach_inv U len hU df hr) q df' n h
  refine ⟨h2, ?_⟩
  unfold addAux at h
  cases hq : parseAux df len q with
  | none => rw [hq] at h; cases h
  | some p =>
    rw [(parse_view len (reach_inv U len hU df hr) q p.1 p.2 hq).1]; rfl

/-- **C20** A request with existing columns is always served, and equal requests share a column:
repeating it returns the same name and leaves the DataFrame as it is. -/
theorem C20_equal_requests_share (pre : CName) (len : Nat) (df df' : DF) (q : AReq) (n : CName)
    (h : addAux pre len df q = some (df', n))
    (hq : parseAux df' len q = parseAux df len q) :
    addAux pre len df' q = some (df', n) := by
  unfold addAux at h ⊢
  rw [hq]
  cases hp : parseAux df len q with
  | none => rw [hp] at h; cases h
  | some p =>
    obtain ⟨m, cells⟩ := p
    rw [hp] at h
    simp only [Option.some.injEq, Prod.mk.injEq] at h ⊢
    refine ⟨?_, h.2⟩
    have : (df'.lookup (pre ++ m)).isSome := by
      rw [← h.1]
      cases hl : df.lookup (pre ++ m) with
      | some w => simp [hl]
      | none => simp [lookup_snoc, hl]
    rw [if_pos this]

/-- Later columns do not change what a request over existing columns parses to, so the previous
theorem applies after any number of further rounds. -/
theorem C20_parse_stable (len : Nat) (df df' : DF)
    (hk : ∀ c v, df.lookup c = some v → df'.lookup c = some v) :
    ∀ (q : AReq) (p : CName × List Cell), parseAux df len q = some p → parseAux df' len q = some p
  | .col c, p, h => by
      simp only [parseAux, Option.map_eq_some_iff] at h ⊢
      obtain ⟨v, hv, rfl⟩ := h
      exact ⟨v, hk c v hv, rfl⟩
  | .num k, p, h => h
  | .bin op a b, p, h => by
      rw [parseAux] at h ⊢
      cases ha : parseAux df len a with
      | none => rw [ha] at h; simp at h
      | some x =>
        cases hb : parseAux df len b with
        | none => rw [ha, hb] at h; simp at h
        | some y =>
          rw [C20_parse_stable len df df' hk a x ha, C20_parse_stable len df df' hk b y hb]
          rw [ha, hb] at h
          exact h

/-- **C20** `x * y` and `y * x` (and likewise `+`) share one column. -/
theorem C20_commuted_requests_share (len : Nat) (df : DF) (op : AOp) (hop : op.commutes = true)
    (a b : CName) : parseAux df len (.bin op (.col a) (.col b)) = parseAux df len (.bin op (.col b) (.col a)) := by
  simp only [parseAux]
  cases ha : df.lookup a with
  | none => cases hb : df.lookup b <;> simp
  | some x =>
    cases hb : df.lookup b with
    | none => simp
    | some y =>
      simp only [Option.map_some, hop, Bool.true_and, decide_eq_true_eq]
      by_cases h1 : b < a
      · have h2 : ¬ a < b := fun h => absurd (List.lt_trans h1 h) (List.lt_irrefl b)
        rw [if_pos h1, if_neg h2]
      · by_cases h2 : a < b
        · rw [if_neg h1, if_pos h2]
        · have hab : a = b := List.le_antisymm (List.not_lt.1 h1) (List.not_lt.1 h2)
          subst hab
          rw [ha] at hb
          cases hb
          rfl

theorem value_stable (len : Nat) (df df' : DF) (hk : ∀ c v, df.lookup c = some v → df'.lookup c = some v) :
    ∀ (q : AReq) (v : List Cell), q.value df len = some v → q.value df' len = some v
  | .col c, v, h => hk c v h
  | .num _, _, h => h
  | .bin op a b, v, h => by
      rw [AReq.value] at h ⊢
      cases ha : a.value df len with
      | none => rw [ha] at h; cases h
      | some x =>
        cases hb : b.value df len with
        | none => rw [ha, hb] at h; cases h
        | some y =>
          rw [value_stable len df df' hk a x ha, value_stable len df df' hk b y hb]
          rw [ha, hb] at h
          exact h

/-- **C20** (partial, ordinary names) All requests of one metric: a name for each, in order, and in the final DataFrame the column of that
name holds the requested value; every column that was there keeps its values; the next metric starts from a DataFrame of the same kind. -/
theorem C20_all_requests_partial (U : DF) (len : Nat) (hU : ∀ c, (U.lookup c).isSome → PlainName c) (qs : List AReq) :
    ∀ (df : DF), AuxReach U len df → ∀ (df' : DF) (ns : List CName),
    addAuxAll (uniquePrefix (U.map Prod.fst)) len df qs = some (df', ns) →
    AuxReach U len df' ∧ (∀ c v, df.lookup c = some v → df'.lookup c = some v) ∧
      List.Forall₂ (fun q n => ∃ v, q.value df' len = some v ∧ df'.lookup n = some v) qs ns := by
  induction qs with
  | nil =>
    intro df hr df' ns h
    simp only [addAuxAll, Option.some.injEq, Prod.mk.injEq] at h
    obtain ⟨rfl, rfl⟩ := h
    exact ⟨hr, fun _ _ h => h, .nil⟩
  | cons q qs ih =>
    intro df hr df' ns h
    rw [addAuxAll] at h
    cases hq : addAux (uniquePrefix (U.map Prod.fst)) len df q with
    | none => rw [hq] at h; cases h
    | some p =>
      obtain ⟨df1, n⟩ := p
      rw [hq] at h
      cases hs : addAuxAll (uniquePrefix (U.map Prod.fst)) len df1 qs with
      | none => simp only [hs] at h; cases h
      | some p2 =>
        obtain ⟨df2, ns2⟩ := p2
        simp only [hs, Option.some.injEq, Prod.mk.injEq] at h
        obtain ⟨rfl, rfl⟩ := h
        obtain ⟨h1, h2, h3⟩ := ih df1 (.add df df1 q n hr hq) df2 ns2 hs
        have k1 := C20_columns_kept (uniquePrefix (U.map Prod.fst)) len df df1 q n hq
        obtain ⟨e1, e2⟩ := C20_request_gets_its_value_partial U len hU df hr q df1 n hq
        obtain ⟨v, hv⟩ := Option.isSome_iff_exists.1 e2
        have k2 : ∀ c v, df.lookup c = some v → df2.lookup c = some v := fun c v hc => h2 c v (k1 c v hc)
        exact ⟨h1, k2, .cons ⟨v, value_stable len df df2 k2 q v hv, h2 n v (by rw [e1, hv])⟩ h3⟩

/-- **C20** Requests over existing columns are all served. -/
theorem C20_all_served (pre : CName) (len : Nat) (qs : List AReq) : ∀ df : DF, (∀ q ∈ qs, (q.value df len).isSome) →
    (addAuxAll pre len df qs).isSome := by
  induction qs with
  | nil => intro df _; rfl
  | cons q qs ih =>
    intro df h
    have served : ∀ (q : AReq) (df : DF), (q.value df len).isSome → (parseAux df len q).isSome := by
      intro q df
      induction q with
      | col c => intro h; simpa [parseAux, AReq.value] using h
      | num n => intro _; rfl
      | bin op a b iha ihb =>
        intro h
        rw [AReq.value] at h
        cases ha : a.value df len with
        | none => rw [ha] at h; cases h
        | some x =>
          cases hb : b.value df len with
          | none => rw [ha, hb] at h; cases h
          | some y =>
            obtain ⟨⟨_, _⟩, hx⟩ := Option.isSome_iff_exists.1 (iha (by rw [ha]; rfl))
            obtain ⟨⟨_, _⟩, hy⟩ := Option.isSome_iff_exists.1 (ihb (by rw [hb]; rfl))
            simp only [parseAux, hx, hy]
            split <;> rfl
    obtain ⟨⟨n, cells⟩, hp⟩ := Option.isSome_iff_exists.1 (served q df (h q (by simp)))
    have ha : ∃ r, addAux pre len df q = some r := by simp [addAux, hp]
    obtain ⟨⟨df1, m⟩, ha⟩ := ha
    have k1 := C20_columns_kept pre len df df1 q m ha
    obtain ⟨⟨df2, ns⟩, hr⟩ := Option.isSome_iff_exists.1 (ih df1 fun q' hq' => by
      obtain ⟨v, hv⟩ := Option.isSome_iff_exists.1 (h q' (by simp [hq']))
      rw [value_stable len df df1 k1 q' v hv]; rfl)
    simp [addAuxAll, ha, hr]

/-- **C20** What the value of a request is, row by row: in every row it is the arithmetic of the request applied to that row's values,
the left operand on the left. -/
theorem C20_row_values (df : DF) (len : ℕ) (hlen : ∀ c v, df.lookup c = some v → v.length = len) :
    ∀ (q : AReq) (v : List Cell), q.value df len = some v →
      v.length = len ∧ ∀ i < len, v[i]? = some (q.inRow fun c => (df.lookup c).bind fun w => (w[i]?).join)
  | .col c, v, h => by
      have h' : df.lookup c = some v := h
      have hl := hlen c v h'
      refine ⟨hl, fun i hi => ?_⟩
      simp [AReq.inRow, h', List.getElem?_eq_getElem (hl ▸ hi : i < v.length)]
  | .num n, v, h => by
      simp only [AReq.value, Option.some.injEq] at h
      subst h
      refine ⟨by simp, fun i hi => ?_⟩
      simp [AReq.inRow, hi]
  | .bin op a b, v, h => by
      rw [AReq.value] at h
      cases ha : a.value df len with
      | none => rw [ha] at h; cases h
      | some x =>
        cases hb : b.value df len with
        | none => rw [ha, hb] at h; cases h
        | some y =>
          rw [ha, hb] at h
          simp only [Option.some.injEq] at h
          subst h
          obtain ⟨lx, hx⟩ := C20_row_values df len hlen a x ha
          obtain ⟨ly, hy⟩ := C20_row_values df len hlen b y hb
          refine ⟨by simp [lx, ly], fun i hi => ?_⟩
          rw [List.getElem?_zipWith, hx i hi, hy i hi]
          simp only [AReq.inRow]
          generalize a.inRow _ = p
          generalize b.inRow _ = r
          cases p <;> cases r <;> cases op <;> simp only [AOp.cell, Cell.map₂, Cell.safeDiv]
          rename_i p r
          have : (r.den = 1 ∧ 0 ≤ r.num) ↔ r = (r.num.toNat : ℚ) := by
            constructor
            · rintro ⟨h1, h2⟩
              have : ((r.num.toNat : ℤ) : ℚ) = ((r.num : ℤ) : ℚ) := by rw [Int.toNat_of_nonneg h2]
              rw [← Int.cast_natCast, this]
              exact (Rat.den_eq_one_iff r).1 h1 |>.symm
            · intro h
              rw [h]
              exact ⟨Rat.den_natCast _, by rw [Rat.num_natCast]; exact Int.natCast_nonneg _⟩
          simp only [this]

/-- Ordinary columns. -/
def auxU : DF := [("x".toList, [some 2, some 3]), ("w".toList, [some 5, none])]

/-- The hypotheses are met: the user's columns are ordinary; `w * x` and then
`(w * x) * w` are added (the steps of a weighted statistic), and `x * w` is shared. -/
example :
    (∀ c, (auxU.lookup c).isSome → PlainName c) ∧
    addAuxAll (uniquePrefix (auxU.map Prod.fst)) 2 auxU
      [.bin .mul (.col "w".toList) (.col "x".toList), .bin .mul (.col "x".toList) (.col "w".toList),
       .bin .mul (.col "meterstick_tmp:(w * x)".toList) (.col "w".toList)]
      = some (auxU ++ [("meterstick_tmp:(w * x)".toList, [some 10, none]),
          ("meterstick_tmp:(meterstick_tmp:(w * x) * w)".toList, [some 50, none])],
        ["meterstick_tmp:(w * x)".toList, "meterstick_tmp:(w * x)".toList,
         "meterstick_tmp:(meterstick_tmp:(w * x) * w)".toList]) := by
  refine ⟨?_, by decide +kernel⟩
  intro c hc
  have := lookup_isSome_mem hc
  simp only [auxU, List.map_cons, List.map_nil, List.mem_cons, List.not_mem_nil, or_false] at this
  rcases this with rfl | rfl
  · exact ⟨by decide, 'x', [], rfl, by decide⟩
  · exact ⟨by decide, 'w', [], rfl, by decide⟩

/-- A column with the prefix makes meterstick take a longer prefix. -/
example : uniquePrefix ["meterstick_tmp:(w * x)".toList] = "meterstick_tmp::".toList := by decide +kernel

/-- **C20 violated** With columns named `x`, `y * z`, `x * y`, `z`, the product of the first two
and the product of the last two get one name; the second request is answered with the first one's
values. -/
theorem C20_operator_names_violation :
    let U : DF := [("x".toList, [some 2]), ("y * z".toList, [some 3]), ("x * y".toList, [some 5]),
      ("z".toList, [some 7])]
    let pre := uniquePrefix (U.map Prod.fst)
    let second : AReq := .bin .mul (.col "x * y".toList) (.col "z".toList)
    ∃ df1 df2 n,
      addAux pre 1 U (.bin .mul (.col "x".toList) (.col "y * z".toList)) = some (df1, n) ∧
      addAux pre 1 df1 second = some (df2, n) ∧
      df2.lookup n = some [some 6] ∧ second.value df1 1 = some [some 35] := by
  refine ⟨_, _, _, rfl, rfl, ?_, ?_⟩ <;> decide +kernel

end Verif
