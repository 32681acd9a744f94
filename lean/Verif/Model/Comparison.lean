import Verif.Model.Distribution

/-!
# PercentChange, AbsoluteChange and MH

/repo/operations.py:414-656 and 1147-1465. One column of the child's result at a time: `S` slices (`split_by`),
`D` conditions (`extra_index`, a tuple if there are several columns), `G` strata. Numbers are exact; NaN, NULL and the
infinities of a division by zero are all `none`. The rows have a key each, so no missing keys.
-/

namespace Verif

section
variable {S D G K : Type} [DecidableEq S] [DecidableEq D] [DecidableEq G] [Field K] [LinearOrder K]

/-- The rows of the baseline: `children.xs(baseline_key, level)` (/repo/operations.py:594, 646) and `ChangeBase`
(/repo/operations.py:497-507). -/
def baseRows (b : D) (t : DTab S D K) : List (S × Option K) :=
  t.filterMap fun r => if r.1.2 = b then some (r.1.1, r.2) else none

/-- `compute_on_children` of `PercentChange` and `AbsoluteChange` (/repo/operations.py:587-601, 638-653), with `f` the
arithmetic. `none`: the KeyError that `xs` raises. A slice without a row in `xs` gets NaN from the alignment. -/
def pyChange (f : Option K → Option K → Option K) (b : D) (incl : Bool) (t : DTab S D K) : Option (DTab S D K) :=
  let base := baseRows b t
  if base.isEmpty then none
  else
    let res := t.map fun r => (r.1, f r.2 ((base.lookup r.1.1).bind id))
    some (if incl then res else res.filter fun r => !decide (r.1.2 = b))

/-- The query of a `Comparison` (/repo/operations.py:436-529): `ChangeRaw JOIN ChangeBase USING (slice)`, then the
WHERE. -/
def sqlChange (f : Option K → Option K → Option K) (b : D) (incl : Bool) (t : DTab S D K) : DTab S D K :=
  let base := baseRows b t
  let res := t.flatMap fun r => (base.filter fun q => decide (q.1 = r.1.1)).map fun q => (r.1, f r.2 q.2)
  if incl then res else res.filter fun r => !decide (r.1.2 = b)

/-- `(children / base - 1) * 100` (/repo/operations.py:594). -/
def pyPct (v b : Option K) : Option K := (nanDiv v b).map fun x => (x - 1) * 100

/-- `SAFE_DIVIDE(raw, base) * 100 - 100` (/repo/operations.py:603-610). -/
def sqlPct (v b : Option K) : Option K := (nanDiv v b).map fun x => x * 100 - 100

/-- `children - base` (/repo/operations.py:646) and `raw - base` (/repo/operations.py:655-656). -/
def optSub : Option K → Option K → Option K
  | some a, some b => some (a - b)
  | _, _ => none

/-! ## Mantel-Haenszel -/

/-- The child of `MH`: slice, condition and stratum with the numerator and the denominator. -/
abbrev MHTab (S D G K : Type) := List ((S × D × G) × (Option K × Option K))

/-- The baseline's rows (/repo/operations.py:1252, 1380-1390). -/
def mhBase (b : D) (t : MHTab S D G K) : List ((S × G) × (Option K × Option K)) :=
  t.filterMap fun r => if r.1.2.1 = b then some ((r.1.1, r.1.2.2), r.2) else none

/-- `df_all.join(df_baseline)` (/repo/operations.py:1256): a left join. -/
def mhJoin (b : D) (t : MHTab S D G K) : List ((S × D) × (Option K × Option K) × (Option K × Option K)) :=
  t.map fun r => ((r.1.1, r.1.2.1), r.2, ((mhBase b t).lookup (r.1.1, r.1.2.2)).getD (none, none))

def optMul : Option K → Option K → Option K
  | some a, some b => some (a * b)
  | _, _ => none

def optAdd : Option K → Option K → Option K
  | some a, some b => some (a + b)
  | _, _ => none

/-- `compute_mh` (/repo/operations.py:1248-1274). `ka * nb * weights` with `weights = 1 / (na + nb)`; the sums skip
NaN. `none` as a whole: the KeyError of `xs`. -/
def pyMH (b : D) (incl : Bool) (t : MHTab S D G K) : Option (DTab S D K) :=
  if (mhBase b t).isEmpty then none
  else
    let j := mhJoin b t
    let keys := (j.map (·.1)).dedup
    let sumOf (g : (Option K × Option K) → (Option K × Option K) → Option K) (k : S × D) : K :=
      nanSum ((j.filter fun r => decide (r.1 = k)).map fun r => g r.2.1 r.2.2)
    let res := keys.map fun k =>
      (k, (nanDiv
        (some (sumOf (fun a b => optMul (optMul a.1 b.2) (nanDiv (some 1) (optAdd a.2 b.2))) k))
        (some (sumOf (fun a b => optMul (optMul b.1 a.2) (nanDiv (some 1) (optAdd a.2 b.2))) k))).map
          fun x => (x - 1) * 100)
    some (if incl then res else res.filter fun r => !decide (r.1.2 = b))

/-- `LEFT JOIN`: every row with each partner, with NULLs if it has none. -/
def mhLeftJoin (b : D) (t : MHTab S D G K) : List ((S × D) × (Option K × Option K) × (Option K × Option K)) :=
  t.flatMap fun r =>
    let ps := (mhBase b t).filter fun q => decide (q.1 = (r.1.1, r.1.2.2))
    if ps.isEmpty then [((r.1.1, r.1.2.1), r.2, (none, none))]
    else ps.map fun q => ((r.1.1, r.1.2.1), r.2, q.2)

/-- `COALESCE(SUM(..), 0)`. -/
def coalesceSum (vs : List (Option K)) : K := (sqlSumN vs).getD 0

/-- The query of `MH` (/repo/operations.py:1297-1466): the WHERE comes before the GROUP BY. -/
def sqlMH (b : D) (incl : Bool) (t : MHTab S D G K) : DTab S D K :=
  let j := (mhLeftJoin b t).filter fun r => incl || !decide (r.1.2 = b)
  let keys := (j.map (·.1)).dedup
  let sumOf (g : (Option K × Option K) → (Option K × Option K) → Option K) (k : S × D) : K :=
    coalesceSum ((j.filter fun r => decide (r.1 = k)).map fun r => g r.2.1 r.2.2)
  keys.map fun k =>
    (k, (nanDiv
      (some (sumOf (fun a b => nanDiv (optMul a.1 b.2) (optAdd b.2 a.2)) k))
      (some (sumOf (fun a b => nanDiv (optMul b.1 a.2) (optAdd b.2 a.2)) k))).map fun x => 100 * x - 100)

end

end Verif
