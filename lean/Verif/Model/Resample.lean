import Verif.Model.Jackknife
import Verif.Model.SqlAlias

/-!
# Bootstrap: batches, resampling, preaggregation, sample cache

/repo/operations.py:2456-2522, 2569-2756, 2759-3202, 3550-3715.
-/

namespace Verif

/-! ## Batches -/

/-- The batches of `Jackknife.compute_children_sql` (/repo/operations.py:2493-2494):
`unique_units[i * batch_size:(i + 1) * batch_size]` for `i in range(ceil(len / batch_size))`. -/
def jkBatches {U : Type} (units : List U) (bs : Nat) : List (List U) :=
  (List.range ((units.length + bs - 1) / bs)).map fun i => (units.drop (i * bs)).take ((i + 1) * bs - i * bs)

/-- The numbers of replicates per query of `Bootstrap.compute_children_sql` (/repo/operations.py:2697-2736):
`n // batch_size` full batches and one with the rest, if any. -/
def bsBatches (n bs : Nat) : List Nat :=
  List.replicate (n / bs) bs ++ (if n % bs = 0 then [] else [n % bs])

/-- The replicate indices of a query: `UNNEST(GENERATE_ARRAY(1, n))` (/repo/operations.py:3015, 3618). -/
def replicateIdx (n : Nat) : List Nat := (List.range n).map (· + 1)

/-! ## Resampling in Python -/

section
variable {U O C F K : Type} [DecidableEq U] [DecidableEq O] [Field K] [LinearOrder K]

/-- The four leaf metrics that can be preaggregated. -/
inductive BKind where
  | sum | count | max | min
  deriving DecidableEq

/-- A leaf metric: kind, column, filter. -/
structure BLeaf (C F : Type) where
  kind : BKind
  col : C
  flt : F

/-- `max` and `min` of present values, missing if there are none. -/
def maxOpt (vs : List K) : Option K := vs.foldr (fun v acc => some (match acc with | none => v | some a => Max.max v a)) none
def minOpt (vs : List K) : Option K := vs.foldr (fun v acc => some (match acc with | none => v | some a => Min.min v a)) none

/-- A leaf on rows, without grouping (/repo/metrics.py:1730-1904): sums and counts of nothing are 0, `max` and `min` of
nothing are missing. Rows are those of one slice. -/
def BLeaf.agg (L : BLeaf C F) (rows : List (JRow Unit U O C F K)) : Option K :=
  let vs := (rows.filter fun r => r.pass L.flt).filterMap fun r => r.col L.col
  match L.kind with
  | .sum => some vs.sum
  | .count => some (vs.length : K)
  | .max => maxOpt vs
  | .min => minOpt vs

/-- One sample of `Bootstrap.get_samples` in a slice (/repo/operations.py:2672-2691): for each unit drawn, all its rows;
`df.loc[resampled]`. -/
def bsSample (t : List (JRow Unit U O C F K)) (draws : List U) : List (JRow Unit U O C F K) :=
  draws.flatMap fun u => t.filter fun r => decide (r.u = u)

/-- One sample of `Bootstrap.get_samples` without a unit (/repo/operations.py:2663-2666), `sample(frac=1, replace=True)` in a
slice: the rows at the positions drawn. -/
def bsByRow (t : List (JRow Unit U O C F K)) (draws : List (Fin t.length)) : List (JRow Unit U O C F K) := draws.map t.get

/-- The leaf on a sample, by operation levels: only levels with a row that passes the filter. -/
def bsGeneral (L : BLeaf C F) (t : List (JRow Unit U O C F K)) (draws : List U) : List (O × Option K) :=
  aggBy (fun r => r.o) L.agg ((bsSample t draws).filter fun r => r.pass L.flt)

/-- The leaf on a sample if nothing splits. -/
def bsScalar (L : BLeaf C F) (t : List (JRow Unit U O C F K)) (draws : List U) : Option K := L.agg (bsSample t draws)

/-- `get_preaggregated_data` (/repo/operations.py:3116-3163): the leaf by unit and operation levels on filtered rows,
reindexed to all units and levels of the data. -/
def preagg (L : BLeaf C F) (t : List (JRow Unit U O C F K)) : List ((U × O) × Option K) :=
  let res := aggBy (fun r => (r.u, r.o)) L.agg (t.filter fun r => r.pass L.flt)
  (t.map fun r => (r.u, r.o)).dedup.map fun k => (k, (res.lookup k).getD none)

/-- The leaf on preaggregated rows (/repo/operations.py:3178-3185): `Sum` for sums and counts, `Max`, `Min`. -/
def BKind.pre (k : BKind) (vs : List (Option K)) : Option K :=
  match k with
  | .sum | .count => some (vs.filterMap id).sum
  | .max => maxOpt (vs.filterMap id)
  | .min => minOpt (vs.filterMap id)

/-- A sample of preaggregated rows, by operation levels (/repo/operations.py:2658-2691). -/
def bsPre (L : BLeaf C F) (t : List (JRow Unit U O C F K)) (draws : List U) : List (O × Option K) :=
  aggBy (fun p => p.1.2) (fun ps => L.kind.pre (ps.map (·.2)))
    (draws.flatMap fun u => (preagg L t).filter fun p => decide (p.1.1 = u))

/-- The same if nothing splits. -/
def bsPreScalar (L : BLeaf C F) (t : List (JRow Unit U O C F K)) (draws : List U) : Option K :=
  L.kind.pre ((draws.flatMap fun u => (preagg L t).filter fun p => decide (p.1.1 = u)).map (·.2))

/-! ## Poisson weights -/

/-- A sample of `PoissonBootstrap.get_samples` (/repo/operations.py:2859-2865): the rows of each unit repeated by the
unit's weight. -/
def poissonSample (t : List (JRow Unit U O C F K)) (w : U → Nat) : List (JRow Unit U O C F K) :=
  (t.map (·.u)).dedup.flatMap fun u => (List.replicate (w u) (t.filter fun r => decide (r.u = u))).flatten

/-- A sample of preaggregated rows (/repo/operations.py:2866-2879): units with positive weight; sums and counts
multiplied by the weight. -/
def poissonPre (L : BLeaf C F) (t : List (JRow Unit U O C F K)) (w : U → Nat) : List ((U × O) × Option K) :=
  ((preagg L t).filter fun p => decide (0 < w p.1.1)).map fun p =>
    (p.1, match L.kind with
      | .sum | .count => p.2.map fun x => x * (w p.1.1 : K)
      | .max | .min => p.2)

/-- The leaf on a Poisson sample of rows, by operation levels. -/
def poissonGeneral (L : BLeaf C F) (t : List (JRow Unit U O C F K)) (w : U → Nat) : List (O × Option K) :=
  aggBy (fun r => r.o) L.agg ((poissonSample t w).filter fun r => r.pass L.flt)

/-- The leaf on the weighted preaggregated rows, by operation levels. -/
def poissonPreLevels (L : BLeaf C F) (t : List (JRow Unit U O C F K)) (w : U → Nat) : List (O × Option K) :=
  aggBy (fun p => p.1.2) (fun ps => L.kind.pre (ps.map (·.2))) (poissonPre L t w)

/-- The leaf on that, if nothing splits. -/
def poissonPreScalar (L : BLeaf C F) (t : List (JRow Unit U O C F K)) (w : U → Nat) : Option K :=
  L.kind.pre ((poissonPre L t w).map (·.2))

end

/-! ## The sample cache -/

/-- One sample as yielded by `get_samples` (/repo/operations.py:2679-2691): the resampled units, which are the cache key,
and the data. `unitCol` says by which column the data was resampled. -/
structure Drawn (U : Type) where
  unitCol : Nat
  draws : List U
  deriving DecidableEq

/-- `compute_on_samples` with caching (/repo/operations.py:1777-1809): the child's result is looked up under the child's
fingerprint and the key `tuple(resampled)`, computed and stored if it is not there. The key does not name the column
the units come from. The child, its filters and `split_by` are fixed here. -/
def runSamples {U X : Type} [DecidableEq U] (child : Drawn U → X) :
    List (List U × X) → List (Drawn U) → List X × List (List U × X)
  | cache, [] => ([], cache)
  | cache, d :: ds =>
    match cache.lookup d.draws with
    | some x => let (xs, c) := runSamples child cache ds; (x :: xs, c)
    | none => let x := child d; let (xs, c) := runSamples child ((d.draws, x) :: cache) ds; (x :: xs, c)

/-! ## SQL resampling -/

/-- `bootstrap_by_row` (/repo/operations.py:3598-3652): in a partition of `n` candidates, row `i` (numbered from 1) draws
`CEILING(RAND() * n)`, and is joined with the candidate of that number. -/
noncomputable def sqlDraw {α : Type} (cands : List α) (rand : Nat → ℝ) : List α :=
  (List.range cands.length).flatMap fun i =>
    (cands.zipIdx 1).filterMap fun p => if (p.2 : ℤ) = ⌈rand i * (cands.length : ℝ)⌉ then some p.1 else none

/-- The text that is hashed for the weight of a unit in a replicate (/repo/operations.py:3002-3012): the slice, the unit
and the replicate as decimal text, concatenated. Integers only. -/
def hashText (slice : List Nat) (unit idx : Nat) : List Char :=
  (slice ++ [unit, idx]).flatMap fun n => Nat.toDigits 10 n

/-- The texts hashed for one unit over all the queries of `compute_children_sql`
(/repo/operations.py:2697-2736, 3002-3017): every query numbers its replicates from 1. -/
def hashTexts (slice : List Nat) (unit n bs : Nat) : List (List Char) :=
  (bsBatches n bs).flatMap fun b => (replicateIdx b).map fun i => hashText slice unit i

/-- `FARM_FINGERPRINT(..) / 0xFFFFFFFFFFFFFFFF + 0.5` (/repo/operations.py:3010), from a signed 64 bit hash. -/
def hashUniform (h : ℤ) : ℚ := (h : ℚ) / (2 ^ 64 - 1) + 1 / 2

/-- The cutoffs of the `CASE` and of the filter (/repo/operations.py:3042-3069), from weight 0 on. -/
def poissonCutoffs : List ℚ :=
  [36787944117144245 / 10 ^ 17, 7357588823428847 / 10 ^ 16, 9196986029286058 / 10 ^ 16, 9810118431238462 / 10 ^ 16,
   9963401531726563 / 10 ^ 16, 9994058151824183 / 10 ^ 16, 999916758850712 / 10 ^ 15, 9999897508033253 / 10 ^ 16,
   999998874797402 / 10 ^ 15, 9999998885745217 / 10 ^ 16, 9999999899522336 / 10 ^ 16, 9999999991683892 / 10 ^ 16,
   9999999999364022 / 10 ^ 16, 9999999999954802 / 10 ^ 16, 9999999999997 / 10 ^ 13, 9999999999999813 / 10 ^ 16,
   9999999999999989 / 10 ^ 16, 9999999999999999 / 10 ^ 16]

/-- The first branch of a `CASE WHEN v <= c THEN i ...` that applies, counting from `i`; `ELSE` the next number. -/
def caseWeight (v : ℚ) : Nat → List ℚ → Nat
  | i, [] => i
  | i, c :: cs => if v ≤ c then i else caseWeight v (i + 1) cs

/-- The weight of a row (/repo/operations.py:3041-3074): rows with `v` at most the first cutoff are filtered out, that is
they have weight 0. -/
def sqlPoissonWeight (v : ℚ) : Nat :=
  match poissonCutoffs with
  | [] => 0
  | c0 :: cs => if v > c0 then caseWeight v 1 cs else 0

/-- `bootstrap_by_unit` for the units drawn (/repo/operations.py:3660-3715): each is left joined with the rows of the
table by `USING (unit)`; a missing unit matches nothing, and the left join then yields one row without values (`none`).
No filter. -/
def sqlBsRows {U R : Type} [DecidableEq U] (unit : R → Option U) (t : List R) (draws : List (Option U)) : List (Option R) :=
  draws.flatMap fun u =>
    match u with
    | none => [none]
    | some u =>
      match t.filter fun r => decide (unit r = some u) with
      | [] => [none]
      | rs => rs.map some

/-- The candidates: `SELECT unit FROM table GROUP BY unit` (/repo/operations.py:3686-3688), where missing values form a
group. -/
def sqlCandidates {U R : Type} [DecidableEq U] (unit : R → Option U) (t : List R) : List (Option U) := (t.map unit).dedup

/-- The units that Python draws from: `groupby(unit)` drops missing values (/repo/operations.py:2671-2677). -/
def pyCandidates {U R : Type} [DecidableEq U] (unit : R → Option U) (t : List R) : List U := (t.filterMap unit).dedup

/-- The columns of the preaggregated table that are multiplied by the weight in SQL
(/repo/operations.py:3076-3092): all that are not in the user's `split_by` and whose name starts with `sum_` or `count_`. -/
def sqlMultiplied (splitBy cols : List String) : List String :=
  cols.filter fun c => !(decide (c ∈ splitBy)) && (c.startsWith "sum_" || c.startsWith "count_")

/-- The names of the preaggregated columns (/repo/operations.py:3188-3202), given as `sum(x)` etc. and passed through the
alias rules. -/
def preaggVar (kind var : Txt) (wh : Option Txt) : Option Txt :=
  let name := kind ++ "(".toList ++ var ++ ")".toList
  escapeAlias (match wh with | none => name | some w => name ++ " where ".toList ++ w)

end Verif
