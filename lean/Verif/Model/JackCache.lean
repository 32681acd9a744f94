import Verif.Model.Cache

/-!
# Jackknife and the cache

/repo/operations.py:2299-2412. A Jackknife whose leaves are all Sum and Count does not resample. It computes its child by unit, takes all the sums
and counts that are in the cache by then, puts their totals and leave-one-out values into the cache, and lets the child find them there.

Simplified: the child is fully expanded (/repo/operations.py:2324-2326) and contains no operation; of the result the leave-one-out values and the
point estimates are modelled, not the standard errors made of them (see C39); an unmelted table is the table.
-/

namespace Verif

/-- `k.metric.__class__` is Sum or Count (/repo/metrics.py:364-366, /repo/operations.py:2329-2332). -/
def M.sumOrCount : M → Bool
  | .leaf (.sum _) _ => true
  | .leaf (.count _) _ => true
  | _ => false

/-- The index values without those of the levels called `unit` (/repo/operations.py:2377-2380). -/
def dropUnit (unit : String) (cols : List String) (k : Key) : Key :=
  ((cols.zip k).filter fun p => decide (p.1 ≠ unit)).map (·.2)

/-- `total` (/repo/operations.py:2378-2383): the buckets summed over the units; `cols` are the levels of the buckets. -/
def jkTotal (unit : String) (cols : List String) (b : Tbl) : Tbl :=
  (if cols.filter (fun c => decide (c ≠ unit)) = [] then [[]] else (b.map fun p => dropUnit unit cols p.1).dedup).map fun k =>
    (k, pySum ((b.filter fun p => decide (dropUnit unit cols p.1 = k)).map (·.2)))

/-- The index of `adjust_slices_for_loo` (/repo/utils.py:479-511) with `n` columns in `split_by`: the slices and units of the data, and, if there
are levels of operations, those that other units have in the slice. Simplified: no rows with missing levels. -/
def looKeys (n : ℕ) (cols : List String) (rows : List Row) (b : Tbl) : List Key :=
  if cols.length ≤ n + 1 then groupKeys cols rows
  else ((groupKeys (cols.take (n + 1)) rows).flatMap fun e =>
    (b.filter fun p => decide (p.1.take n = e.take n) && decide (p.1.take (n + 1) ≠ e)).map fun p => e ++ p.1.drop (n + 1)).dedup

/-- `loo` (/repo/operations.py:2387-2393): total minus bucket, where a bucket that is not there counts as 0. Simplified: no rows that the alignment
may add for a total without units. -/
def jkLoo (unit : String) (n : ℕ) (cols : List String) (rows : List Row) (b : Tbl) : Tbl :=
  (looKeys n cols rows b).map fun k =>
    (k, (((jkTotal unit cols b).get (dropUnit unit cols k)).getD .nan).sub ((b.get k).getD (.fin 0)))

/-- `precompute_sum_or_count_for_jackknife` (/repo/operations.py:2348-2394). `jk` is the key `('_RESERVED', 'Jackknife', unit)`. -/
def precomputeOne (jk : ℕ) (unit : String) (sb : List String) (rows : List Row) (c : Cache) (e : CKey × Res) : Cache :=
  match e.2 with
  | .tbl _ [b] =>
    if e.1.splitBy.take (sb.length + 1) = sb ++ [unit] then
      let total := ({ e.1 with splitBy := e.1.splitBy.filter fun c => decide (c ≠ unit) }, Res.tbl [] [jkTotal unit e.1.splitBy b])
      let k := { e.1 with key := jk }
      if (Cache.find (total :: c) k).isSome then total :: c
      else (k, .tbl [] [jkLoo unit sb.length e.1.splitBy rows b]) :: total :: c
    else c
  | _ => c

/-- The sums and counts in the cache whose user key is that of the Jackknife (/repo/operations.py:2329-2335). -/
def precomputed (key : ℕ) (c : Cache) : List (CKey × Res) :=
  c.filter fun e => e.1.metric.sumOrCount && decide (e.1.key = key) && decide (c.find e.1 = some e.2)

/-- The key of the child below a Jackknife with the filters `wh` (/repo/metrics.py:842-855, 344-348; /repo/utils.py:338-349). -/
def jackChildKey (key : ℕ) (wh : List String) (child : M) (sb : List String) : CKey :=
  CKey.extend ⟨child.fp.dropWh, key, sb, canonWh wh⟩ child sb

/-- `Jackknife.compute_slices` with precomputation, and the filter before it (/repo/metrics.py:480; /repo/operations.py:1686-1689, 1700-1701,
2328-2346, 2396-2412): the leave-one-out values and the point estimates. -/
def jackCompute (env : Env) (jk : ℕ) (unit : String) (child : M) (key : ℕ) (wh : List String) (f : Frame) (sb : List String) (c : Cache) :
    Except Err (Res × Res) × Cache :=
  let f := f.query env wh
  match child.runC env (jackChildKey key wh child (sb ++ [unit])) f (sb ++ [unit]) c with
  | (.error e, c) => (.error e, c)
  | (.ok _, c) =>
    let c := (precomputed key c).foldl (precomputeOne jk unit sb f.rows) c
    match child.runC env (jackChildKey jk wh child (sb ++ [unit])) f (sb ++ [unit]) c with
    | (.error e, c) => (.error e, c)
    | (.ok rep, c) =>
      match child.runC env (jackChildKey key wh child sb) f sb c with
      | (.error e, c) => (.error e, c)
      | (.ok pt, c) => (.ok (rep, pt), c)

/-- The key of a Jackknife's own result: unit, fingerprint of the child, user key, `split_by`, filters. -/
structure JackKey where
  unit : String
  child : M
  key : ℕ
  splitBy : List String
  wh : List String
  deriving DecidableEq

/-- The cache dict: the results of other metrics, and those of Jackknifes. -/
structure JackSt where
  cache : Cache
  jack : List (JackKey × (Res × Res))

/-- A call: of another metric, or `Jackknife(unit, child, where=wh).compute_on(data[key], sb, cache_key=key, cache=cache)`; each on a metric
object that holds no key of an earlier call. The children of a MetricList without filter are computed in the same way, one after the other, with
one key and one cache (/repo/metrics.py:1124-1150). -/
inductive JackCall where
  | plain (call : Call)
  | jack (key : ℕ) (unit : String) (child : M) (wh sb : List String)

/-- What a call returns. -/
inductive JackOut where
  | plain (r : Except Err Res)
  | jack (r : Except Err (Res × Res))
  deriving DecidableEq

/-- One call; `jk unit` is the key `('_RESERVED', 'Jackknife', unit)` (/repo/metrics.py:327-342). -/
def JackCall.run (env : Env) (jk : String → ℕ) (data : ℕ → Frame) (s : JackSt) : JackCall → JackOut × JackSt
  | .plain call =>
    let (r, c) := call.metric.runC env (CKey.fresh call.key call.metric call.splitBy) (data call.key) call.splitBy s.cache
    (.plain r, { s with cache := c })
  | .jack key unit child wh sb =>
    let k : JackKey := ⟨unit, child.fp, key, sb, canonWh wh⟩
    match s.jack.lookup k with
    | some v => (.jack (.ok v), s)
    | none =>
      match jackCompute env (jk unit) unit child key wh (data key) sb s.cache with
      | (.error e, c) => (.jack (.error e), { s with cache := c })
      | (.ok v, c) => (.jack (.ok v), ⟨c, (k, v) :: s.jack⟩)

/-- Calls one after the other with one cache. -/
def runJack (env : Env) (jk : String → ℕ) (data : ℕ → Frame) : List JackCall → JackSt → List JackOut × JackSt
  | [], s => ([], s)
  | call :: calls, s =>
    let (r, s) := call.run env jk data s
    let (rs, s) := runJack env jk data calls s
    (r :: rs, s)

end Verif
