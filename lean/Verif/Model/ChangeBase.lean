import Verif.Model.Cache
import Verif.Model.Comparison

/-!
# The values a change compares, for `display()`

A Jackknife or Bootstrap with a confidence level over a PercentChange or AbsoluteChange attaches to its result the values of
the compared metric (`meterstick_change_base`); `display()` shows them with the changes. Modelled: what the table contains,
how `display()` joins it with the result (/repo/operations.py:1724-1754, 1548-1552, 1981-1995, 2183-2220), and how it is saved and
restored with cached results (/repo/operations.py:1838-1862, /repo/metrics.py:327-358).
-/

namespace Verif

/-! ## The table -/

/-- `compute_change_base` of a change of `m` with filters `wh` by the columns `cond`: `MetricList([m], where=wh)` with
`split_by + extra_index` (/repo/operations.py:1735-1749). Not for PrePostChange and CUPED, whose child is a list. -/
def changeBase (env : Env) (m : M) (wh cond : List String) (f : Frame) (sb : List String) : Except Err Res :=
  (M.list [m] wh).run env f (sb ++ cond)

section
variable {S D K : Type} [DecidableEq S] [DecidableEq D] [Field K] [LinearOrder K]

/-- `base.join(res)` in `display` (/repo/operations.py:1548-1552), one metric: a left join on slice and condition. -/
def displayRows (base res : DTab S D K) : List ((S × D) × Option K × Option K) :=
  base.map fun r => (r.1, r.2, (res.lookup r.1).join)

/-- `compute_change_base` (/repo/operations.py:1724-1754): the compared metric, `t`, by slice and condition, with its filters. The
name template of the change is applied to its columns, as it is to those of the result; one column here. -/
def dfBase (t : DTab S D K) : DTab S D K := t

/-- In SQL the base is the right side of a LEFT JOIN with the change (/repo/operations.py:2183-2219, 1985-1995). -/
def sqlBase (res t : DTab S D K) : DTab S D K := res.map fun r => (r.1, (t.lookup r.1).join)

end

/-! ## Saving and restoring it with the cache -/

/-- The part of a `CacheKey` that matters (/repo/utils.py:331-371); `F` are fingerprints without filters. `none` is no `cache_key`. -/
structure BKey (F : Type) where
  metric : F
  key : Option ℕ
  splitBy : List String
  wh : List String
  deriving DecidableEq

/-- A metric: fingerprint and filters. -/
structure BMetric (F : Type) where
  fp : F
  wh : List String

variable {F R B : Type} [DecidableEq F]

/-- `CacheKey(metric, key, where, split_by)` with an old key (/repo/utils.py:338-349). -/
def BKey.extend (k : BKey F) (m : BMetric F) (sb : List String) : BKey F :=
  { metric := m.fp, key := k.key, splitBy := if sb = [] then k.splitBy else sb, wh := canonWh (k.wh ++ m.wh) }

/-- With a raw key (/repo/utils.py:350-355). -/
def BKey.fresh (key : Option ℕ) (m : BMetric F) (sb : List String) : BKey F :=
  { metric := m.fp, key := key, splitBy := sb, wh := canonWh m.wh }

/-- `wrap_cache_key(cache_key or self.cache_key, split_by)` (/repo/metrics.py:330, 344-348). -/
def bKeyFor (remembered : Option (BKey F)) (m : BMetric F) (userKey : Option ℕ) (sb : List String) : BKey F :=
  match remembered, userKey with
  | some old, some k => BKey.extend { old with key := some k } m sb
  | some old, none => old.extend m sb
  | none, k => BKey.fresh k m sb

/-- The state: what every object remembers as `cache_key`; the cached results, with the table that `add_base_to_res` bound to the
cached object, if it did; the cached tables. One cache dict; the keys of the tables have 'base' as extra info, so they are kept apart. -/
structure BState (F R B : Type) where
  keys : ℕ → Option (BKey F)
  results : List (BKey F × (R × Option B))
  bases : List (BKey F × B)

/-- `obj.compute_on(data, split_by, cache_key=key, cache=cache)`. `same`: `manipulate` changes nothing, so that the result is the cached
object itself (not melted, no MultiIndex; /repo/utils.py:114-118). -/
structure BCall where
  obj : ℕ
  key : Option ℕ
  splitBy : List String
  same : Bool

/-- What a call gives: the result with the table bound to it, an error of the computation, or the `KeyError` of the cache. -/
inductive BOut (R B : Type) where
  | ok (r : R) (b : B)
  | failed
  | keyError

/-- The value of a key in an object's dictionary of remembered keys. -/
def setObj (keys : ℕ → Option (BKey F)) (i : ℕ) (k : Option (BKey F)) : ℕ → Option (BKey F) :=
  fun j => if j = i then k else keys j

/-- `_compute_with_caching_and_postprocessing` with `MetricWithCI.manipulate` (/repo/metrics.py:327-342,
/repo/operations.py:1838-1862), without the cleaning up at the end. `val` computes result and table. -/
def bStep (objs : ℕ → BMetric F) (val : BKey F → Option (R × B)) (c : BCall) (s : BState F R B) : BOut R B × BState F R B :=
  let m := objs c.obj
  let K := bKeyFor (s.keys c.obj) m c.key c.splitBy
  match s.results.lookup K with
  | none =>
    let s := { s with keys := setObj s.keys c.obj (some K) }
    match val K with
    | none => (.failed, s)
    | some (r, b) =>
      (.ok r b, { s with results := (K, (r, none)) :: s.results, bases := (bKeyFor (some K) m none [], b) :: s.bases })
  | some (r, bound) =>
    let bk := bKeyFor (s.keys c.obj) m none []
    match bound with
    | some b => (.ok r b, { s with bases := (bk, b) :: s.bases })
    | none =>
      match s.bases.lookup bk with
      | none => (.keyError, s)
      | some b => (.ok r b, if c.same then { s with results := (K, (r, some b)) :: s.results } else s)

/-- `clean_up_cache` after a call without `cache_key` (/repo/metrics.py:339-342, 420-434). -/
def bCall (objs : ℕ → BMetric F) (val : BKey F → Option (R × B)) (c : BCall) (s : BState F R B) : BOut R B × BState F R B :=
  let p := bStep objs val c s
  match c.key with
  | some _ => p
  | none => (p.1, { keys := setObj p.2.keys c.obj none, results := [], bases := [] })

/-- A history of calls: for each call the key it used and what it gave. -/
def bHistory (objs : ℕ → BMetric F) (val : BKey F → Option (R × B)) : List BCall → BState F R B → List (BKey F × BOut R B)
  | [], _ => []
  | c :: cs, s =>
    let p := bCall objs val c s
    (bKeyFor (s.keys c.obj) (objs c.obj) c.key c.splitBy, p.1) :: bHistory objs val cs p.2

/-- Nothing is cached and nothing is remembered. -/
def BState.empty : BState F R B := { keys := fun _ => none, results := [], bases := [] }

end Verif
