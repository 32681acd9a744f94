import Verif.Model.HashKey
import Verif.Model.Frame
import Mathlib.Data.List.Lex

/-!
# Metrics defined by their `compute()`

The documented way to add a metric (/repo/metrics.py:146-190): overwrite `compute()`, which is then called on every slice of the data,
or `compute_slices()`, which is called once with the whole data and `split_by`. Both may compute helper metrics with
`self.compute_util_metric_on(metric, df, split_by)`, which shares the cache of the running computation.

What such a function does is left open: it is any program (`Prog`) that asks for the results of helper metrics and finally returns
or raises. A helper is asked for on the data the program was given. (Asking on data that the program has altered, under an
unaltered cache key, is the caller's mistake: "Different DataFrames need to have different cache_keys", /repo/metrics.py:506.)

Simplifications: split columns hold numbers; `manipulate`, `final_compute`, `precompute` and `postcompute` are left out (they do not
touch the cache); the attribute `cache_key` of a metric is an argument (it is assigned before `compute_fn` is called,
/repo/metrics.py:332, and while a metric is being computed nobody else assigns it, as a metric is not a part of itself).
-/

namespace Verif.Gen

open Fp

/-- Exceptions. -/
inductive Exn where
  | notImplemented | indexError | valueError
  | other (n : ℕ)
  deriving DecidableEq

mutual
/-- A metric: one that overwrites `compute_slices()` (`whole`: gets `split_by` and the filtered data) or one that overwrites
`compute()` (`sliced`: gets the filtered data of one slice). The latter may have children; then `first`, that is `compute_children()`
and `compute_on_children()`, is tried before (/repo/metrics.py:495-500). A metric without children behaves as if `first` raised
NotImplementedError. `fp` is the fingerprint without 'where', `wh` the filters. -/
inductive UM (V : Type) where
  | whole (fp : AV) (wh : List String) (prog : List String → List Row → Prog V)
  | sliced (fp : AV) (wh : List String) (first : List String → List Row → Prog V) (prog : List Row → Prog V)
/-- What the body of `compute()` or `compute_slices()` does: returns, raises, or calls
`self.compute_util_metric_on(m, df, sb)` (/repo/metrics.py:842-855) and goes on with the result, or with the exception, which it may
catch. -/
inductive Prog (V : Type) where
  | ret (v : V)
  | raise (e : Exn)
  | ask (m : UM V) (sb : List String) (k : Except Exn V → Prog V)
end

/-- What pandas does with the results of the slices. `concat` is `pd.concat(result, keys=slices, names=split_by, sort=False)`,
`relabel` the treatment of /repo/metrics.py:524-532, `none` is None. -/
structure Pd (V : Type) where
  series : List (Key × V) → V
  isFrame : V → Bool
  concat : List (Key × V) → Except Exn V
  relabel : List (Key × V) → V
  none : V

variable {V : Type}

/-- `get_fingerprint()` without 'where'. -/
def UM.fp : UM V → AV
  | .whole fp _ _ | .sliced fp _ _ _ => fp

/-- `where_`. -/
def UM.wh : UM V → List String
  | .whole _ wh _ | .sliced _ wh _ _ => wh

/-- `df.query(self.where)` (/repo/metrics.py:480). -/
def filt (env : Env) (wh : List String) (rows : List Row) : List Row := rows.filter fun r => wh.all fun w => env.query w r

/-- The keys of `df.groupby(split_by, observed=True).indices` in their order (/repo/metrics.py:576): the combinations of values that
occur, sorted; rows with a missing value belong to none. -/
def sortedKeys (sb : List String) (rows : List Row) : List Key := (rows.filterMap (keyOf sb)).dedup.insertionSort (· ≤ ·)

/-- What becomes of the results of the slices (/repo/metrics.py:519-539). `result[0]` fails if there are none. After a ValueError of
`pd.concat` with several split columns the function ends without a `return`. -/
def finish (P : Pd V) (sb : List String) : List (Key × V) → Except Exn V
  | [] => .error .indexError
  | c :: cs =>
    if P.isFrame c.2 then
      match P.concat (c :: cs) with
      | .ok v => .ok v
      | .error .valueError => if sb.length = 1 then .ok (P.relabel (c :: cs)) else .ok P.none
      | .error e => .error e
    else .ok (P.series (c :: cs))

/-- `utils.CacheKey` (/repo/utils.py:313-371), with slices given by numbers. -/
structure GKey where
  fp : AV
  raw : AV
  splitBy : List String
  slice : List (String × ℚ)
  wh : List String

/-- The parts of the key as they are hashed (/repo/utils.py:364-371). -/
def GKey.hkey (k : GKey) : HKey :=
  { metric := k.fp, key := k.raw, splitBy := k.splitBy, slice := k.slice.map fun p => (p.1, .num p.2), wh := sortStr k.wh.dedup,
    extra := [] }

/-- `d[c] = v` on a dict given by its items. -/
def setItem (d : List (String × ℚ)) (c : String) (v : ℚ) : List (String × ℚ) :=
  match d with
  | [] => [(c, v)]
  | p :: ps => if p.1 = c then (c, v) :: ps else p :: setItem ps c v

/-- `dict(zip(split_by, slice_i))` (/repo/metrics.py:514). -/
def dictOf (l : List (String × ℚ)) : List (String × ℚ) := l.foldl (fun d p => setItem d p.1 p.2) []

/-- The loop of /repo/utils.py:346-349: the slice of the old key joins the new one, or 'Incompatible data slice values!'. -/
def joinSlice : List (String × ℚ) → List (String × ℚ) → Option (List (String × ℚ))
  | new, [] => some new
  | new, p :: ps => if new.any (fun q => decide (q.1 = p.1 ∧ q.2 ≠ p.2)) then none else joinSlice (setItem new p.1 p.2) ps

/-- `sorted(slice_val.items())` (/repo/utils.py:356); the columns are distinct. -/
def sortItems (d : List (String × ℚ)) : List (String × ℚ) := d.insertionSort fun a b => a.1 ≤ b.1

/-- `self.wrap_cache_key(cache_key, slice_val=dict(zip(split_by, slice_i_iter)))` (/repo/metrics.py:513-514, 344-348; /repo/utils.py:338-356). -/
def GKey.addSlice (k : GKey) (sb : List String) (v : Key) : Option GKey :=
  (joinSlice (dictOf (sb.zip v)) k.slice).map fun d => { k with slice := sortItems d }

/-- The key under which a helper is computed: `self.wrap_cache_key(None, sb)` in compute_util_metric_on, then
`m.wrap_cache_key(key, sb)` in compute_on (/repo/metrics.py:852, 330, 344-348; /repo/utils.py:338-349): the filters are added, and
`split_by` is that of the old key if none is given. -/
def GKey.child (k : GKey) (m : UM V) (sb : List String) : GKey :=
  { fp := m.fp, raw := k.raw, splitBy := if sb = [] then k.splitBy else sb, slice := sortItems k.slice, wh := k.wh ++ m.wh }

/-- The key of the computation the user starts (/repo/metrics.py:330, 344-348; /repo/utils.py:350-356). -/
def UM.rootKey (m : UM V) (raw : AV) (sb : List String) : GKey :=
  { fp := m.fp, raw := raw, splitBy := sb, slice := [], wh := m.wh }

/-- The results of the slices one after the other, until one fails (/repo/metrics.py:510-518). -/
def eachSlice {S : Type} (step : Key → S → Except Exn V × S) : List Key → S → Except Exn (List (Key × V)) × S
  | [], s => (.ok [], s)
  | k :: ks, s =>
    match step k s with
    | (.error e, s') => (.error e, s')
    | (.ok v, s') =>
      match eachSlice step ks s' with
      | (.error e, s'') => (.error e, s'')
      | (.ok cs, s'') => (.ok ((k, v) :: cs), s'')

/-- A key that could not be made is a ValueError (/repo/utils.py:347-348). -/
def withKey {S : Type} (o : Option GKey) (s : S) (f : GKey → Except Exn V × S) : Except Exn V × S :=
  match o with
  | none => (.error .valueError, s)
  | some k => f k

/-- The results of the slices are put together (/repo/metrics.py:519-539), unless one failed. -/
def gather {S : Type} (P : Pd V) (sb : List String) : Except Exn (List (Key × V)) × S → Except Exn V × S
  | (.error e, s) => (.error e, s)
  | (.ok cs, s) => (finish P sb cs, s)

/-- `self.save_to_cache(key, raw_res)`, not reached after an exception (/repo/metrics.py:334-335). -/
def save (key : GKey) : Except Exn V × List (GKey × V) → Except Exn V × List (GKey × V)
  | (.error e, cache) => (.error e, cache)
  | (.ok v, cache) => (.ok v, (key, v) :: cache)

/-- `except NotImplementedError: pass` (/repo/metrics.py:499-500): is this the exception? -/
def notImpl : Except Exn V → Bool
  | .error .notImplemented => true
  | _ => false

section
variable {H : Type} (env : Env) (h : PyHash H) (P : Pd V)

open Classical in
/-- `self.cache[key]` if `key in self.cache` (/repo/metrics.py:331-332, 356-362); keys are compared by their hashes. -/
noncomputable def look (cache : List (GKey × V)) (k : GKey) : Option V :=
  (cache.find? fun e => decide (e.1.hkey.same h k.hkey)).map Prod.snd

mutual
/-- `m.compute_on(df, sb, cache_key=key, cache=cache)` where `key` is the wrapped key (/repo/metrics.py:326-342, 478-483, 493-544). -/
noncomputable def UM.run : UM V → GKey → List String → List Row → List (GKey × V) → Except Exn V × List (GKey × V)
  | .whole _ wh prog, key, sb, rows, cache =>
    match look h cache key with
    | some v => (.ok v, cache)
    | none => save key (Prog.run (prog sb (filt env wh rows)) key (filt env wh rows) cache)
  | .sliced _ wh first prog, key, sb, rows, cache =>
    match look h cache key with
    | some v => (.ok v, cache)
    | none => save key (match Prog.run (first sb (filt env wh rows)) key (filt env wh rows) cache with
      | (r, cache') =>
        if notImpl r then
          if sb = [] then Prog.run (prog (filt env wh rows)) key (filt env wh rows) cache'
          else gather P sb (eachSlice (fun k c => withKey (key.addSlice sb k) c fun key' =>
            Prog.run (prog (rowsAt sb k (filt env wh rows))) key' (rowsAt sb k (filt env wh rows)) c)
            (sortedKeys sb (filt env wh rows)) cache')
        else (r, cache'))
/-- The body of `compute()` or `compute_slices()` on the data `rows`, with `self.cache_key = key`; a helper is computed by
`compute_util_metric_on` (/repo/metrics.py:842-855). -/
noncomputable def Prog.run : Prog V → GKey → List Row → List (GKey × V) → Except Exn V × List (GKey × V)
  | .ret v, _, _, cache => (.ok v, cache)
  | .raise e, _, _, cache => (.error e, cache)
  | .ask m sb k, key, rows, cache =>
    match UM.run m (key.child m sb) sb rows cache with
    | (r, cache') => Prog.run (k r) key rows cache'
end

/-- `m.compute_on(df, split_by)` (/repo/metrics.py:436-476) with an empty cache; `raw` is the cache key the user gives, or None. -/
noncomputable def UM.computeOn (m : UM V) (raw : AV) (sb : List String) (rows : List Row) : Except Exn V :=
  (m.run env h P (m.rootKey raw sb) sb rows []).1

end

end Verif.Gen
