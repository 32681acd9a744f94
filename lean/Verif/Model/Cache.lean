import Verif.Model.Metric
import Mathlib.Data.List.Sort

/-!
# Caching of results

The cached evaluation of `Metric._compute_with_caching_and_postprocessing`
(/repo/metrics.py:281-342) and the cache keys of `utils.CacheKey`
(/repo/utils.py:274-430).

Not modelled: slice values and extra info in keys (used only by metrics that are
not vectorised and by models), hash collisions (`CacheKey.__eq__` compares hashes; see
`Verif.Model.HashKey`), the extra entries that metrics computed through an equivalent create. Cached tables
are immutable here; see `Verif.Model.CacheAlias` for the aliasing of cached tables.
-/

namespace Verif

mutual
/-- Structural comparison of trees. -/
def M.beq : M → M → Bool
  | .const a, .const b => a = b
  | .leaf k wh, .leaf k' wh' => k = k' && wh = wh'
  | .comp op l r wh, .comp op' l' r' wh' => op = op' && l.beq l' && r.beq r' && wh = wh'
  | .list ms wh, .list ms' wh' => beqAll ms ms' && wh = wh'
  | .oper o c wh, .oper o' c' wh' => o = o' && c.beq c' && wh = wh'
  | _, _ => false
def beqAll : List M → List M → Bool
  | [], [] => true
  | m :: ms, m' :: ms' => m.beq m' && beqAll ms ms'
  | _, _ => false
end

mutual
theorem M.beq_iff : ∀ (a b : M), a.beq b = true ↔ a = b
  | .const _, b => by cases b <;> simp [M.beq]
  | .leaf _ _, b => by cases b <;> simp [M.beq]
  | .comp _ l r _, b => by
      cases b <;> simp [M.beq, M.beq_iff l, M.beq_iff r, and_assoc]
  | .list ms _, b => by
      cases b <;> simp [M.beq, beqAll_iff ms]
  | .oper _ c _, b => by
      cases b <;> simp [M.beq, M.beq_iff c, and_assoc]
theorem beqAll_iff : ∀ (a b : List M), beqAll a b = true ↔ a = b
  | [], b => by cases b <;> simp [beqAll]
  | m :: ms, b => by cases b <;> simp [beqAll, M.beq_iff m, beqAll_iff ms]
end

instance : DecidableEq M := fun a b => decidable_of_iff _ (M.beq_iff a b)

/-- `sorted(where_)` (/repo/metrics.py:1033). -/
def sortWh (wh : List String) : List String := wh.insertionSort (· ≤ ·)

/-- The accumulated filters of a key: a set, listed in sorted order
(/repo/utils.py:333-337, 370). -/
def canonWh (wh : List String) : List String := sortWh wh.dedup

mutual
/-- `get_fingerprint` (/repo/metrics.py:1018-1063, 1639-1646), a tree of classes and
attributes, written here as a metric tree. Arithmetic on `Sum(v)` and `Count(v)` with
the same filter has the fingerprint of `Mean(v)` with that filter, whatever the
operator and the filter of the arithmetic node are. -/
def M.fp : M → M
  | .const q => .const q
  | .leaf k wh => .leaf k (sortWh wh)
  | .comp op l r wh =>
      match l, r with
      | .leaf (.sum v) w1, .leaf (.count v') w2 =>
          if v = v' ∧ sortWh w1 = sortWh w2 then .leaf (.mean v) (sortWh w1)
          else .comp op l.fp r.fp (sortWh wh)
      | _, _ => .comp op l.fp r.fp (sortWh wh)
  | .list ms wh => .list (fpAll ms) (sortWh wh)
  | .oper o c wh => .oper o c.fp (sortWh wh)
def fpAll : List M → List M
  | [] => []
  | m :: ms => m.fp :: fpAll ms
end

/-- The filter list of a node. -/
def M.wh : M → List String
  | .const _ => []
  | .leaf _ wh | .comp _ _ _ wh | .list _ wh | .oper _ _ wh => wh

/-- The fingerprint without the node's own 'where' (/repo/utils.py:361-363). -/
def M.dropWh : M → M
  | .const q => .const q
  | .leaf k _ => .leaf k []
  | .comp op l r _ => .comp op l r []
  | .list ms _ => .list ms []
  | .oper o c _ => .oper o c []

/-- `utils.CacheKey`: what its hash depends on (/repo/utils.py:364-371, 404-415). -/
structure CKey where
  metric : M
  key : Nat                 -- the user's cache_key
  splitBy : List String
  wh : List String
  deriving DecidableEq

/-- `CacheKey(metric, key, where, split_by)` where `key` is the key of the parent (or of
an earlier call) (/repo/utils.py:338-349): filters accumulate, and an empty `split_by`
is replaced by the one in the old key. -/
def CKey.extend (k : CKey) (m : M) (sb : List String) : CKey :=
  { metric := m.fp.dropWh, key := k.key,
    splitBy := if sb = [] then k.splitBy else sb,
    wh := canonWh (k.wh ++ m.wh) }

/-- `CacheKey(metric, raw_key, where, split_by)` (/repo/utils.py:350-355). -/
def CKey.fresh (key : Nat) (m : M) (sb : List String) : CKey :=
  { metric := m.fp.dropWh, key := key, splitBy := sb, wh := canonWh m.wh }

/-- The cache dict. -/
abbrev Cache := List (CKey × Res)

def Cache.find (c : Cache) (k : CKey) : Option Res := c.lookup k

/-- `_compute_with_caching_and_postprocessing` (/repo/metrics.py:327-339): return the
cached value, or compute and save it; nothing is saved when computing raises. -/
def cached (key : CKey) (compute : Cache → Except Err Res × Cache) (c : Cache) :
    Except Err Res × Cache :=
  match c.find key with
  | some v => (.ok v, c)
  | none =>
    match compute c with
    | (.error e, c) => (.error e, c)
    | (.ok v, c) => (.ok v, (key, v) :: c)

mutual
/-- `compute_on` of a metric whose cache key is `key`. Children are computed through
`compute_util_metric_on` (/repo/metrics.py:842-855), which hands them this node's key
extended by `split_by`; the child extends it by itself (:330). Numbers are passed
through (:1435-1443). -/
def M.runC (env : Env) : M → CKey → Frame → List String → Cache → Except Err Res × Cache
  | .const q, _, _, _, c => (.ok (.num q), c)
  | .leaf k wh, key, f, sb, c => cached key (fun c => (k.run (f.query env wh) sb, c)) c
  | .comp op l r wh, key, f, sb, c =>
      cached key (fun c =>
        let pkey := key.extend (.comp op l r wh) sb
        match l.runC env (pkey.extend l sb) (f.query env wh) sb c with
        | (.error e, c) => (.error e, c)
        | (.ok a, c) =>
          match r.runC env (pkey.extend r sb) (f.query env wh) sb c with
          | (.error e, c) => (.error e, c)
          | (.ok b, c) => (combine (op.py env) a b, c)) c
  | .list ms wh, key, f, sb, c =>
      cached key (fun c =>
        let (rs, c) := allC env ms (key.extend (.list ms wh) sb) (f.query env wh) sb c
        (joinRes rs, c)) c
  | .oper o ch wh, key, f, sb, c =>
      cached key (fun c =>
        let pkey := key.extend (.oper o ch wh) (sb ++ o.splitBy)
        match ch.runC env (pkey.extend ch (sb ++ o.splitBy)) (f.query env wh)
            (sb ++ o.splitBy) c with
        | (.error e, c) => (.error e, c)
        | (.ok r, c) => (o.onRes sb.length r, c)) c
/-- The children of a list; a child that raises is skipped
(/repo/metrics.py:1137-1152). -/
def allC (env : Env) : List M → CKey → Frame → List String → Cache → List Res × Cache
  | [], _, _, _, c => ([], c)
  | m :: ms, pkey, f, sb, c =>
      match m.runC env (pkey.extend m sb) f sb c with
      | (.ok r, c) =>
          let (rs, c) := allC env ms pkey f sb c
          (r :: rs, c)
      | (.error _, c) => allC env ms pkey f sb c
end

/-- One call `metric.compute_on(data[key], split_by, cache_key=key, cache=cache)` on a
metric object that holds no key of an earlier call. -/
structure Call where
  key : Nat
  metric : M
  splitBy : List String

/-- A sequence of calls sharing one cache dict; `data` is the DataFrame each user key
is bound to. Returns the results in order. -/
def runCalls (env : Env) (data : Nat → Frame) : List Call → Cache → List (Except Err Res) × Cache
  | [], c => ([], c)
  | call :: calls, c =>
      let (r, c) := call.metric.runC env (CKey.fresh call.key call.metric call.splitBy)
        (data call.key) call.splitBy c
      let (rs, c) := runCalls env data calls c
      (r :: rs, c)

/-! ### The cache key a metric object remembers -/

/-- A metric object's `cache_key` attribute: what is left from earlier calls. -/
abbrev ObjState := Option CKey

/-- The key `wrap_cache_key(cache_key or self.cache_key, split_by)` makes
(/repo/metrics.py:330, 344-348): a new raw key is put into the remembered key. `none`
as user key is a call without `cache_key`; such keys are numbered `0` here. -/
def ObjState.keyFor (s : ObjState) (m : M) (userKey : Option Nat) (sb : List String) : CKey :=
  match s, userKey with
  | some old, some k => CKey.extend { old with key := k } m sb
  | some old, none => old.extend m sb
  | none, some k => CKey.fresh k m sb
  | none, none => CKey.fresh 0 m sb

/-- `m.compute_on(f, sb, cache_key=userKey, cache=c)` on an object in state `s`
(/repo/metrics.py:327-342): on a miss the key is remembered; without a user key the
cache and the remembered keys are cleaned up in the end. -/
def objCall (env : Env) (m : M) (s : ObjState) (userKey : Option Nat) (f : Frame)
    (sb : List String) (c : Cache) : Except Err Res × ObjState × Cache :=
  let key := s.keyFor m userKey sb
  let (r, c') := m.runC env key f sb c
  match userKey with
  | none => (r, none, [])
  | some _ => (r, (if (c.find key).isSome then s else some key), c')

/-- A history of calls on one object, with arbitrary caches and data. -/
def objHistory (env : Env) (m : M) : List (Option Nat × Frame × List String × Cache) →
    ObjState → ObjState
  | [], s => s
  | (k, f, sb, c) :: hs, s => objHistory env m hs (objCall env m s k f sb c).2.1

end Verif
