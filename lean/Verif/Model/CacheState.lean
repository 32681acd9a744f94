import Verif.Model.Cache
import Verif.Model.Traverse

/-!
# The state a computation writes to: the cache dict and every node's `cache_key`
-/

namespace Verif

/-- The cache dict, and the `cache_key` attributes of the metric objects (nodes are
identified by their path; a missing entry is `None`). -/
structure St where
  cache : Cache
  keys : List (Path × CKey)

/-- `node.cache_key = key`. -/
def St.setKey (s : St) (p : Path) (k : CKey) : St :=
  { s with keys := (p, k) :: s.keys.filter (fun x => x.1 ≠ p) }

/-- `_compute_with_caching_and_postprocessing` up to `finally`
(/repo/metrics.py:329-336): on a miss the key is stored in the object before anything
is computed, and stays there if computing raises. -/
def cachedS (p : Path) (key : CKey) (compute : St → Except Err Res × St) (s : St) :
    Except Err Res × St :=
  match s.cache.find key with
  | some v => (.ok v, s)
  | none =>
    match compute (s.setKey p key) with
    | (.error e, s) => (.error e, s)
    | (.ok v, s) => (.ok v, { s with cache := (key, v) :: s.cache })

mutual
/-- `M.runC` with the `cache_key` attributes written along the way. -/
def M.runS (env : Env) : M → Path → CKey → Frame → List String → St → Except Err Res × St
  | .const q, _, _, _, _, s => (.ok (.num q), s)
  | .leaf k wh, p, key, f, sb, s => cachedS p key (fun s => (k.run (f.query env wh) sb, s)) s
  | .comp op l r wh, p, key, f, sb, s =>
      cachedS p key (fun s =>
        let pkey := key.extend (.comp op l r wh) sb
        match l.runS env (p ++ [0]) (pkey.extend l sb) (f.query env wh) sb s with
        | (.error e, s) => (.error e, s)
        | (.ok a, s) =>
          match r.runS env (p ++ [1]) (pkey.extend r sb) (f.query env wh) sb s with
          | (.error e, s) => (.error e, s)
          | (.ok b, s) => (combine (op.py env) a b, s)) s
  | .list ms wh, p, key, f, sb, s =>
      cachedS p key (fun s =>
        let (rs, s) := allS env ms p 0 (key.extend (.list ms wh) sb) (f.query env wh) sb s
        (joinRes rs, s)) s
  | .oper o ch wh, p, key, f, sb, s =>
      cachedS p key (fun s =>
        let pkey := key.extend (.oper o ch wh) (sb ++ o.splitBy)
        match ch.runS env (p ++ [0]) (pkey.extend ch (sb ++ o.splitBy)) (f.query env wh)
            (sb ++ o.splitBy) s with
        | (.error e, s) => (.error e, s)
        | (.ok r, s) => (o.onRes sb.length r, s)) s
/-- The children of a list, from position `i`. -/
def allS (env : Env) : List M → Path → Nat → CKey → Frame → List String → St → List Res × St
  | [], _, _, _, _, _, s => ([], s)
  | m :: ms, p, i, pkey, f, sb, s =>
      match m.runS env (p ++ [i]) (pkey.extend m sb) f sb s with
      | (.ok r, s) =>
          let (rs, s) := allS env ms p (i + 1) pkey f sb s
          (r :: rs, s)
      | (.error _, s) => allS env ms p (i + 1) pkey f sb s
end

/-- `clean_up_cache` (/repo/metrics.py:420-434): empty the cache, and set `cache_key`
to `None` on everything `traverse` yields. -/
def St.cleanUp (s : St) (root : M) : St :=
  { cache := [], keys := s.keys.filter (fun x => !((root.traverse false).map Prod.fst).contains x.1) }

/-- `root.compute_on(f, sb, cache=s.cache)` without a `cache_key`
(/repo/metrics.py:327-342): the key is made from the root's remembered key, if any; the
`finally` clause cleans up whether or not computing raised. -/
def M.computeOn (env : Env) (root : M) (f : Frame) (sb : List String) (s : St) :
    Except Err Res × St :=
  let remembered := (s.keys.find? (fun x => x.1 = [])).map Prod.snd
  let key := ObjState.keyFor remembered root none sb
  let (r, s) := root.runS env [] key f sb s
  (r, s.cleanUp root)

end Verif
