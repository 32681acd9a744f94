import Verif.Model.Fingerprint
import Mathlib.Data.ZMod.Basic

/-!
# Keys of the cache are compared by their hashes

`CacheKey.__eq__` (/repo/utils.py:404-405) compares the hashes of two keys, nothing else. Modelled: what the hash of a key
depends on, and the hash CPython gives to numbers (NaN and infinities left out). The hashes of texts and of tuples (from those of
their elements) are left open.
-/

namespace Verif.Fp

/-- The hash functions of Python that are left open; `items` is the hash of `tuple(sorted(d.items()))`, which depends on the keys
and on the hashes of the values; `ofInt` includes integer hashes into the hashes. -/
structure PyHash (H : Type) where
  text : String → H
  tuple : List H → H
  items : (String → Option H) → H
  ofInt : ℤ → H

/-- `hash(q)` of a number, an integer or a float (or a Fraction), in CPython on 64 bits: for `q = m / n` in lowest terms, `|m|` times
the inverse of `n` modulo the prime `P = 2^61 - 1`, with the sign of `q`; `sys.hash_info.inf = 314159` instead if `P` divides `n`, and
-2 instead of -1, which stands for an error. (The library reference, "Hashing of numeric types".) -/
def ratHash (q : ℚ) : ℤ :=
  let r : ℕ := if 2 ^ 61 - 1 ∣ q.den then 314159 else ((q.num.natAbs : ZMod (2 ^ 61 - 1)) * (q.den : ZMod (2 ^ 61 - 1))⁻¹).val
  let h := q.num.sign * r
  if h = -1 then -2 else h

variable {H : Type} (h : PyHash H)

/-- `hash` of a number. -/
def numHash (q : ℚ) : H := h.ofInt (ratHash q)

mutual
/-- `hash` of a value. -/
def hashAV : AV → H
  | .str s => h.text s
  | .num q => numHash h q
  | .tup l => h.tuple (hashAVs l)
  | .dict d => h.items fun k => hashAVo (d k)
@[inherit_doc hashAV] def hashAVs : List AV → List H
  | [] => []
  | a :: as => hashAV a :: hashAVs as
@[inherit_doc hashAV] def hashAVo : Option AV → Option H
  | none => none
  | some v => some (hashAV v)
end

/-- `utils.CacheKey`, the parts its hash depends on (/repo/utils.py:364-371, 407-415). -/
structure HKey where
  metric : AV
  key : AV
  splitBy : List String
  slice : List (String × AV)
  wh : List String
  extra : List String

/-- The fingerprint without 'where' (/repo/utils.py:361-363). -/
def dropWhere : AV → AV
  | .dict d => .dict fun k => if k = "where" then none else d k
  | v => v

/-- `self.where_`. -/
def Built.wh : Built → List String
  | .num _ => []
  | .leaf _ wh _ | .list _ wh _ | .comp _ _ _ _ wh _ | .ratio _ _ wh _ | .op _ _ wh _ | .prepost _ _ _ wh _
  | .model _ _ _ _ _ wh _ => wh

/-- `CacheKey(metric, key, where, split_by, slice_val)` with a raw key (/repo/utils.py:333-337, 350-371); `slice` is the list of
the items of `slice_val`, sorted. -/
def HKey.mk' (m : Built) (key : AV) (wh splitBy : List String) (slice : List (String × AV)) : HKey :=
  { metric := dropWhere (slot m), key := key, splitBy := splitBy, slice := slice, wh := sortStr wh.dedup, extra := [] }

/-- `CacheKey.__hash__` (/repo/utils.py:407-415). -/
def HKey.hash (k : HKey) : H :=
  h.tuple [hashAV h k.metric, hashAV h k.key, h.tuple (k.splitBy.map h.text),
    h.tuple (k.slice.map fun p => h.tuple [h.text p.1, hashAV h p.2]), h.tuple (k.wh.map h.text), h.tuple (k.extra.map h.text)]

/-- `CacheKey.__eq__` (/repo/utils.py:404-405). -/
def HKey.same (k k' : HKey) : Prop := k.hash h = k'.hash h

open Classical in
/-- Computing metrics one after the other on the same data with a common cache under the key `key`, as the children of a
MetricList without filter are (/repo/metrics.py:1124-1150, 327-339, 842-855): a result is taken from the cache if its key is found
there. `compute` is what a metric computes without cache. The entries their own children add are left out. -/
noncomputable def runAll {V : Type} (key : AV) (splitBy : List String) (compute : Built → V) :
    List (H × V) → List Built → List V
  | _, [] => []
  | cache, m :: ms =>
    let k := (HKey.mk' m key m.wh splitBy []).hash h
    match cache.find? fun e => decide (e.1 = k) with
    | some e => e.2 :: runAll key splitBy compute cache ms
    | none => compute m :: runAll key splitBy compute ((k, compute m) :: cache) ms

end Verif.Fp
