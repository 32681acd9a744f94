import Mathlib.Data.List.Sort

/-!
# Equality and hashing of metric objects (/repo/metrics.py:999-1061)

Not modelled: the rewriting of Sum/Count to Mean in fingerprints (see
`Verif.Model.Cache`), which treats equal objects equally.
-/

namespace Verif

/-- A metric object. `builtin` is `type(self).__name__ in BUILT_INS or
cache_across_instances`; `ident` is `id(self)`; `attrs` are the fingerprint attributes
apart from children (where, extra_split_by, additional attributes). -/
inductive Obj where
  | number (n : Int)
  | metric (cls : String) (builtin : Bool) (ident : Nat) (name : String)
      (attrs : List (String × String)) (children : List Obj)

/-- The fingerprint: the class, the id of custom metrics, attributes, children. -/
inductive FP where
  | number (n : Int)
  | node (cls : String) (id : Option Nat) (attrs : List (String × String)) (children : List FP)

mutual
/-- `get_fingerprint(attr_to_exclude)`; `withId = false` excludes `'id'`
(/repo/metrics.py:1031-1056). -/
def Obj.fp (withId : Bool) : Obj → FP
  | .number n => .number n
  | .metric cls builtin ident _ attrs cs =>
      .node cls (if builtin || !withId then none else some ident) attrs (fpObjs withId cs)
def fpObjs (withId : Bool) : List Obj → List FP
  | [] => []
  | c :: cs => c.fp withId :: fpObjs withId cs
end

def Obj.name? : Obj → Option String
  | .number _ => none
  | .metric _ _ _ name _ _ => some name

mutual
/-- `__eq__` (/repo/metrics.py:999-1012): same class, name, fingerprint without ids and
pairwise equal children. Numbers compare as numbers. -/
def Obj.Eq : Obj → Obj → Prop
  | .number a, .number b => a = b
  | .metric cls b i name attrs cs, .metric cls' b' i' name' attrs' cs' =>
      cls = cls' ∧ name = name' ∧
      (Obj.metric cls b i name attrs cs).fp false = (Obj.metric cls' b' i' name' attrs' cs').fp false ∧
      eqObjs cs cs'
  | _, _ => False
def eqObjs : List Obj → List Obj → Prop
  | [], [] => True
  | c :: cs, c' :: cs' => c.Eq c' ∧ eqObjs cs cs'
  | _, _ => False
end

/-- What `__hash__` hashes (/repo/metrics.py:1014-1015). -/
def Obj.hashed (o : Obj) : Option String × FP := (o.name?, o.fp true)

mutual
/-- Only built-in metrics in the tree. -/
def Obj.allBuiltin : Obj → Prop
  | .number _ => True
  | .metric _ b _ _ _ cs => b = true ∧ allBuiltins cs
def allBuiltins : List Obj → Prop
  | [] => True
  | c :: cs => c.allBuiltin ∧ allBuiltins cs
end

end Verif
