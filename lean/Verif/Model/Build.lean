import Verif.Model.Filters

/-!
# Building metrics: objects, references, copies

A heap of metric objects. An object holds the settings of its class (`cls`, opaque), name, name template, filter and
references to its children. Not modelled: the cache and the cache key (C01-C05), the attributes `y` and `x` of a
model, the lists a user passes in (children and filters are values here).
-/

namespace Verif

/-- A child: a metric object or a number. -/
inductive Slot where
  | ref (r : ℕ)
  | num (q : ℤ)
  deriving DecidableEq

/-- What an object says about itself. -/
structure Info where
  cls : String
  name : String
  tmpl : String
  wh : List String
  isOp : Bool
  deriving DecidableEq

/-- A metric object (/repo/metrics.py:226-253). -/
structure MObj where
  info : Info
  children : List Slot
  deriving DecidableEq

/-- The objects so far. -/
abbrev Heap := List MObj

/-- Every `{}` replaced. -/
def fmtChars (name : List Char) : List Char → List Char
  | '{' :: '}' :: cs => name ++ fmtChars name cs
  | c :: cs => c :: fmtChars name cs
  | [] => []

/-- `tmpl.format(name)` for templates whose only braces are pairs `{}`; of several pairs Python would complain. -/
def fmt (tmpl name : String) : String := String.ofList (fmtChars name.toList tmpl.toList)

/-- `utils.get_name` (/repo/utils.py:30-31). -/
def slotName (h : Heap) : Slot → String
  | .ref r => match h[r]? with
    | some o => o.info.name
    | none => ""
  | .num q => toString q

/-- Allocate. -/
def alloc (h : Heap) (o : MObj) : Heap × ℕ := (h ++ [o], h.length)

/-- `copy.deepcopy`: the memo maps what has been copied (`Metric.__deepcopy__`, /repo/metrics.py:1072-1085). A copy
is put on the heap when its children are there; in the code it is there before, empty. This makes no difference
for objects that do not contain themselves; for those there is no result here. -/
def deepCopy : ℕ → Heap → List (ℕ × ℕ) → ℕ → Option (Heap × List (ℕ × ℕ) × ℕ)
  | 0, _, _, _ => none
  | n + 1, h, memo, r =>
    match memo.lookup r with
    | some r' => some (h, memo, r')
    | none =>
      match h[r]? with
      | none => none
      | some o =>
        match copySlots (deepCopy n) h memo o.children with
        | none => none
        | some (h', memo', cs) =>
          let p := alloc h' { o with children := cs }
          some (p.1, (r, p.2) :: memo', p.2)
where
  /-- The children, one after another. -/
  copySlots (f : Heap → List (ℕ × ℕ) → ℕ → Option (Heap × List (ℕ × ℕ) × ℕ)) :
      Heap → List (ℕ × ℕ) → List Slot → Option (Heap × List (ℕ × ℕ) × List Slot)
    | h, memo, [] => some (h, memo, [])
    | h, memo, .num q :: cs =>
      match copySlots f h memo cs with
      | none => none
      | some (h', memo', cs') => some (h', memo', .num q :: cs')
    | h, memo, .ref r :: cs =>
      match f h memo r with
      | none => none
      | some (h1, memo1, r') =>
        match copySlots f h1 memo1 cs with
        | none => none
        | some (h', memo', cs') => some (h', memo', .ref r' :: cs')

/-- `op.name = op.name_tmpl.format(...)` and `op.children = (child,)` (/repo/operations.py:194-195). -/
def applied (o : MObj) (name : String) (child : ℕ) : MObj where
  info := { o.info with name := fmt o.info.tmpl name }
  children := [.ref child]

/-- `Operation.__call__` (/repo/operations.py:192-196): the operation itself if it has no child yet, else a copy.
Other metrics cannot be called. -/
def applyOp (n : ℕ) (h : Heap) (op child : ℕ) : Option (Heap × ℕ) :=
  match h[op]? with
  | none => none
  | some o =>
    if o.info.isOp = false then none else
    let target : Option (Heap × ℕ) :=
      if o.children = [] then some (h, op)
      else match deepCopy n h [] op with
        | none => none
        | some (h', _, r) => some (h', r)
    match target with
    | none => none
    | some (h', r) =>
      match h'[r]? with
      | none => none
      | some o' =>
        some (h'.set r (applied o' (slotName h' (.ref child)) child), r)

/-- `push_filters_to_leaf` (/repo/utils.py:230-271) without the filter of the cache key (:257-259). The copy
of an object is put on the heap with its new children; in the code it is made first and filled in. -/
def pushHeap : ℕ → Heap → ℕ → Option (Heap × ℕ)
  | 0, _, _ => none
  | n + 1, h, r =>
    match h[r]? with
    | none => none
    | some o =>
      if o.children = [] then
        match deepCopy 1 h [] r with
        | none => none
        | some (h', _, r') => some (h', r')
      else
        let copied := if o.info.wh = [] then (h, o.children) else copyChildren o.info.wh h o.children
        match pushSlots (pushHeap n) copied.1 copied.2 with
        | none => none
        | some (h', cs) =>
          some (alloc h' { info := { o.info with wh := [] }, children := cs })
where
  /-- `[copy.copy(c).add_where(where) if is_metric(c) else c for c in children]`. -/
  copyChildren (wh : List String) : Heap → List Slot → Heap × List Slot
    | h, [] => (h, [])
    | h, .num q :: cs => let p := copyChildren wh h cs; (p.1, .num q :: p.2)
    | h, .ref r :: cs =>
      match h[r]? with
      | none => let p := copyChildren wh h cs; (p.1, .ref r :: p.2)
      | some o =>
        let a := alloc h { o with info := { o.info with wh := addWhere o.info.wh wh } }
        let p := copyChildren wh a.1 cs
        (p.1, .ref a.2 :: p.2)
  /-- The children, one after another. -/
  pushSlots (f : Heap → ℕ → Option (Heap × ℕ)) : Heap → List Slot → Option (Heap × List Slot)
    | h, [] => some (h, [])
    | h, .num q :: cs =>
      match pushSlots f h cs with
      | none => none
      | some (h', cs') => some (h', .num q :: cs')
    | h, .ref r :: cs =>
      match f h r with
      | none => none
      | some (h1, r') =>
        match pushSlots f h1 cs with
        | none => none
        | some (h', cs') => some (h', .ref r' :: cs')

/-- What a user does, one step. Metrics are named by their place in the list of results so far. -/
inductive Cmd where
  /-- `Sum('x', where=...)`, or an operation without a child. -/
  | new (i : Info)
  /-- Arithmetic, a list, an operation with its child given: an object with these children. -/
  | combine (i : Info) (children : List (ℕ ⊕ ℤ))
  /-- `m | op`, `op(m)` (/repo/metrics.py:954-956). -/
  | pipe (m op : ℕ)
  /-- `copy.deepcopy(m)`. -/
  | copy (m : ℕ)
  /-- `utils.push_filters_to_leaf(m)`. -/
  | push (m : ℕ)
  /-- `m.add_where(...)` (/repo/metrics.py:273-279). -/
  | addWhere (m : ℕ) (conds : List String)
  /-- `m.name = ...`, `m.set_name(...)` (/repo/metrics.py:1423-1425). -/
  | rename (m : ℕ) (name : String)

/-- The heap and the results so far. -/
structure World where
  heap : Heap
  vars : List ℕ

/-- Look the children up. -/
def slotsOf (vars : List ℕ) : List (ℕ ⊕ ℤ) → Option (List Slot)
  | [] => some []
  | .inr q :: cs => (slotsOf vars cs).map (.num q :: ·)
  | .inl v :: cs =>
    match vars[v]? with
    | none => none
    | some r => (slotsOf vars cs).map (.ref r :: ·)

/-- One step; `n` bounds the depth of the trees that are copied. The result is the last of the variables. -/
def step (n : ℕ) (w : World) : Cmd → Option World
  | .new i => some ⟨w.heap ++ [⟨i, []⟩], w.vars ++ [w.heap.length]⟩
  | .combine i cs =>
    match slotsOf w.vars cs with
    | none => none
    | some ss => some ⟨w.heap ++ [⟨i, ss⟩], w.vars ++ [w.heap.length]⟩
  | .pipe m op =>
    match w.vars[m]?, w.vars[op]? with
    | some rm, some ro => (applyOp n w.heap ro rm).map fun p => ⟨p.1, w.vars ++ [p.2]⟩
    | _, _ => none
  | .copy m =>
    match w.vars[m]? with
    | some r => (deepCopy n w.heap [] r).map fun p => ⟨p.1, w.vars ++ [p.2.2]⟩
    | none => none
  | .push m =>
    match w.vars[m]? with
    | some r => (pushHeap n w.heap r).map fun p => ⟨p.1, w.vars ++ [p.2]⟩
    | none => none
  | .addWhere m conds =>
    match w.vars[m]? with
    | some r =>
      match w.heap[r]? with
      | some o => some ⟨w.heap.set r { o with info := { o.info with wh := Verif.addWhere o.info.wh conds } }, w.vars ++ [r]⟩
      | none => none
    | none => none
  | .rename m name =>
    match w.vars[m]? with
    | some r =>
      match w.heap[r]? with
      | some o => some ⟨w.heap.set r { o with info := { o.info with name := name } }, w.vars ++ [r]⟩
      | none => none
    | none => none

/-- A history. -/
def run (n : ℕ) : World → List Cmd → Option World
  | w, [] => some w
  | w, c :: cs =>
    match step n w c with
    | none => none
    | some w' => run n w' cs

end Verif
