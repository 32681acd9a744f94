import Mathlib.Data.List.Basic
import Mathlib.Data.List.Nodup

/-!
# User-defined metrics as objects that live and die

A user-defined metric is told apart from the other instances of its class by `id(self)`, its address
(/repo/metrics.py:1034-1038). In Python an address is unique only among the objects that exist at the same time: after an object has
been dropped, a new one may get its address. A key of the cache holds the address as a number and a deep copy of the metric
(/repo/utils.py:333, 361-365), so it does not keep the metric alive.

Modelled: a history of creating, changing, dropping and computing metrics with one cache, under one cache key, on the same data, with
the same split (what else the key contains is the same for all, see C75). Left out: the children of the metrics, and
`cache_across_instances` changing.
-/

namespace Verif.Ident

/-- An instance: its class, its address, `cache_across_instances`, the attributes listed in `additional_fingerprint_attrs` (and the
others that the fingerprint contains), and what `compute()` gives for the data as a function of those attributes. Two instances of a class
may have different functions: an instance can have state that the fingerprint does not contain. -/
structure Ob (A V : Type) where
  cls : String
  addr : ℕ
  across : Bool
  attrs : A
  beh : A → V

/-- What the program does: creates an object and keeps it in the variable `x`; assigns attributes that are in the fingerprint; changes
state that is not; deletes the only reference to the object; computes it with the shared cache. -/
inductive Ev (A V : Type) where
  | new (x : ℕ) (o : Ob A V)
  | set (x : ℕ) (attrs : A)
  | hidden (x : ℕ) (beh : A → V)
  | drop (x : ℕ)
  | compute (x : ℕ)

/-- The fingerprint (/repo/metrics.py:1031-1063): class, address unless `cache_across_instances`, attributes. -/
def Ob.fp {A V : Type} (o : Ob A V) : String × Option ℕ × A := (o.cls, if o.across then none else some o.addr, o.attrs)

/-- The objects that the variables hold after an event. -/
def vars' {A V : Type} (vars : List (ℕ × Ob A V)) : Ev A V → List (ℕ × Ob A V)
  | .new x o => (x, o) :: vars
  | .set x a => vars.map fun p => if p.1 = x then (p.1, { p.2 with attrs := a }) else p
  | .hidden x b => vars.map fun p => if p.1 = x then (p.1, { p.2 with beh := b }) else p
  | .drop x => vars.filter fun p => decide (p.1 ≠ x)
  | .compute _ => vars

/-- What the memory allows: a new object gets a variable that is free and an address that no living object has. -/
def Allowed {A V : Type} : List (ℕ × Ob A V) → List (Ev A V) → Prop
  | _, [] => True
  | vars, e :: es => (∀ x o, e = .new x o → ∀ p ∈ vars, p.1 ≠ x ∧ p.2.addr ≠ o.addr) ∧ Allowed (vars' vars e) es

/-- The variables with the objects they hold, and the cache. -/
structure St (A V : Type) where
  vars : List (ℕ × Ob A V)
  cache : List ((String × Option ℕ × A) × V)

variable {A V : Type} [DecidableEq A]

/-- `compute_on(df, cache_key=k, cache=c)` of one object: reads the cache, or computes and stores (/repo/metrics.py:326-335). -/
def Ob.computeOn (o : Ob A V) (c : List ((String × Option ℕ × A) × V)) : List ((String × Option ℕ × A) × V) × V :=
  match c.lookup o.fp with
  | some v => (c, v)
  | none => ((o.fp, o.beh o.attrs) :: c, o.beh o.attrs)

/-- One step and what it shows to the user. -/
def step (s : St A V) (e : Ev A V) : St A V × Option V :=
  match e with
  | .compute x =>
    match s.vars.lookup x with
    | none => (s, none)
    | some o => ({ s with cache := (o.computeOn s.cache).1 }, some (o.computeOn s.cache).2)
  | e => ({ s with vars := vars' s.vars e }, none)

/-- Everything the user sees. -/
def run : St A V → List (Ev A V) → List (Option V)
  | _, [] => []
  | s, e :: es => (step s e).2 :: run (step s e).1 es

end Verif.Ident
