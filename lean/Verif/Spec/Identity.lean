import Verif.Model.Identity

/-!
# What the user expects of metrics that share a cache: each gives its own value
-/

namespace Verif.Ident

variable {A V : Type}

/-- What a step should show: a computation gives the value of the object as it is then. -/
def shows (vars : List (ℕ × Ob A V)) : Ev A V → Option V
  | .compute x => (vars.lookup x).map fun o => o.beh o.attrs
  | _ => none

/-- What the user should see. -/
def fresh : List (ℕ × Ob A V) → List (Ev A V) → List (Option V)
  | _, [] => []
  | vars, e :: es => shows vars e :: fresh (vars' vars e) es

/-- No metric is dropped. -/
def NoDrop (es : List (Ev A V)) : Prop := ∀ x, Ev.drop x ∉ es

/-- Nothing that the fingerprint does not contain changes after the metric was created. -/
def NoHidden (es : List (Ev A V)) : Prop := ∀ x b, Ev.hidden x b ∉ es

/-- The instances of a class with `cache_across_instances` differ in nothing but what the fingerprint contains. -/
def AcrossOk (es : List (Ev A V)) : Prop :=
  ∀ x y o o', Ev.new x o ∈ es → Ev.new y o' ∈ es → o.across = true → o'.across = true → o.cls = o'.cls → o.beh = o'.beh

/-- The addresses that the history gives to new metrics. -/
def addrs (es : List (Ev A V)) : List ℕ := es.filterMap fun e => match e with | .new _ o => some o.addr | _ => none

/-- No address is given twice. -/
def NoReuse (es : List (Ev A V)) : Prop := (addrs es).Nodup

end Verif.Ident
