import Verif.Model.Fingerprint

/-!
# When two metrics may share a slot of the cache

`Built.canon` drops from a metric what the documentation of the cache allows to ignore or the code is known to ignore, and
nothing else: names and formats (`Look`), what is only handed on to scikit-learn (`Hidden`), the function of a CompositeMetric
(its template stands for it); and it rewrites ways of writing the same metric into one: the order of filters, the order of the
two variables of Dot, Correlation and Cov, counting from the end in Nth, a sequence of one quantile, an intercept scaling of 0,
`Ratio(a, b)` for `Sum(a) / Sum(b)`, and `Mean(x)` for a CompositeMetric of `Sum(x)` and `Count(x)` under one filter.
-/

namespace Verif.Fp

/-- One way of writing a simple metric. -/
def Leaf.canon : Leaf → Leaf
  | .dot a b n => if b < a then .dot b a n else .dot a b n
  | .corr a b w m => if b < a then .corr b a w m else .corr a b w m
  | .cov a b bias d w f => if b < a then .cov b a bias d w f else .cov a b bias d w f
  | .nth v n s a d => if n < 0 then .nth v (-n - 1) s (!a) d else .nth v n s a d
  | .quantile v (.inr [q]) w i => .quantile v (.inl q) w i
  | k => k

/-- One way of writing a regression. -/
def Mod.canon : Mod → Mod
  | .logistic f p t c s mi l r => .logistic f p t c (if s = 0 then 1 else s) mi l r
  | k => k

/-- The text `df.query` is given for these filters: one filter as it is, more in parentheses and in order. -/
def queryText : List String → Option String
  | [] => none
  | [c] => some c
  | cs => some (" and ".intercalate ((cs.insertionSort (· ≤ ·)).map fun c => "(" ++ c ++ ")"))

/-- A CompositeMetric of two metrics, `Sum(x)` and `Count(x)` with the same filter text apart. -/
def canonComp (tmpl : String) (a b : Built) (wh : List String) : Built :=
  match a, b with
  | .leaf (.sum v) ws _, .leaf (.count v' false) wc _ =>
    if v = v' ∧ queryText ws = queryText wc then .leaf (.mean v none) ws {}
    else .comp (fun _ _ => 0) tmpl a b (wh.insertionSort (· ≤ ·)) {}
  | _, _ => .comp (fun _ _ => 0) tmpl a b (wh.insertionSort (· ≤ ·)) {}

mutual
/-- One way of writing a metric. -/
def Built.canon : Built → Built
  | .num q => .num q
  | .leaf k wh _ => .leaf k.canon (wh.insertionSort (· ≤ ·)) {}
  | .list cs wh _ => .list (canons cs) (wh.insertionSort (· ≤ ·)) {}
  | .comp _ tmpl a b wh _ => canonComp tmpl a.canon b.canon wh
  | .ratio n d wh _ => .comp (fun _ _ => 0) "{} / {}" (.leaf (.sum n) [] {}) (.leaf (.sum d) [] {}) (wh.insertionSort (· ≤ ·)) {}
  | .op k c wh _ => .op k c.canon (wh.insertionSort (· ≤ ·)) {}
  | .prepost k c v wh _ => .prepost k c.canon v.canon (wh.insertionSort (· ≤ ·)) {}
  | .model k g y x _ wh _ => .model k.canon g y.canon x.canon {} (wh.insertionSort (· ≤ ·)) {}
@[inherit_doc Built.canon] def canons : List Built → List Built
  | [] => []
  | b :: bs => b.canon :: canons bs
end

end Verif.Fp
