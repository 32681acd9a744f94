import Mathlib.Data.Rat.Defs
import Mathlib.Data.List.Sort
import Mathlib.Data.String.Basic
import Mathlib.Algebra.Order.Ring.Rat

/-!
# The fingerprint of every built-in metric

The constructors of the 33 built-in classes (/repo/metrics.py:101-142), the attributes they leave on the instance, and
`get_fingerprint` with its overrides. Simplifications: a `bool` is the number 0 or 1 (as for Python's `==` and `hash`);
columns are texts; a list-valued argument that Python accepts as a single text is given as a list; operations have their
child (`Operation.__call__` is not modelled here); `cache_across_instances`, custom classes and dictionaries among the
attributes are left out (for custom classes see `Model/Equality.lean`).
-/

namespace Verif.Fp

/-- The Python values that occur: texts, numbers, tuples (lists and arrays become tuples, /repo/metrics.py:1060-1062), and
`tuple(sorted(d.items()))` of a dict `d`, which is as good as `d` (the keys are distinct) and is given as the lookup function of
`d`. -/
inductive AV where
  | str (s : String)
  | num (q : ℚ)
  | tup (l : List AV)
  | dict (d : String → Option AV)

/-- A metric instance: its class, `where_` (empty for None), `children`, `extra_split_by`, `extra_index`, the other attributes
with their values (None is `none`), and `additional_fingerprint_attrs` (/repo/metrics.py:226-253); or a number, which may be a
child of a CompositeMetric. -/
inductive Obj where
  | num (q : ℚ)
  | mk (cls : String) (wh : List String) (children : List Obj) (split idx : List String)
      (attrs : List (String × Option AV)) (addl : List String)

/-- A tuple of texts. -/
def AV.strs (l : List String) : AV := .tup (l.map .str)

/-- `sorted` on a list of texts. -/
def sortStr (l : List String) : List String := l.insertionSort (· ≤ ·)

/-- `d[k] = v`. -/
def put (d : String → Option AV) (k : String) (v : AV) : String → Option AV :=
  fun k' => if k' = k then some v else d k'

/-- `getattr(self, k, None)`. -/
def getattr (attrs : List (String × Option AV)) (k : String) : Option AV := (attrs.lookup k).join

/-- The loop over `additional_fingerprint_attrs` (/repo/metrics.py:1048-1056). -/
def putAttrs (attrs : List (String × Option AV)) : List String → (String → Option AV) → String → Option AV
  | [], d => d
  | k :: ks, d => putAttrs attrs ks (match getattr attrs k with | some v => put d k v | none => d)

/-- `Metric.get_fingerprint` (/repo/metrics.py:1018-1063), from the fingerprints `ch` of the children. -/
def nodeFp (cls : String) (wh : List String) (ch : List AV) (split idx : List String)
    (attrs : List (String × Option AV)) (addl : List String) : AV :=
  let d := put (fun _ => none) "class" (.str cls)
  let d := if wh = [] then d else put d "where" (.strs (sortStr wh))
  let d := if ch.isEmpty then d else put d "children" (.tup ch)
  let d := if split = [] then d else put d "extra_split_by" (.strs split)
  let d := if idx = split then d else put d "extra_index" (.strs idx)
  .dict (putAttrs attrs addl d)

/-- `self.where`, the text of the filter (/repo/metrics.py:255-262). -/
def whereText (wh : List String) : Option String :=
  match wh with
  | [] => none
  | [c] => some c
  | cs => some (" and ".intercalate ((sortStr cs).map fun c => "(" ++ c ++ ")"))

/-- The test of `CompositeMetric.get_fingerprint` (/repo/metrics.py:1641-1644): the variable and the filters of the Sum. -/
def sumOverCount : List Obj → Option (Option AV × List String)
  | [.mk cs ws _ _ _ as _, .mk cc wc _ _ _ ac _] =>
    if cs = "Sum" ∧ cc = "Count" ∧ whereText ws = whereText wc then
      match getattr as "var", getattr ac "var", getattr ac "distinct" with
      | some (.str v), some (.str v'), some (.num d) => if v = v' ∧ d = 0 then some (some (.str v), ws) else none
      | _, _, _ => none
    else none
  | _ => none

/-- The attributes of `SimpleMetric` that enter the fingerprint (/repo/metrics.py:1683-1684). -/
def simpleAddl (more : List String) : List String := ["var", "var2"] ++ more

/-- Attributes after the assignments `util.var = self.var2; util.var2 = self.var` of a copy, made if `str(var) > str(var2)`
(/repo/metrics.py:1811-1817, 2528-2534, 2646-2652). -/
def swapVars (attrs : List (String × Option AV)) : List (String × Option AV) :=
  match getattr attrs "var", getattr attrs "var2" with
  | some (.str v), some (.str v2) =>
    if v2 < v then ("var", some (.str v2)) :: ("var2", some (.str v)) :: attrs else attrs
  | _, _ => attrs

mutual
/-- `get_fingerprint` of an instance: the overrides of Dot, Correlation, Cov (/repo/metrics.py:1811-1817, 2528-2534, 2646-2652),
of CompositeMetric (/repo/metrics.py:1639-1646), of Ratio (/repo/metrics.py:1665-1669, the quotient of the children is a
CompositeMetric), and the general case (/repo/metrics.py:1018-1063). A number stands for itself (/repo/metrics.py:1041). -/
def fp : Obj → AV
  | .num q => .num q
  | .mk cls wh ch split idx attrs addl =>
    if cls = "Dot" ∨ cls = "Correlation" ∨ cls = "Cov" then
      nodeFp cls wh (fpList ch) split idx (swapVars attrs) addl
    else if cls = "CompositeMetric" ∨ cls = "Ratio" then
      match sumOverCount ch with
      | some (v, ws) => nodeFp "Mean" ws [] [] [] [("var", v), ("weight", none)] (simpleAddl ["weight"])
      | none => nodeFp "CompositeMetric" wh (fpList ch) split idx attrs addl
    else nodeFp cls wh (fpList ch) split idx attrs addl
/-- The fingerprints of the children (/repo/metrics.py:1040-1043). -/
def fpList : List Obj → List AV
  | [] => []
  | o :: os => fp o :: fpList os
end

/-! ## Constructors -/

/-- A `bool` argument. -/
def bv (b : Bool) : Option AV := some (.num (if b then 1 else 0))
/-- An optional column. -/
def sv (o : Option String) : Option AV := o.map .str
/-- A number. -/
def qv (q : ℚ) : Option AV := some (.num q)
/-- An optional number. -/
def oqv (q : Option ℚ) : Option AV := q.map .num

/-- The arguments of the constructors of the simple metrics, but for `name` and `where`
(/repo/metrics.py:1708-2600). `quantile` may be a number or a sequence of numbers. -/
inductive Leaf where
  | sum (var : String)
  | count (var : String) (distinct : Bool)
  | dot (var1 var2 : String) (normalize : Bool)
  | mean (var : String) (weight : Option String)
  | max (var : String)
  | min (var : String)
  | nth (var : String) (n : ℤ) (sortBy : String) (ascending dropna : Bool)
  | quantile (var : String) (q : ℚ ⊕ List ℚ) (weight : Option String) (interpolation : String)
  | variance (var : String) (unbiased : Bool) (weight : Option String)
  | sd (var : String) (unbiased : Bool) (weight : Option String)
  | cv (var : String) (unbiased : Bool)
  | corr (var1 var2 : String) (weight : Option String) (method : String)
  | cov (var1 var2 : String) (bias : Bool) (ddof : Option ℤ) (weight fweight : Option String)

/-- `self.__class__`. -/
def Leaf.cls : Leaf → String
  | .sum .. => "Sum" | .count .. => "Count" | .dot .. => "Dot" | .mean .. => "Mean" | .max .. => "Max"
  | .min .. => "Min" | .nth .. => "Nth" | .quantile .. => "Quantile" | .variance .. => "Variance"
  | .sd .. => "StandardDeviation" | .cv .. => "CV" | .corr .. => "Correlation" | .cov .. => "Cov"

/-- The value of `self.quantile` (/repo/metrics.py:2083-2090): a sequence of one number becomes the number. -/
def quantileAV : ℚ ⊕ List ℚ → AV
  | .inl q => .num q
  | .inr [q] => .num q
  | .inr l => .tup (l.map .num)

/-- The attributes the constructors set (/repo/metrics.py:1725, 1784-1785, 1837-1839, 1938-1946, 2083-2100, 2339-2340, 2393-2394,
2435, 2485-2487, 2573-2577, 1682). -/
def Leaf.attrs : Leaf → List (String × Option AV)
  | .sum v | .max v | .min v => [("var", sv (some v))]
  | .count v d => [("distinct", bv d), ("var", sv (some v))]
  | .dot v v2 n => [("var2", sv (some v2)), ("normalize", bv n), ("var", sv (some v))]
  | .mean v w => [("var", sv (some v)), ("weight", sv w)]
  | .nth v n s a d =>
    let n' := if n < 0 then -n - 1 else n
    let a' := if n < 0 then !a else a
    [("n", qv n'), ("ascending", bv a'), ("dropna", bv d), ("sort_by", sv (some s)), ("var", sv (some v))]
  | .quantile v q w i =>
    [("quantile", some (quantileAV q)), ("interpolation", sv (some i)), ("weight", sv w), ("var", sv (some v))]
  | .variance v u w | .sd v u w => [("ddof", qv (if u then 1 else 0)), ("weight", sv w), ("var", sv (some v))]
  | .cv v u => [("ddof", qv (if u then 1 else 0)), ("var", sv (some v))]
  | .corr v v2 w m => [("var2", sv (some v2)), ("method", sv (some m)), ("weight", sv w), ("var", sv (some v))]
  | .cov v v2 b d w f =>
    [("var2", sv (some v2)), ("bias", bv b), ("ddof", oqv (d.map (Int.cast : ℤ → ℚ))), ("weight", sv w), ("fweight", sv f),
      ("var", sv (some v))]

/-- The attributes passed as `additional_fingerprint_attrs` (/repo/metrics.py:1728, 1787, 1838, 1956-1961, 2101-2103, 2342-2343,
2396-2397, 2436, 2488-2489, 2578-2579). -/
def Leaf.addl : Leaf → List String
  | .sum _ | .max _ | .min _ => simpleAddl []
  | .count .. => simpleAddl ["distinct"]
  | .dot .. => simpleAddl ["normalize"]
  | .mean .. => simpleAddl ["weight"]
  | .nth .. => simpleAddl ["n", "sort_by", "dropna", "ascending"]
  | .quantile .. => simpleAddl ["quantile", "weight", "interpolation"]
  | .variance .. | .sd .. => simpleAddl ["ddof", "weight"]
  | .cv .. => simpleAddl ["ddof"]
  | .corr .. => simpleAddl ["method", "weight"]
  | .cov .. => simpleAddl ["bias", "ddof", "weight", "fweight"]

/-- The arguments of the operations with one child, but for names and the child. -/
inductive Op where
  | distribution (over : List String)
  | cumulative (over : List String) (order : Option (List AV)) (ascending sortByValues : Bool)
  | percent (cond : List String) (base : AV) (includeBase : Bool)
  | absolute (cond : List String) (base : AV) (includeBase : Bool)
  | mh (cond strata : List String) (base : AV) (includeBase : Bool)
  | jackknife (unit : String) (confidence : Option ℚ)
  | bootstrap (unit : Option String) (replicates : ℕ) (confidence : Option ℚ)
  | poisson (unit : Option String) (replicates : ℕ) (confidence : Option ℚ)
  | hhi (over : List String)
  | entropy (over : List String)
  | topK (over : List String) (k : ℤ)
  | nxx (over : List String) (share : ℚ)

/-- `self.__class__`. -/
def Op.cls : Op → String
  | .distribution .. => "Distribution" | .cumulative .. => "CumulativeDistribution" | .percent .. => "PercentChange"
  | .absolute .. => "AbsoluteChange" | .mh .. => "MH" | .jackknife .. => "Jackknife" | .bootstrap .. => "Bootstrap"
  | .poisson .. => "PoissonBootstrap" | .hhi .. => "HHI" | .entropy .. => "Entropy" | .topK .. => "TopK" | .nxx .. => "Nxx"

/-- `self.extra_split_by` (/repo/operations.py:208-213, 431, 1183-1184; /repo/diversity.py:30-31). -/
def Op.split : Op → List String
  | .distribution o | .cumulative o _ _ _ | .hhi o | .entropy o | .topK o _ | .nxx o _ => o
  | .percent c _ _ | .absolute c _ _ => c
  | .mh c s _ _ => c ++ s
  | _ => []

/-- `self.extra_index` (/repo/metrics.py:244-248, /repo/operations.py:1189, /repo/diversity.py:36). -/
def Op.idx : Op → List String
  | .hhi _ | .entropy _ | .topK _ _ | .nxx _ _ => []
  | .mh c _ _ _ => c
  | k => k.split

/-- The attributes the constructors set (/repo/operations.py:302-304, 425-426, 1668-1669, 2611; /repo/diversity.py:153, 243). -/
def Op.attrs : Op → List (String × Option AV)
  | .cumulative _ o a s => [("order", o.map .tup), ("ascending", bv a), ("sort_by_values", bv s)]
  | .percent _ b i | .absolute _ b i | .mh _ _ b i => [("baseline_key", some b), ("include_base", bv i)]
  | .jackknife u c => [("unit", sv (some u)), ("confidence", oqv c)]
  | .bootstrap u n c | .poisson u n c => [("unit", sv u), ("confidence", oqv c), ("n_replicates", qv n)]
  | .topK _ k => [("k", qv k)]
  | .nxx _ s => [("share", qv s)]
  | _ => []

/-- Their `additional_fingerprint_attrs` (/repo/operations.py:309, 432, 1670-1671, 2607; /repo/diversity.py:151, 241). -/
def Op.addl : Op → List String
  | .cumulative .. => ["order", "ascending", "sort_by_values"]
  | .percent .. | .absolute .. | .mh .. => ["baseline_key", "include_base"]
  | .jackknife .. => ["unit", "confidence"]
  | .bootstrap .. | .poisson .. => ["n_replicates", "unit", "confidence"]
  | .topK .. => ["k"]
  | .nxx .. => ["share"]
  | _ => []

/-- The arguments of PrePostChange and CUPED but for the child and the covariates (/repo/operations.py:691-699, 936-944). -/
structure PP where
  cuped : Bool
  cond : List String
  strata : List String
  base : AV
  includeBase : Bool

/-- The arguments of the regressions that are also attributes of the metric (/repo/models.py:178-1003). -/
inductive Mod where
  | ols (fit normalize : Bool)
  | ridge (alpha : ℚ) (fit normalize : Bool)
  | lasso (alpha : ℚ) (fit normalize : Bool) (maxIter : ℕ) (tol : ℚ) (randomState : Option ℤ)
  | enet (alpha ratio : ℚ) (fit normalize : Bool) (maxIter : ℕ) (tol : ℚ) (randomState : Option ℤ)
  | logistic (fit : Bool) (penalty : Option String) (tol C scaling : ℚ) (maxIter : ℕ) (ratio : Option ℚ)
      (randomState : Option ℤ)

/-- The arguments that are only handed on to scikit-learn's estimator, `self.model` (/repo/models.py:227-231, 627-633, 697-703,
931-939). -/
structure Hidden where
  positive : Bool := false
  selection : String := "cyclic"
  solver : String := "auto"
  warmStart : Bool := false
  dual : Bool := false
  classWeight : Option (List (AV × ℚ)) := none
  ridgeTol : ℚ := 1 / 1000
  ridgeMaxIter : Option ℕ := none
  ridgeRandomState : Option ℤ := none

/-- `self.__class__`. -/
def Mod.cls : Mod → String
  | .ols .. => "LinearRegression" | .ridge .. => "Ridge" | .lasso .. => "Lasso" | .enet .. => "ElasticNet"
  | .logistic .. => "LogisticRegression"

/-- The attributes the constructors set (/repo/models.py:109-110, 255, 659-662, 730-734, 997-1003). -/
def Mod.attrs : Mod → List (String × Option AV)
  | .ols f n => [("fit_intercept", bv f), ("normalize", bv n)]
  | .ridge a f n => [("fit_intercept", bv f), ("normalize", bv n), ("alpha", qv a)]
  | .lasso a f n mi t r =>
    [("fit_intercept", bv f), ("normalize", bv n), ("alpha", qv a), ("tol", qv t), ("max_iter", qv mi),
      ("random_state", oqv (r.map (Int.cast : ℤ → ℚ)))]
  | .enet a l f n mi t r =>
    [("fit_intercept", bv f), ("normalize", bv n), ("alpha", qv a), ("tol", qv t), ("max_iter", qv mi), ("l1_ratio", qv l),
      ("random_state", oqv (r.map (Int.cast : ℤ → ℚ)))]
  | .logistic f p t c s mi l r =>
    [("fit_intercept", bv f), ("normalize", bv false), ("penalty", sv p), ("tol", qv t), ("c", qv c),
      ("intercept_scaling", qv (if s = 0 then 1 else s)), ("max_iter", qv mi), ("l1_ratio", oqv l),
      ("random_state", oqv (r.map (Int.cast : ℤ → ℚ)))]

/-- Their `additional_fingerprint_attrs` (/repo/models.py:106-107, 253, 657, 728, 987-995). -/
def Mod.addl : Mod → List String
  | .ols .. => ["fit_intercept", "normalize"]
  | .ridge .. => ["fit_intercept", "normalize", "alpha"]
  | .lasso .. => ["fit_intercept", "normalize", "alpha", "tol", "max_iter", "random_state"]
  | .enet .. => ["fit_intercept", "normalize", "alpha", "tol", "max_iter", "l1_ratio", "random_state"]
  | .logistic .. =>
    ["fit_intercept", "normalize", "penalty", "tol", "c", "intercept_scaling", "max_iter", "l1_ratio", "random_state"]

/-- Names and settings that constructors take and that are not among the attributes of the fingerprint: `name`, `name_tmpl` (for
a CompositeMetric it is an argument of its own), `rename_columns`, `prefix`, `enable_optimization`, `sql_batch_size`,
`children_return_dataframe`. -/
structure Look where
  name : Option String := none
  nameTmpl : Option String := none
  rename : Option (List String) := none
  pfx : Option String := none
  optimize : Bool := true
  batch : Option ℕ := none
  childrenFrame : Bool := true

/-- A metric as the user writes it. -/
inductive Built where
  | num (q : ℚ)
  | leaf (k : Leaf) (wh : List String) (look : Look)
  | list (cs : List Built) (wh : List String) (look : Look)
  | comp (op : ℚ → ℚ → ℚ) (tmpl : String) (a b : Built) (wh : List String) (look : Look)
  | ratio (numerator denominator : String) (wh : List String) (look : Look)
  | op (k : Op) (child : Built) (wh : List String) (look : Look)
  | prepost (k : PP) (child covariates : Built) (wh : List String) (look : Look)
  | model (k : Mod) (groupBy : List String) (y x : Built) (hid : Hidden) (wh : List String) (look : Look)

/-- The attributes that carry names and settings (/repo/metrics.py:236, 250, 1120-1122, 1417; /repo/operations.py:1677-1682). -/
def Look.attrs (l : Look) : List (String × Option AV) :=
  [("name", sv l.name), ("name_tmpl", sv l.nameTmpl), ("columns", l.rename.map fun c => .tup (c.map .str)),
    ("prefix", sv l.pfx), ("enable_optimization", bv l.optimize), ("sql_batch_size", oqv (l.batch.map (Nat.cast : ℕ → ℚ))),
    ("children_return_dataframe", bv l.childrenFrame)]

/-- `Sum(v)` (/repo/metrics.py:1752-1756). -/
def leafObj (k : Leaf) (wh : List String) (look : Look) : Obj :=
  .mk k.cls wh [] [] [] (k.attrs ++ look.attrs) k.addl

/-- `MetricList(children)` (/repo/metrics.py:1105-1122). -/
def listObj (cs : List Obj) (wh : List String) (look : Look) : Obj := .mk "MetricList" wh cs [] [] look.attrs []

mutual
/-- The instance the constructors make: CompositeMetric (/repo/metrics.py:1391-1417), Ratio (/repo/metrics.py:1652-1663),
PrePostChange and CUPED, which put the child and the covariates into a MetricList (/repo/operations.py:700-715, 945-960), the
regressions (/repo/models.py:79-110), and the other operations (/repo/operations.py:110-126). -/
def Built.obj : Built → Obj
  | .num q => .num q
  | .leaf k wh look => leafObj k wh look
  | .list cs wh look => listObj (objs cs) wh look
  | .comp _ tmpl a b wh look =>
    .mk "CompositeMetric" wh [a.obj, b.obj] [] [] (("name_tmpl", sv (some tmpl)) :: look.attrs) ["name_tmpl"]
  | .ratio n d wh look =>
    .mk "Ratio" wh [leafObj (.sum n) [] {}, leafObj (.sum d) [] {}] [] [] (("name_tmpl", sv (some "{} / {}")) :: look.attrs)
      ["name_tmpl"]
  | .op k c wh look => .mk k.cls wh [c.obj] k.split k.idx (k.attrs ++ look.attrs) k.addl
  | .prepost k c v wh look =>
    .mk (if k.cuped then "CUPED" else "PrePostChange") wh [listObj [c.obj, v.obj] [] {}] (k.strata ++ k.cond) k.cond
      ([("baseline_key", some k.base), ("include_base", bv k.includeBase)] ++ look.attrs) ["baseline_key", "include_base"]
  | .model k g y x _ wh look =>
    .mk k.cls wh [listObj [y.obj, x.obj] [] {}] g [] (k.attrs ++ look.attrs) k.addl
/-- The instances of a list of metrics. -/
def objs : List Built → List Obj
  | [] => []
  | b :: bs => b.obj :: objs bs
end

/-- The fingerprint of a metric, which decides about its slot in the cache. `CacheKey` (/repo/utils.py:318-371) takes the metric's own
'where' out of it and keeps the filters collected on the way down instead (see `Model/HashKey.lean`). -/
def slot (m : Built) : AV := fp m.obj

/-- `a * b`, `a / b` on metrics (/repo/metrics.py:970-984). -/
def times (a b : Built) : Built := .comp (· * ·) "{} * {}" a b [] {}
@[inherit_doc times] def quotient (a b : Built) : Built := .comp (· / ·) "{} / {}" a b [] {}

end Verif.Fp
