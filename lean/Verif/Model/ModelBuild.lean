import Mathlib.Data.List.Nodup

/-!
# How a regression model is built, and on which columns it is fit

/repo/models.py:34-155, 176-186, 200-250, 330-386, 663-676, 1005-1030, 1047-1062, /repo/operations.py:33-55, 192-196. The constructor and the pipe
(`MetricList | Model`), and the columns that are y and x when the model is computed on a DataFrame or in the default and mixed modes of
SQL, and in the magic mode. A column is known by what it computes and the filters it is computed under; the values are in other models
(C09, C47-C52, C76).
-/

namespace Verif

/-- A metric given to a model: a metric with its name, its result columns (name and what is computed) and its `where`; or a MetricList. -/
inductive Feat where
  | leaf (name : String) (cols : List (String × ℕ)) (wh : List String)
  | list (children : List Feat) (wh : List String)

/-- A column of the data the model is fit on: its name, what it computes, and under which filters. -/
structure FitCol where
  /-- The name. -/
  name : String
  /-- What is computed. -/
  expr : ℕ
  /-- The filters, outermost first. -/
  filters : List String
deriving DecidableEq

mutual

/-- The columns of the result of a metric below the filters `fs` (/repo/metrics.py:1166-1245). -/
def Feat.cols (fs : List String) : Feat → List FitCol
  | .leaf _ cs wh => cs.map fun c => ⟨c.1, c.2, fs ++ wh⟩
  | .list ms wh => colsAll (fs ++ wh) ms

/-- The columns of all. -/
def colsAll (fs : List String) : List Feat → List FitCol
  | [] => []
  | m :: ms => m.cols fs ++ colsAll fs ms

end

mutual

/-- `count_features` (/repo/operations.py:33-55). -/
def Feat.width : Feat → ℕ
  | .leaf _ cs _ => cs.length
  | .list ms _ => widthAll ms

/-- The sum of all. -/
def widthAll : List Feat → ℕ
  | [] => 0
  | m :: ms => m.width + widthAll ms

end

mutual

/-- `name`; for a MetricList /repo/metrics.py:1106-1110. -/
def Feat.name : Feat → String
  | .leaf n _ _ => n
  | .list ms _ => listName (namesAll ms)

/-- The names of all. -/
def namesAll : List Feat → List String
  | [] => []
  | m :: ms => m.name :: namesAll ms

/-- The name of a MetricList. -/
def listName : List String → String
  | [n] => n
  | ns => "MetricList(" ++ ", ".intercalate ns ++ ")"

end

/-- The classes of models. -/
inductive ModelKind where
  | ols
  | ridge
  | lasso
  | elasticNet
  | logistic
deriving DecidableEq

/-- `model_name` (/repo/models.py:192, 241, 649, 731, 969). -/
def ModelKind.text : ModelKind → String
  | .ols => "OLS"
  | .ridge => "Ridge"
  | .lasso => "Lasso"
  | .elasticNet => "ElasticNet"
  | .logistic => "LogisticRegression"

/-- A model object. -/
structure ModelObj where
  /-- The class. -/
  kind : ModelKind
  /-- `where`. -/
  wh : List String
  /-- `group_by`. -/
  group : List String
  /-- `self.y`. -/
  y : Option Feat
  /-- `self.x`. -/
  x : Option Feat
  /-- `self.children[0]`. -/
  child : Option Feat
  /-- `self.k`. -/
  k : ℕ
  /-- `self.name`. -/
  name : Option String
  /-- What stands before ' Coefficient: ...' in `name_tmpl`. -/
  label : Option String

/-- `x_names`: the names of the metrics of a MetricList, or the name of a single metric (/repo/models.py:84-86). -/
def xNames : Feat → List String
  | .list ms _ => namesAll ms
  | m => [m.name]

/-- `'%s(%s ~ %s)' % (model_name, y.name, ' + '.join(x_names))` (/repo/models.py:87, 168-172). -/
def modelName (kind : ModelKind) (y x : Feat) : String :=
  kind.text ++ "(" ++ y.name ++ " ~ " ++ " + ".intercalate (xNames x) ++ ")"

/-- An empty MetricList, which is false in a condition (/repo/metrics.py:1363). -/
def Feat.falsy : Feat → Bool
  | .list [] _ => true
  | _ => false

/-- `Model.__init__` without y and x. -/
def unfitted (kind : ModelKind) (group wh : List String) (name : Option String) : ModelObj :=
  ⟨kind, wh, group, none, none, none, 0, name, name⟩

/-- `Model.__init__` with y and x (/repo/models.py:66-107). A sequence x has become a MetricList. `none` is the ValueError for a y with more
or less than one column. -/
def construct (kind : ModelKind) (y x : Feat) (group wh : List String) (name : Option String) : Option ModelObj :=
  if y.falsy = false ∧ y.width ≠ 1 then none
  else if y.falsy || x.falsy then some (unfitted kind group wh name)
  else some ⟨kind, wh, group, some y, some x, some (.list [y, x] []), x.width, some (name.getD (modelName kind y x)),
    some (name.getD (modelName kind y x))⟩

/-- `Model.__call__` (/repo/models.py:161-175). `none` is the ValueError for something that is not a MetricList, or the IndexError
for an empty one. -/
def pipeModel (m : ModelObj) : Feat → Option ModelObj
  | .list (y :: xs) wh =>
    some ⟨m.kind, m.wh, m.group, some y, some (.list xs []), some (.list (y :: xs) wh), (Feat.list xs []).width,
      some (modelName m.kind y (.list xs [])), some (modelName m.kind y (.list xs []))⟩
  | _ => none

/-- What a model is fit on: the filter and the groups, the column y and the columns x. -/
structure FitData where
  /-- The filter on the whole table. -/
  wh : List String
  /-- `group_by`. -/
  group : List String
  /-- The response. -/
  y : FitCol
  /-- The explanatory variables, in order. -/
  x : List FitCol
deriving DecidableEq

/-- `compute`: `x, y = df.iloc[:, 1:], df.iloc[:, 0]` (/repo/models.py:110, 1006) on the result of the child. -/
def fitPandas (m : ModelObj) : Option FitData :=
  match m.child with
  | none => none
  | some ch =>
    match ch.cols [] with
    | [] => none
    | y :: xs => some ⟨m.wh, m.group, y, xs⟩

/-- `Columns.add` for columns with different names: a column whose expression is there already is not added again
(/repo/sql.py:432-468). The text of the filters is part of the expression. -/
def mergeFit (acc : List FitCol) : List FitCol → List FitCol
  | [] => acc
  | c :: cs => if acc.any (fun d => d.expr = c.expr && d.filters = c.filters) then mergeFit acc cs else mergeFit (acc ++ [c]) cs

/-- `get_data` (/repo/models.py:376-381): `y = data.columns[-m.k - 1]`, `xs = data.columns[-m.k:]`. `index` are the columns before those of the
metrics: the split and the groups if the query joins subqueries (/repo/metrics.py:1317), else none. `none` is the IndexError. In Python
`[-0:]` is the whole list. -/
def getData (wh group : List String) (index : List FitCol) (ch : Feat) (k : ℕ) : Option FitData :=
  if h : k + 1 ≤ (index ++ mergeFit [] (ch.cols [])).length then
    some ⟨wh, group, (index ++ mergeFit [] (ch.cols []))[(index ++ mergeFit [] (ch.cols [])).length - (k + 1)],
      if k = 0 then index ++ mergeFit [] (ch.cols [])
      else (index ++ mergeFit [] (ch.cols [])).drop ((index ++ mergeFit [] (ch.cols [])).length - k)⟩
  else none

/-- `compute_on_sql_magic_mode` (/repo/models.py:199-209, 257-265, 664-677, 736-778, 1031-1078): LinearRegression and Lasso build a Ridge or an
ElasticNet from `self.y` and `self.x`; the others use their child. -/
def fitMagic (m : ModelObj) (index : List FitCol) : Option FitData :=
  match m.kind with
  | .ols | .lasso =>
    match m.y, m.x with
    | some y, some x =>
      match construct .ridge y x m.group m.wh m.name with
      | some r => r.child.bind fun ch => getData m.wh m.group index ch r.k
      | none => none
    | _, _ => none
  | _ => m.child.bind fun ch => getData m.wh m.group index ch m.k

/-- The column whose distinct values are counted before a logistic regression in the magic mode: `self.y.to_sql(...).columns[-1]`
(/repo/models.py:1052-1062). -/
def classColumn (m : ModelObj) : Option FitCol := m.y.bind fun y => (mergeFit [] (y.cols [])).getLast?

/-- The labels of the coefficients: `{label} Coefficient: {column}` (/repo/models.py:88, 119-126, 135, 507-510). -/
def coefLabels (m : ModelObj) (intercept : Bool) (d : FitData) : List String :=
  ((if intercept then ["intercept"] else []) ++ d.x.map FitCol.name).map fun c => m.label.getD "None" ++ " Coefficient: " ++ c

end Verif
