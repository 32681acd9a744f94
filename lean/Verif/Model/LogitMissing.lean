import Verif.Model.Logistic
import Verif.Model.SuffMissing

/-!
# Logistic regression on SQL where a value is missing

/repo/models.py:1062-1257, for one slice (without a split there is one; the slices are independent, C51). As `Verif.Model.Logistic`, but a child
metric may have no value for a group. An expression with a NULL in it is NULL; `IF(NULL < 0, a, b)` is `b`, which is NULL as `a` is; `AVG` skips
NULLs and `COUNT(*)` counts all the rows.
-/

namespace Verif

/-- The value of `xs[i]` on a row (/repo/models.py:1070-1072). -/
def LogitCfg.xsO (m : LogitCfg) (r : RegRowO) (i : ℕ) : Option ℝ := if i < m.k then r.x i else some 1

/-- `z` (/repo/models.py:1181): NULL if one of the features is. -/
noncomputable def LogitCfg.zO (m : LogitCfg) (coef : ℕ → ℝ) (r : RegRowO) : Option ℝ :=
  ((List.range m.n).mapM fun i => nullMul (some (coef i)) (m.xsO r i)).map List.sum

/-- `sig_minus_b` (/repo/models.py:1373-1381). -/
noncomputable def sigMinusBO : Option ℝ → Option ℝ → Option ℝ
  | some z, some b => some (sigMinusB z b)
  | _, _ => none

/-- The gradient columns of `get_grads_and_hess_query` (/repo/models.py:1182-1185, 1199-1205). -/
noncomputable def LogitCfg.gradColsO (m : LogitCfg) (rows : List RegRowO) (coef : ℕ → ℝ) : List (Option ℝ) :=
  (List.range m.n).map fun i =>
    (avgNull rows fun r => nullMul (m.xsO r i) (sigMinusBO (m.zO coef r) r.y)).map fun g => g +
      match m.l2C with
      | some C => if i < m.k then coef i / rows.length / C else 0
      | none => 0

/-- The Hessian columns of `get_grads_and_hess_query` (/repo/models.py:1186-1197, 1206-1209); `y` is not in them. -/
noncomputable def LogitCfg.hessColsO (m : LogitCfg) (rows : List RegRowO) (coef : ℕ → ℝ) : Option (List ℝ) := do
  let h ← (triu m.n).mapM fun p => avgNull rows fun r => nullMul (nullMul (m.xsO r p.1) (m.xsO r p.2)) ((m.zO coef r).map sigW)
  return match m.l2C with
  | some C => addAt h (diagIdx m.n m.k) (1 / (rows.length * C))
  | none => h

/-- One round of `newtons_method` for one slice (/repo/models.py:1388-1396). Simplified: with a NULL among the columns, where numpy computes
with NaN or refuses, there is no result. -/
noncomputable def LogitCfg.newtonStepO (m : LogitCfg) (rows : List RegRowO) (s : (ℕ → ℝ) × Bool) : Option ((ℕ → ℝ) × Bool) :=
  if s.2 then some s
  else do
    let g ← (m.gradColsO rows s.1).mapM id
    let h ← m.hessColsO rows s.1
    let h ← symmetrize h
    let delta ← npSolve h.1 h.2 g
    return (fun i => s.1 i - delta i, smallStep m.n m.tol delta)

/-- `newtons_method` (/repo/models.py:1384-1407). -/
noncomputable def LogitCfg.newtonO (m : LogitCfg) (rows : List RegRowO) : ℕ → (ℕ → ℝ) × Bool → Option ((ℕ → ℝ) × Bool)
  | 0, s => some s
  | f + 1, s => (m.newtonStepO rows s).bind (m.newtonO rows f)

/-- The loop of `fista_for_logistic_regression` (/repo/models.py:1341-1358). -/
noncomputable def LogitCfg.fistaO (m : LogitCfg) (rows : List RegRowO) (a : FistaConst) : ℕ → ℕ → FistaSlice → Option FistaSlice
  | 0, _, s => some s
  | f + 1, i, s =>
    if s.conv then some s
    else do
      let s := s.momentum i
      let g ← (m.gradColsO rows s.v).mapM id
      m.fistaO rows a f (i + 1) (m.fistaUpdate a g s)

/-- `compute_on_sql_magic_mode` without a split (/repo/models.py:1062-1065, 1211-1235, 1254-1257), as `LogitUser.sql`. -/
noncomputable def LogitUser.sqlO (u : LogitUser) (maxEig : ℕ → (ℕ → ℕ → ℝ) → ℝ) (rows : List RegRowO) (init : ℕ → ℝ) : Option (ℕ → ℝ) :=
  let proximal := fun l1 l2 : ℝ => do
    let s ← numbers (suffStatsO u.k u.fit true rows)
    let a ← fistaConst maxEig u.fit l1 l2 s
    let r ← u.cfg.fistaO rows a u.maxIter 0 ⟨init, init, fun _ => 0, false⟩
    return u.cfg.output r.coef
  match u.penalty with
  | .elasticnet ratio => proximal (ratio / u.c) ((1 - ratio) / u.c)
  | .l1 => proximal (1 / u.c) ((1 - 1) / u.c)
  | _ => (u.cfg.newtonO rows u.maxIter (init, false)).map fun r => u.cfg.output r.1

/-- `LogisticRegression.compute` (/repo/models.py:1005-1016): sklearn's `fit` refuses a table with a NaN in it. -/
noncomputable def logitComputeO (fitted : List RegRow → ℕ → ℝ) (k : ℕ) (rows : List RegRowO) : Option (ℕ → ℝ) :=
  (rows.mapM (RegRowO.full k)).map fitted

/-- `ElasticNet.compute_on_sql_magic_mode` for one slice without normalisation (/repo/models.py:736-765), as `enetSql`; `Lasso` is `l1Ratio = 1`. -/
noncomputable def enetSqlO (maxEig : ℕ → (ℕ → ℕ → ℝ) → ℝ) (pre : Series ℝ) (k : ℕ) (alpha l1Ratio : ℝ) (fit : Bool)
    (tol : ℝ) (maxIter : ℕ) (init : ℕ → ℝ) (rows : List RegRowO) : Option ((ℕ → ℝ) × Bool) :=
  open Classical in
  if l1Ratio = 0 ∨ ¬ (0 ≤ l1Ratio ∧ l1Ratio ≤ 1) then none
  else (numbers (suffStatsO k fit false rows)).bind fun s =>
    enetCoefs maxEig (pre ++ s) k (l1Ratio * alpha) ((1 - l1Ratio) * alpha) fit tol maxIter init

end Verif
