import Mathlib.Analysis.SpecialFunctions.Exp
import Verif.Model.ElasticNet

/-!
# Logistic regression on SQL

/repo/models.py:1031-1407. The engine's arithmetic, `EXP`, `AVG` and numpy's `linalg.solve` are exact real arithmetic; NULL in
the columns of the regression is not modelled. The split columns are one key with a linear order, and the condition
`c1 = v1 AND c2 = v2 ...` of a slice holds for exactly the rows with that key (this is so for numbers and for texts without
quotes; NULL, dates and texts with a double quote are not modelled). The random initial guess and the largest eigenvalue are
given. `sql.Columns` drops a column whose text repeats another's; the texts of the columns differ, as the features, slices and
pairs of features do, so that is not modelled.
-/

namespace Verif

/-- `sig_minus_b` (/repo/models.py:1373-1381), the value of the text. -/
noncomputable def sigMinusB (z b : ℝ) : ℝ :=
  if z < 0 then ((1 - b) * Real.exp z - b) / (1 + Real.exp z) else ((1 - b) - b * Real.exp (-z)) / (1 + Real.exp (-z))

/-- `sig_z` (/repo/models.py:1186-1188). -/
noncomputable def sigZ (z : ℝ) : ℝ := if z < 0 then Real.exp z / (1 + Real.exp z) else 1 / (1 + Real.exp (-z))

/-- `w` (/repo/models.py:1189). -/
noncomputable def sigW (z : ℝ) : ℝ := -sigZ z * sigMinusB z 1

/-- What is fixed for one model (/repo/models.py:985-1003): the number of features, whether there is an intercept, the inverse
strength `C` of an `l2` penalty if that is the penalty, the tolerance and the number of iterations. -/
structure LogitCfg where
  k : ℕ
  fit : Bool
  l2C : Option ℝ
  tol : ℝ
  maxIter : ℕ

/-- `len(xs)` (/repo/models.py:1070-1072). -/
def LogitCfg.n (m : LogitCfg) : ℕ := if m.fit then m.k + 1 else m.k

/-- The value of `xs[i]` on a row; the `1` of the intercept comes last (/repo/models.py:1070-1072). -/
def LogitCfg.xs (m : LogitCfg) (r : RegRow) (i : ℕ) : ℝ := if i < m.k then r.x i else 1

/-- `z` (/repo/models.py:1181). -/
noncomputable def LogitCfg.z (m : LogitCfg) (coef : ℕ → ℝ) (r : RegRow) : ℝ := ((List.range m.n).map fun i => coef i * m.xs r i).sum

/-- `np.arange(a, b, -1)` (a downward range that excludes its end). -/
def arangeDown (a b : ℕ) : List ℕ := (List.range (a - b)).map fun t => a - t

/-- `cumsum`. -/
def cumsumNat (acc : ℕ) : List ℕ → List ℕ
  | [] => []
  | a :: l => (acc + a) :: cumsumNat (acc + a) l

/-- `hess_diag_idx` (/repo/models.py:1207-1208). -/
def diagIdx (n k : ℕ) : List ℕ := 0 :: cumsumNat 0 (arangeDown n (n - k + 1))

/-- `hess[idx] += c`. -/
def addAt (l : List ℝ) (idx : List ℕ) (c : ℝ) : List ℝ := l.zipIdx.map fun p => if p.2 ∈ idx then p.1 + c else p.1

/-- The gradient columns of `get_grads_and_hess_query` over the rows that satisfy the condition (/repo/models.py:1182-1185,
1203-1205). -/
noncomputable def LogitCfg.gradCols (m : LogitCfg) (rows : List RegRow) (coef : ℕ → ℝ) : List ℝ :=
  (List.range m.n).map fun i =>
    avg rows (fun r => m.xs r i * sigMinusB (m.z coef r) r.y) +
      match m.l2C with
      | some C => if i < m.k then coef i / rows.length / C else 0
      | none => 0

/-- The Hessian columns of `get_grads_and_hess_query` (/repo/models.py:1190-1197, 1206-1209). -/
noncomputable def LogitCfg.hessCols (m : LogitCfg) (rows : List RegRow) (coef : ℕ → ℝ) : List ℝ :=
  let h := (triu m.n).map fun p => avg rows fun r => m.xs r p.1 * m.xs r p.2 * sigW (m.z coef r)
  match m.l2C with
  | some C => addAt h (diagIdx m.n m.k) (1 / (rows.length * C))
  | none => h

section
variable {κ : Type} [DecidableEq κ]

/-- The rows of `DataToFit` that satisfy a condition; without a split there is none (/repo/models.py:1118-1127). -/
def condRows (table : List (κ × RegRow)) : Option κ → List RegRow
  | none => table.map (·.2)
  | some c => (table.filter fun p => p.1 = c).map (·.2)

/-- The slices that get columns (/repo/models.py:1111-1128), with the coefficients: all that have not converged; without a
split the only one. -/
def pendingSlices (conds : List κ) (split : Bool) (coefs : List (ℕ → ℝ)) (conv : List Bool) : List (Option κ × (ℕ → ℝ)) :=
  if split then (((conds.zip coefs).zip conv).filter fun p => !p.2).map fun p => (some p.1.1, p.1.2)
  else match coefs with
    | [] => []
    | c :: _ => [(none, c)]

/-- The single row that the query of `compute_grads_and_hess` returns (/repo/models.py:1129-1135). -/
noncomputable def LogitCfg.queryRow (m : LogitCfg) (table : List (κ × RegRow)) (ignoreHess : Bool) (sl : List (Option κ × (ℕ → ℝ))) :
    List ℝ :=
  (sl.flatMap fun s => m.gradCols (condRows table s.1) s.2) ++
    if ignoreHess then [] else sl.flatMap fun s => m.hessCols (condRows table s.1) s.2

end

/-- The loop that hands out the gradients (/repo/models.py:1136-1142): the gradients and what is left. -/
def takeGrads (k : ℕ) : List Bool → List ℝ → List (List ℝ) × List ℝ
  | [], l => ([], l)
  | true :: conv, l => let r := takeGrads k conv l; (List.replicate k 0 :: r.1, r.2)
  | false :: conv, l => let r := takeGrads k conv (l.drop k); (l.take k :: r.1, r.2)

/-- `values.reshape(-1, m)`: rows of length `m`; numpy refuses if it does not come out even. The first argument bounds the
number of rows. -/
def reshape (m : ℕ) : ℕ → List ℝ → Option (List (List ℝ))
  | _, [] => some []
  | 0, _ :: _ => none
  | f + 1, a :: l => if (a :: l).length < m then none else (reshape m f ((a :: l).drop m)).map ((a :: l).take m :: ·)

/-- The loop that hands out the Hessians (/repo/models.py:1146-1152), of size `k`. `pop` from an empty list raises. -/
def takeHess (k : ℕ) : List Bool → List (List ℝ) → Option (List (ℕ × (ℕ → ℕ → ℝ)))
  | [], _ => some []
  | true :: conv, l => (takeHess k conv l).map ((k, fun _ _ => 0) :: ·)
  | false :: conv, e :: l => do
    let s ← symmetrize e
    let r ← takeHess k conv l
    return s :: r
  | false :: _, [] => none

section
variable {κ : Type} [DecidableEq κ]

/-- `compute_grads_and_hess` with `ignore_hess = True` (/repo/models.py:1088-1144): a list of gradients for every slice. -/
noncomputable def LogitCfg.grads (m : LogitCfg) (table : List (κ × RegRow)) (conds : List κ) (split : Bool) (coefs : List (ℕ → ℝ))
    (conv : List Bool) : List (List ℝ) :=
  (takeGrads m.n conv (m.queryRow table true (pendingSlices conds split coefs conv))).1

/-- `compute_grads_and_hess` with `ignore_hess = False` (/repo/models.py:1088-1154): also a Hessian for every slice. -/
noncomputable def LogitCfg.gradsHess (m : LogitCfg) (table : List (κ × RegRow)) (conds : List κ) (split : Bool) (coefs : List (ℕ → ℝ))
    (conv : List Bool) : Option (List (List ℝ) × List (ℕ × (ℕ → ℕ → ℝ))) := do
  let (g, rest) := takeGrads m.n conv (m.queryRow table false (pendingSlices conds split coefs conv))
  let elements ← reshape (m.n * (m.n + 1) / 2) rest.length rest
  let h ← takeHess m.n conv elements
  return (g, h)

/-- `abs(delta).max() < tol`. -/
noncomputable def smallStep (n : ℕ) (tol : ℝ) (delta : ℕ → ℝ) : Bool := open Classical in (List.range n).all fun i => decide (|delta i| < tol)

/-- The inner loop of `newtons_method` (/repo/models.py:1391-1396), slice after slice. -/
noncomputable def newtonInner (n : ℕ) (tol : ℝ) :
    List (ℕ → ℝ) → List Bool → List (List ℝ) → List (ℕ × (ℕ → ℕ → ℝ)) → Option (List ((ℕ → ℝ) × Bool))
  | c :: cs, d :: ds, j :: js, h :: hs => do
    let this ← if d then some (c, d) else
      (npSolve h.1 h.2 j).map fun delta => (fun i => c i - delta i, smallStep n tol delta)
    let rest ← newtonInner n tol cs ds js hs
    return this :: rest
  | _, _, _, _ => some []

/-- The outer loop of `newtons_method` (/repo/models.py:1386-1398); the result and which slices have converged, for the
warning. -/
noncomputable def LogitCfg.newtonLoop (m : LogitCfg) (table : List (κ × RegRow)) (conds : List κ) (split : Bool) :
    ℕ → List (ℕ → ℝ) → List Bool → Option (List ((ℕ → ℝ) × Bool))
  | 0, cs, ds => some (cs.zip ds)
  | fuel + 1, cs, ds => do
    let (j, h) ← m.gradsHess table conds split cs ds
    let new ← newtonInner m.n m.tol cs ds j h
    if new.all (·.2) then return new
    else m.newtonLoop table conds split fuel (new.map (·.1)) (new.map (·.2))

/-- `newtons_method` as `LogisticRegression` calls it (/repo/models.py:1212-1235, 1384-1407). -/
noncomputable def LogitCfg.newton (m : LogitCfg) (table : List (κ × RegRow)) (conds : List κ) (split : Bool) (init : List (ℕ → ℝ)) :
    Option (List ((ℕ → ℝ) × Bool)) :=
  m.newtonLoop table conds split m.maxIter init (init.map fun _ => false)

/-! ## The proximal method -/

/-- The arrays of `fista_for_logistic_regression` for one slice (/repo/models.py:1334-1339). -/
structure FistaSlice where
  coef : ℕ → ℝ
  v : ℕ → ℝ
  delta : ℕ → ℝ
  conv : Bool

/-- What is fixed for one slice: the step size, and the penalties divided by the number of rows (/repo/models.py:1313-1337). -/
structure FistaConst where
  step : ℝ
  l1 : ℝ
  l2 : ℝ

/-- `k = l2 * step_size + 1` (/repo/models.py:1336). -/
noncomputable def FistaConst.kk (a : FistaConst) : ℝ := a.l2 * a.step + 1

/-- `threshold = l1 * step_size / k` (/repo/models.py:1337). -/
noncomputable def FistaConst.threshold (a : FistaConst) : ℝ := a.l1 * a.step / a.kk

/-- `3.999999 / eigvals.max()` (/repo/models.py:1311). -/
noncomputable def logitStep (maxEig : ℝ) : ℝ := 3.999999 / maxEig

/-- The first line of the loop (/repo/models.py:1342-1343), for one slice. -/
noncomputable def FistaSlice.momentum (i : ℕ) (s : FistaSlice) : FistaSlice :=
  if s.conv then s else { s with v := fun j => s.coef j + ((i : ℝ) - 1) / ((i : ℝ) + 2) * s.delta j }

/-- The rest of the loop (/repo/models.py:1344-1356), for one slice; with an intercept the last entry is not penalised. -/
noncomputable def LogitCfg.fistaUpdate (m : LogitCfg) (a : FistaConst) (g : List ℝ) (s : FistaSlice) : FistaSlice :=
  if s.conv then s
  else
    let c0 := fun j => s.v j - a.step * g.getD j 0
    let c1 := fun j => if m.fit ∧ j = m.n - 1 then c0 j else softT (c0 j / a.kk) a.threshold
    let d := fun j => c1 j - s.coef j
    { s with coef := c1, delta := d, conv := smallStep m.n m.tol d }

/-- The loop of `fista_for_logistic_regression` (/repo/models.py:1341-1358). -/
noncomputable def LogitCfg.fistaLoop (m : LogitCfg) (table : List (κ × RegRow)) (conds : List κ) (split : Bool) (consts : List FistaConst) :
    ℕ → ℕ → List FistaSlice → List FistaSlice
  | 0, _, st => st
  | fuel + 1, i, st =>
    let st1 := st.map (FistaSlice.momentum i)
    let g := m.grads table conds split (st1.map (·.v)) (st1.map (·.conv))
    let st2 := ((consts.zip g).zip st1).map fun p => m.fistaUpdate p.1.1 p.1.2 p.2
    if st2.all (·.conv) then st2 else m.fistaLoop table conds split consts fuel (i + 1) st2

/-- The constants of one slice from its row of statistics (/repo/models.py:1304-1337). -/
noncomputable def fistaConst (maxEig : ℕ → (ℕ → ℕ → ℝ) → ℝ) (fit : Bool) (l1 l2 : ℝ) (stats : Series ℝ) : Option FistaConst := do
  let ((n, xtx), _) ← constructMatrix stats fit
  let nObs ← stats.at1 nmN
  return ⟨logitStep (maxEig n xtx), l1 / nObs, l2 / nObs⟩

/-- `fista_for_logistic_regression` (/repo/models.py:1260-1370) as `LogisticRegression` calls it (/repo/models.py:1062-1065,
1216-1231): `stats` is the table of statistics in the order of the engine. -/
noncomputable def LogitCfg.fista [LinearOrder κ] (m : LogitCfg) (maxEig : ℕ → (ℕ → ℕ → ℝ) → ℝ) (l1 l2 : ℝ) (table : List (κ × RegRow))
    (conds : List κ) (split : Bool) (stats : List (κ × Series ℝ)) (init : List (ℕ → ℝ)) : Option (List ((ℕ → ℝ) × Bool)) := do
  let sorted := if split then stats.mergeSort fun a b => decide (a.1 ≤ b.1) else stats
  if split ∧ stats.length ≠ conds.length then none
  else
    let consts ← sorted.mapM fun s => fistaConst maxEig m.fit l1 l2 s.2
    let st := m.fistaLoop table conds split consts m.maxIter 0 (init.map fun c => ⟨c, c, fun _ => 0, false⟩)
    return st.map fun s => (s.coef, s.conv)

/-- `conds`: the distinct keys, in any order, sorted (/repo/models.py:1073-1079). -/
def sortKeys [LinearOrder κ] (distinct : List κ) : List κ := distinct.mergeSort fun a b => decide (a ≤ b)

/-- The table of statistics by key in the order of the engine, with the split columns `pre` before the statistics
(/repo/models.py:1062-1065, 316-334). -/
noncomputable def logitStats (k : ℕ) (fit : Bool) (pre : κ → Series ℝ) (table : List (κ × RegRow)) (order : List κ) : List (κ × Series ℝ) :=
  order.map fun c => (c, pre c ++ suffStats k fit true (condRows table (some c)))

/-- The final row of a slice (/repo/models.py:1237-1257): the intercept comes first. -/
def LogitCfg.output (m : LogitCfg) (c : ℕ → ℝ) (j : ℕ) : ℝ := if m.fit then (if j = 0 then c m.k else c (j - 1)) else c j

/-- `penalty`, with `l1_ratio` where it is used (/repo/models.py:946-962). -/
inductive LogitPenalty
  | none
  | l1
  | l2
  | elasticnet (ratio : ℝ)

/-- `LogisticRegression(y, x, penalty=..., C=..., fit_intercept=..., tol=..., max_iter=...)` with `k` features
(/repo/models.py:919-1003). -/
structure LogitUser where
  k : ℕ
  fit : Bool
  penalty : LogitPenalty
  c : ℝ
  tol : ℝ
  maxIter : ℕ

/-- What the queries depend on (/repo/models.py:1070-1072, 1199-1209). -/
def LogitUser.cfg (u : LogitUser) : LogitCfg :=
  ⟨u.k, u.fit, match u.penalty with | .l2 => some u.c | _ => .none, u.tol, u.maxIter⟩

/-- `compute_on_sql_magic_mode` without a split, from the initial guess `init` (/repo/models.py:1062-1065, 1211-1235,
1254-1257). The checks on `class_weight`, `intercept_scaling` and the number of classes are not modelled. -/
noncomputable def LogitUser.sql (u : LogitUser) (maxEig : ℕ → (ℕ → ℕ → ℝ) → ℝ) (rows : List RegRow) (init : ℕ → ℝ) :
    Option (ℕ → ℝ) := do
  let table := rows.map fun r => ((), r)
  let stats := [((), suffStats u.k u.fit true rows)]
  let res ← match u.penalty with
    | .elasticnet ratio => u.cfg.fista maxEig (ratio / u.c) ((1 - ratio) / u.c) table [] false stats [init]
    | .l1 => u.cfg.fista maxEig (1 / u.c) ((1 - 1) / u.c) table [] false stats [init]
    | _ => u.cfg.newton table [] false [init]
  match res with
  | r :: _ => some (u.cfg.output r.1)
  | [] => .none

end

end Verif
