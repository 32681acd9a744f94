import Mathlib.Data.List.Basic

/-!
# The queries that `compute_on_sql` runs, and its errors

/repo/metrics.py:278-348, 589-660, 748-834, /repo/operations.py:1957-1973, 2029-2060, 2456-2520, 2693-2734, /repo/models.py:132-155. A
model of which queries are given to `execute`, in which order, and of the exception the user sees when one of them, or the Python
code around them, raises. `execute` is any function of the queries run before and of the query, so also one whose behaviour changes over
time. What the queries return is not in this model (C12, C76, C77), nor the text of the queries (C83), the mark of
`_is_root_node` left by earlier calls (C87) and the query for the base values of a change (C81).
-/

namespace Verif

/-- The argument `mode`: None, 'mixed', 'magic' or anything else. -/
inductive SqlModeArg where
  | none
  | mixed
  | magic
  | other
deriving DecidableEq

/-- A metric. `own` says whether the class can generate SQL (`get_sql_and_with_clause` is implemented). A leaf stands for a metric with
no children, its filter included. A node is a MetricList, a CompositeMetric or an Operation with its `where`, its `extra_split_by` and
its children. A model has its `where`, its `group_by`, the number of queries of its magic mode (`none` when the class has no magic mode)
and its child. `ci` is a Jackknife (`boot = false`) or a Bootstrap; `conf` says whether there is a confidence level, `batch` is the size in
force (`_runtime_batch_size or sql_batch_size`). -/
inductive QTree where
  | leaf (n : ℕ) (own : Bool)
  | node (own : Bool) (wh extra : List String) (children : List QTree)
  | model (wh group : List String) (magic : Option ℕ) (child : QTree)
  | ci (own boot conf : Bool) (wh : List String) (batch : Option ℕ) (child : QTree)

mutual

/-- Equality of metrics can be decided. The program compares fingerprints (C02, C06). -/
def QTree.decEq : (a b : QTree) → Decidable (a = b)
  | .leaf n o, .leaf n' o' => if h : n = n' ∧ o = o' then isTrue (by rw [h.1, h.2]) else isFalse (by simpa using h)
  | .node o w e cs, .node o' w' e' cs' =>
    match QTree.decEqs cs cs' with
    | isTrue hc => if h : o = o' ∧ w = w' ∧ e = e' then isTrue (by rw [h.1, h.2.1, h.2.2, hc])
        else isFalse (by simp only [QTree.node.injEq]; exact fun x => h ⟨x.1, x.2.1, x.2.2.1⟩)
    | isFalse hc => isFalse (by simp only [QTree.node.injEq]; exact fun x => hc x.2.2.2)
  | .model w g m c, .model w' g' m' c' =>
    match QTree.decEq c c' with
    | isTrue hc => if h : w = w' ∧ g = g' ∧ m = m' then isTrue (by rw [h.1, h.2.1, h.2.2, hc])
        else isFalse (by simp only [QTree.model.injEq]; exact fun x => h ⟨x.1, x.2.1, x.2.2.1⟩)
    | isFalse hc => isFalse (by simp only [QTree.model.injEq]; exact fun x => hc x.2.2.2)
  | .ci o b f w n c, .ci o' b' f' w' n' c' =>
    match QTree.decEq c c' with
    | isTrue hc => if h : o = o' ∧ b = b' ∧ f = f' ∧ w = w' ∧ n = n' then isTrue (by rw [h.1, h.2.1, h.2.2.1, h.2.2.2.1, h.2.2.2.2, hc])
        else isFalse (by simp only [QTree.ci.injEq]; exact fun x => h ⟨x.1, x.2.1, x.2.2.1, x.2.2.2.1, x.2.2.2.2.1⟩)
    | isFalse hc => isFalse (by simp only [QTree.ci.injEq]; exact fun x => hc x.2.2.2.2.2)
  | .leaf _ _, .node _ _ _ _ => isFalse (fun h => nomatch h)
  | .leaf _ _, .model _ _ _ _ => isFalse (fun h => nomatch h)
  | .leaf _ _, .ci _ _ _ _ _ _ => isFalse (fun h => nomatch h)
  | .node _ _ _ _, .leaf _ _ => isFalse (fun h => nomatch h)
  | .node _ _ _ _, .model _ _ _ _ => isFalse (fun h => nomatch h)
  | .node _ _ _ _, .ci _ _ _ _ _ _ => isFalse (fun h => nomatch h)
  | .model _ _ _ _, .leaf _ _ => isFalse (fun h => nomatch h)
  | .model _ _ _ _, .node _ _ _ _ => isFalse (fun h => nomatch h)
  | .model _ _ _ _, .ci _ _ _ _ _ _ => isFalse (fun h => nomatch h)
  | .ci _ _ _ _ _ _, .leaf _ _ => isFalse (fun h => nomatch h)
  | .ci _ _ _ _ _ _, .node _ _ _ _ => isFalse (fun h => nomatch h)
  | .ci _ _ _ _ _ _, .model _ _ _ _ => isFalse (fun h => nomatch h)

/-- The same for lists. -/
def QTree.decEqs : (a b : List QTree) → Decidable (a = b)
  | [], [] => isTrue rfl
  | [], _ :: _ => isFalse (fun h => nomatch h)
  | _ :: _, [] => isFalse (fun h => nomatch h)
  | a :: as, b :: bs =>
    match QTree.decEq a b, QTree.decEqs as bs with
    | isTrue h, isTrue h' => isTrue (by rw [h, h'])
    | isFalse h, _ => isFalse (fun x => h (List.cons.inj x).1)
    | _, isFalse h => isFalse (fun x => h (List.cons.inj x).2)

end

instance : DecidableEq QTree := QTree.decEq

/-- Where a metric is computed: the filters put around the table by the metrics above (`sql.Sql(None, table, self.where)`), the columns
to split by, and the resamples it is in, outermost first (`true` marks those of a Bootstrap). -/
structure RunCtx where
  /-- The filters. -/
  filters : List (List String)
  /-- `split_by`. -/
  split : List String
  /-- The resamples. -/
  samples : List (Bool × ℕ)
deriving DecidableEq

/-- The context for the children: `if self.where: table = sql.Sql(None, table, self.where)` (/repo/metrics.py:656-657) and
`split_by + self.extra_split_by` (/repo/metrics.py:761). -/
def RunCtx.enter (c : RunCtx) (wh extra : List String) : RunCtx :=
  ⟨if wh = [] then c.filters else c.filters ++ [wh], c.split ++ extra, c.samples⟩

/-- The context of the resample `i`. -/
def RunCtx.sample (c : RunCtx) (boot : Bool) (i : ℕ) : RunCtx := ⟨c.filters, c.split, c.samples ++ [(boot, i)]⟩

/-- What a query computes: the metric itself, the units of a Jackknife, or the `i`-th query of the magic mode of a model. -/
inductive QWhat where
  | metric
  | units
  | stats (i : ℕ)
deriving DecidableEq

/-- A query given to `execute`. -/
structure QQuery where
  /-- The metric it is for. -/
  tree : QTree
  /-- Where it is computed. -/
  ctx : RunCtx
  /-- What of it. -/
  what : QWhat
deriving DecidableEq

/-- An exception raised by `execute` or by code around it: NotImplementedError or another one. -/
inductive QRaw where
  | notImpl
  | other (n : ℕ)
deriving DecidableEq

/-- What the message of a wrapped exception advises. -/
inductive QAdvice where
  | tryMixed
  | tryMagic
  | tryBatch
  | reduceBatch (b : ℕ)
  | beamMixed
deriving DecidableEq

/-- An exception: raised by somebody else, 'Mode ... is not supported!', or a ValueError raised `from` another exception. -/
inductive QErr where
  | raw (r : QRaw)
  | badMode
  | wrapped (a : QAdvice) (cause : QErr)
deriving DecidableEq

/-- The world: what `execute` does with a query after others, what the Python code of a metric does after the queries so far (`none`
is success), and the number of resamples of a Jackknife or Bootstrap (batches, if there is a batch size). -/
structure QEnv where
  /-- `execute`. -/
  exec : List QQuery → QQuery → Option QRaw
  /-- `compute_on_children`, `manipulate`, ... -/
  py : QTree → List QQuery → Option QRaw
  /-- How many resamples are queried. -/
  resamples : QTree → RunCtx → ℕ

/-- The queries that have been run, in order, and the keys in the cache of the tree. -/
structure QSt where
  /-- The queries. -/
  trace : List QQuery
  /-- The cache. -/
  cache : List (QTree × RunCtx)

/-- An exception or none, and the state. -/
abbrev QRes := Option QErr × QSt

/-- Go on if there was no exception. -/
def QRes.next (r : QRes) (k : QSt → QRes) : QRes :=
  match r with
  | (none, s) => k s
  | (some e, s) => (some e, s)

/-- `execute(str(query))`. -/
def runQuery (env : QEnv) (q : QQuery) (s : QSt) : QRes :=
  ((env.exec s.trace q).map .raw, ⟨s.trace ++ [q], s.cache⟩)

/-- The Python code of the metric. -/
def runPy (env : QEnv) (t : QTree) (s : QSt) : QRes := ((env.py t s.trace).map .raw, s)

/-- `for i in range(k)`, from `i`. -/
def runLoop (f : ℕ → QSt → QRes) : ℕ → ℕ → QSt → QRes
  | _, 0, s => (none, s)
  | i, k + 1, s => (f i s).next (runLoop f (i + 1) k)

/-- `_compute_with_caching_and_postprocessing` (/repo/metrics.py:325-348): what is in the cache is not computed again; what was computed
without exception is stored. -/
def withCache (t : QTree) (c : RunCtx) (body : QSt → QRes) (s : QSt) : QRes :=
  if (t, c) ∈ s.cache then (none, s)
  else (body s).next fun s' => (none, ⟨s'.trace, s'.cache ++ [(t, c)]⟩)

mutual

/-- Can the metric be computed in SQL below another one: `get_sql_and_with_clause` raises no NotImplementedError. Models have no SQL
(/repo/metrics.py:710-746); a Jackknife or Bootstrap with a confidence level must be the root (/repo/operations.py:2136-2139). -/
def QTree.sqlBelow : QTree → Bool
  | .leaf _ own => own
  | .node own _ _ cs => own && sqlBelowAll cs
  | .model _ _ _ _ => false
  | .ci own _ conf _ _ c => own && !conf && c.sqlBelow

/-- The same for all. -/
def sqlBelowAll : List QTree → Bool
  | [] => true
  | t :: ts => t.sqlBelow && sqlBelowAll ts

end

/-- Does `to_sql` give a query (/repo/metrics.py:691-708, /repo/operations.py:2055-2063). -/
def QTree.hasSql : QTree → Bool
  | .ci own _ _ _ _ c => own && c.sqlBelow
  | t => t.sqlBelow

/-- `compute_through_sql` after the check of `mode`, for a metric with children (/repo/metrics.py:650-660): in the default mode
the query of the metric, if there is one; NotImplementedError, also by `execute`, leads to the mixed mode. -/
def sqlOrMixed (env : QEnv) (mode : SqlModeArg) (t : QTree) (c : RunCtx) (mixed : QSt → QRes) (s : QSt) : QRes :=
  if mode = .none ∧ t.hasSql = true then
    match (runQuery env ⟨t, c, .metric⟩ s).next (runPy env t) with
    | (some (.raw .notImpl), s') => mixed s'
    | r => r
  else mixed s

/-- The `except` clauses of `Model.compute_through_sql` and `MetricWithCI.compute_through_sql` (/repo/models.py:141-152,
/repo/operations.py:1962-1973): NotImplementedError passes, anything else is wrapped. -/
def rewrap (a : QAdvice) (r : QRes) : QRes :=
  match r with
  | (none, s) => (none, s)
  | (some (.raw .notImpl), s) => (some (.raw .notImpl), s)
  | (some e, s) => (some (.wrapped a e), s)

/-- The advice of a model (/repo/models.py:150-152). -/
def modelAdvice (mode : SqlModeArg) : QAdvice := if mode = .magic then .tryMixed else .tryMagic

/-- The advice of a Jackknife or Bootstrap (/repo/operations.py:1965-1969). -/
def ciAdvice (batch : Option ℕ) : QAdvice :=
  match batch with
  | some b => .reduceBatch b
  | none => .tryBatch

/-- `compute_through_sql` for an unknown mode (/repo/metrics.py:645-646, through /repo/models.py:138-152 and /repo/operations.py:1957-1973). -/
def badModeErr (mode : SqlModeArg) : QTree → QErr
  | .leaf _ _ => .badMode
  | .node _ _ _ _ => .badMode
  | .model _ _ _ _ => .wrapped (modelAdvice mode) .badMode
  | .ci _ _ _ _ batch _ => .wrapped (ciAdvice batch) .badMode

mutual

/-- `compute_on_sql` with a mode that is supported (/repo/metrics.py:643-660, 748-765, /repo/models.py:132-152, /repo/operations.py:1957-1973,
2029-2044, 2456-2520, 2693-2734). A Jackknife first asks for the units. A Bootstrap starts a new cache for every resample; as its
resamples have contexts of their own, that is the same here. -/
def QTree.run (env : QEnv) (mode : SqlModeArg) : QTree → RunCtx → QSt → QRes
  | .leaf n own, c, s =>
    withCache (.leaf n own) c (fun s =>
      if own then (runQuery env ⟨.leaf n own, c, .metric⟩ s).next (runPy env (.leaf n own)) else (some (.raw .notImpl), s)) s
  | .node own wh extra cs, c, s =>
    withCache (.node own wh extra cs) c (fun s =>
      sqlOrMixed env mode (.node own wh extra cs) c (fun s =>
        (runEach env mode cs (c.enter wh extra) s).next (runPy env (.node own wh extra cs))) s) s
  | .model wh group magic t, c, s =>
    withCache (.model wh group magic t) c (fun s =>
      rewrap (modelAdvice mode)
        (if mode = .magic then
          match magic with
          | none => (some (.raw .notImpl), s)
          | some k => (runLoop (fun i => runQuery env ⟨.model wh group (some k) t, c, .stats i⟩) 0 k s).next
              (runPy env (.model wh group (some k) t))
        else (t.run env mode (c.enter wh group) s).next (runPy env (.model wh group magic t)))) s
  | .ci own boot conf wh batch t, c, s =>
    withCache (.ci own boot conf wh batch t) c (fun s =>
      rewrap (ciAdvice batch)
        (sqlOrMixed env mode (.ci own boot conf wh batch t) c (fun s =>
          ((if boot then (none, s) else runQuery env ⟨.ci own boot conf wh batch t, c, .units⟩ s : QRes).next fun s =>
            (runLoop (fun i => t.run env mode ((c.enter wh []).sample boot i)) 0
              (env.resamples (.ci own boot conf wh batch t) c) s).next fun s =>
            (t.run env mode (c.enter wh []) s).next (runPy env (.ci own boot conf wh batch t)))) s)) s

/-- `compute_children_sql` (/repo/metrics.py:753-765): one child after the other; an exception ends it. -/
def runEach (env : QEnv) (mode : SqlModeArg) : List QTree → RunCtx → QSt → QRes
  | [], _, s => (none, s)
  | t :: ts, c, s => (t.run env mode c s).next (runEach env mode ts c)

end

/-- `compute_on_sql(table, split_by, execute, mode=mode)` by the user, without `cache_key` (/repo/metrics.py:589-641). -/
def computeOnSql (env : QEnv) (mode : SqlModeArg) (t : QTree) (split : List String) : Option QErr × List QQuery :=
  if mode = .other then (some (badModeErr mode t), [])
  else ((t.run env mode ⟨[], split, []⟩ ⟨[], []⟩).1, (t.run env mode ⟨[], split, []⟩ ⟨[], []⟩).2.trace)

/-- `compute_on_beam(pcol, split_by, execute, mode=mode)` (/repo/metrics.py:767-834): `compute_on_sql` on the table PCOLLECTION, every
query run by a SqlTransform; in the default mode any exception is wrapped. Not modelled: the empty text as mode. -/
def computeOnBeam (env : QEnv) (mode : SqlModeArg) (t : QTree) (split : List String) : Option QErr × List QQuery :=
  match computeOnSql env mode t split with
  | (some e, tr) => (some (if mode = .none then .wrapped .beamMixed e else e), tr)
  | r => r

/-- The text of a query, as far as queries differ: the resamples of a Bootstrap all have the same (/repo/operations.py:2714-2719; all
but the last batch). -/
def QQuery.text (q : QQuery) : QQuery :=
  ⟨q.tree, ⟨q.ctx.filters, q.ctx.split, q.ctx.samples.map fun p => if p.1 then (true, 0) else p⟩, q.what⟩

/-- The label given to the step of the Beam pipeline that runs the `i`-th query (/repo/metrics.py:812): the time and the text. -/
def beamLabels (clock : ℕ → ℕ) (tr : List QQuery) : List (ℕ × QQuery) := tr.zipIdx.map fun p => (clock p.2, p.1.text)

end Verif
