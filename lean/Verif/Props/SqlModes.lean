import Mathlib.Data.List.Nodup
import Verif.Model.SqlModes

/-!
# C89: Every mode runs the queries it promises and errors keep their cause
-/

namespace Verif

/-! ## Specification -/

/-- `execute` and the Python code raise no NotImplementedError. -/
def Polite (env : QEnv) : Prop :=
  (∀ tr q, env.exec tr q ≠ some .notImpl) ∧ ∀ t tr, env.py t tr ≠ some .notImpl

/-- The context of the children of a metric with the filter `wh` and the additional columns `extra`. -/
def RunCtx.below (c : RunCtx) (wh extra : List String) : RunCtx where
  filters := c.filters ++ [wh].filter (fun w => w ≠ [])
  split := c.split ++ extra
  samples := c.samples

/-- `u` in context `d` is a child of `t` in context `c`: children are computed on the table filtered by the metric, split by the
additional columns, and by a Jackknife or Bootstrap also on every resample. -/
inductive QStep (env : QEnv) : QTree → RunCtx → QTree → RunCtx → Prop
  | node (own : Bool) (wh extra : List String) (cs : List QTree) (u : QTree) (c : RunCtx) (h : u ∈ cs) :
      QStep env (.node own wh extra cs) c u (c.below wh extra)
  | model (wh group : List String) (magic : Option ℕ) (u : QTree) (c : RunCtx) :
      QStep env (.model wh group magic u) c u (c.below wh group)
  | point (own boot conf : Bool) (wh : List String) (batch : Option ℕ) (u : QTree) (c : RunCtx) :
      QStep env (.ci own boot conf wh batch u) c u (c.below wh [])
  | sample (own boot conf : Bool) (wh : List String) (batch : Option ℕ) (u : QTree) (c : RunCtx) (i : ℕ)
      (h : i < env.resamples (.ci own boot conf wh batch u) c) :
      QStep env (.ci own boot conf wh batch u) c u ((c.below wh []).sample boot i)

/-- `u` in `d` is below `t` in `c` (or is it), and no metric above it stops. -/
inductive QBelow (env : QEnv) (stop : QTree → Prop) : QTree → RunCtx → QTree → RunCtx → Prop
  | refl (t : QTree) (c : RunCtx) : QBelow env stop t c t c
  | step {t u v : QTree} {c d e : RunCtx} (hs : ¬stop t) (h : QStep env t c u d) (hr : QBelow env stop u d v e) : QBelow env stop t c v e

/-- A metric without children. -/
def QTree.isLeaf : QTree → Prop
  | .leaf _ _ => True
  | _ => False

/-- A model. -/
def QTree.isModel : QTree → Prop
  | .model _ _ _ _ => True
  | _ => False

/-- A Jackknife. -/
def QTree.isJackknife : QTree → Prop
  | .ci _ false _ _ _ _ => True
  | _ => False

/-- `u` is a part of `t`. -/
inductive QPart : QTree → QTree → Prop
  | node (own : Bool) (wh extra : List String) (cs : List QTree) (u : QTree) (h : u ∈ cs) : QPart (.node own wh extra cs) u
  | model (wh group : List String) (magic : Option ℕ) (u : QTree) : QPart (.model wh group magic u) u
  | ci (own boot conf : Bool) (wh : List String) (batch : Option ℕ) (u : QTree) : QPart (.ci own boot conf wh batch u) u
  | trans {t u v : QTree} (h : QPart t u) (h' : QPart u v) : QPart t v

/-- The class of the metric can generate SQL. -/
def QTree.sqlClass : QTree → Prop
  | .leaf _ own => own = true
  | .node own _ _ _ => own = true
  | .model _ _ _ _ => False
  | .ci own _ _ _ _ _ => own = true

/-- A Jackknife or Bootstrap with a confidence level. -/
def QTree.withConf : QTree → Prop
  | .ci _ _ conf _ _ _ => conf = true
  | _ => False

/-- One query computes the metric: it and all its parts can generate SQL, and no part has a confidence level. -/
def QTree.oneQuery (t : QTree) : Prop := t.sqlClass ∧ ∀ u, QPart t u → u.sqlClass ∧ ¬u.withConf

/-- The number of queries of the magic mode. -/
def QTree.magicQueries : QTree → ℕ
  | .model _ _ (some k) _ => k
  | _ => 0

/-- What the documentation promises (/repo/metrics.py:607-619): which queries are run in which mode. In the default mode everything
that can be computed in SQL is: the metrics that have a query and are not below one that has. In the mixed mode only the leaves (a
leaf without SQL cannot be computed at all). In the magic mode the statistics of models and, outside of models, the leaves. Beside
these the units of a Jackknife that is not computed in SQL. -/
def promised (env : QEnv) (mode : SqlModeArg) (t : QTree) (c : RunCtx) (q : QQuery) : Prop :=
  match mode with
  | .none => QBelow env (fun u => u.oneQuery) t c q.tree q.ctx ∧
      ((q.what = .metric ∧ q.tree.oneQuery) ∨ (q.what = .units ∧ q.tree.isJackknife ∧ ¬q.tree.oneQuery))
  | .mixed => QBelow env (fun _ => False) t c q.tree q.ctx ∧
      ((q.what = .metric ∧ q.tree.isLeaf ∧ q.tree.oneQuery) ∨ (q.what = .units ∧ q.tree.isJackknife))
  | .magic => QBelow env QTree.isModel t c q.tree q.ctx ∧
      ((q.what = .metric ∧ q.tree.isLeaf ∧ q.tree.oneQuery) ∨ (q.what = .units ∧ q.tree.isJackknife) ∨
        ∃ i, i < q.tree.magicQueries ∧ q.what = .stats i)
  | .other => False

/-- The exception at the end of the chain of causes. -/
def QErr.cause : QErr → QErr
  | .wrapped _ e => e.cause
  | e => e

mutual

/-- All leaves can be computed in SQL; in the magic mode all models have it. -/
def QTree.complete (magicMode : Bool) : QTree → Prop
  | .leaf _ own => own = true
  | .node _ _ _ cs => completeAll magicMode cs
  | .model _ _ m t => if magicMode then m ≠ none else t.complete magicMode
  | .ci _ _ _ _ _ t => t.complete magicMode

/-- The same for all. -/
def completeAll (magicMode : Bool) : List QTree → Prop
  | [] => True
  | t :: ts => t.complete magicMode ∧ completeAll magicMode ts

end

mutual

/-- There is no model, no Jackknife and no Bootstrap in it. -/
def QTree.plain : QTree → Prop
  | .leaf _ _ => True
  | .node _ _ _ cs => plainAll cs
  | .model _ _ _ _ => False
  | .ci _ _ _ _ _ _ => False

/-- The same for all. -/
def plainAll : List QTree → Prop
  | [] => True
  | t :: ts => t.plain ∧ plainAll ts

end

mutual

/-- There is no Bootstrap in it. -/
def QTree.noBoot : QTree → Prop
  | .leaf _ _ => True
  | .node _ _ _ cs => noBootAll cs
  | .model _ _ _ t => t.noBoot
  | .ci _ boot _ _ _ t => boot = false ∧ t.noBoot

/-- The same for all. -/
def noBootAll : List QTree → Prop
  | [] => True
  | t :: ts => t.noBoot ∧ noBootAll ts

end

/-! ## The queries, as a list -/

mutual

/-- The queries in the order in which they are needed. -/
def QTree.asked (env : QEnv) (mode : SqlModeArg) : QTree → RunCtx → List QQuery
  | .leaf n own, c => if own then [⟨.leaf n own, c, .metric⟩] else []
  | .node own wh extra cs, c =>
    if mode = .none ∧ (QTree.node own wh extra cs).hasSql = true then [⟨.node own wh extra cs, c, .metric⟩]
    else askedAll env mode cs (c.enter wh extra)
  | .model wh group magic t, c =>
    if mode = .magic then (List.range (magic.getD 0)).map fun i => ⟨.model wh group magic t, c, .stats i⟩
    else t.asked env mode (c.enter wh group)
  | .ci own boot conf wh batch t, c =>
    if mode = .none ∧ (QTree.ci own boot conf wh batch t).hasSql = true then [⟨.ci own boot conf wh batch t, c, .metric⟩]
    else (if boot then [] else [⟨.ci own boot conf wh batch t, c, .units⟩]) ++
      ((List.range (env.resamples (.ci own boot conf wh batch t) c)).flatMap fun i => t.asked env mode ((c.enter wh []).sample boot i)) ++
      t.asked env mode (c.enter wh [])

/-- The same for all. -/
def askedAll (env : QEnv) (mode : SqlModeArg) : List QTree → RunCtx → List QQuery
  | [], _ => []
  | t :: ts, c => t.asked env mode c ++ askedAll env mode ts c

end

mutual

/-- The number of metrics. -/
def QTree.size : QTree → ℕ
  | .leaf _ _ => 1
  | .node _ _ _ cs => sizeAll cs + 1
  | .model _ _ _ t => t.size + 1
  | .ci _ _ _ _ _ t => t.size + 1

/-- The same for all. -/
def sizeAll : List QTree → ℕ
  | [] => 0
  | t :: ts => t.size + sizeAll ts

end

/-- Whose result the query is part of. -/
def QQuery.owner (q : QQuery) : QTree × RunCtx := (q.tree, q.ctx)

/-- The queries of everything in the cache have been run. -/
def CacheRun (env : QEnv) (mode : SqlModeArg) (s : QSt) : Prop :=
  ∀ k ∈ s.cache, ∀ q ∈ QTree.asked env mode k.1 k.2, q ∈ s.trace

/-- Before something of size `n`. -/
structure QPre (env : QEnv) (mode : SqlModeArg) (n : ℕ) (s : QSt) : Prop where
  nodup : s.trace.Nodup
  cached : CacheRun env mode s
  owner : ∀ q ∈ s.trace, q.owner ∈ s.cache ∨ n < q.tree.size

/-- After the queries `A` have been run or found; the owners of the new ones are in the cache or `H`. -/
structure QPost (env : QEnv) (mode : SqlModeArg) (H : QTree × RunCtx → Prop) (A : List QQuery) (s s' : QSt) : Prop where
  nodup : s'.trace.Nodup
  cached : CacheRun env mode s'
  mem : ∀ q, q ∈ s'.trace ↔ q ∈ s.trace ∨ q ∈ A
  owner : ∀ q ∈ s'.trace, q ∈ s.trace ∨ q.owner ∈ s'.cache ∨ H q.owner
  mono : ∀ k ∈ s.cache, k ∈ s'.cache

theorem QPre.post {env : QEnv} {mode : SqlModeArg} {n : ℕ} {s : QSt} (h : QPre env mode n s) (H : QTree × RunCtx → Prop) :
    QPost env mode H [] s s :=
  ⟨h.nodup, h.cached, fun q => by simp, fun q hq => Or.inl hq, fun _ hk => hk⟩

theorem QPost.trans {env : QEnv} {mode : SqlModeArg} {H : QTree × RunCtx → Prop} {A B : List QQuery} {s₁ s₂ s₃ : QSt}
    (h : QPost env mode H A s₁ s₂) (h' : QPost env mode H B s₂ s₃) : QPost env mode H (A ++ B) s₁ s₃ := by
  refine ⟨h'.nodup, h'.cached, fun q => ?_, fun q hq => ?_, fun k hk => h'.mono k (h.mono k hk)⟩
  · rw [h'.mem, h.mem, List.mem_append, or_assoc]
  · rcases h'.owner q hq with h2 | h2
    · rcases h.owner q h2 with h1 | h1 | h1
      · exact Or.inl h1
      · exact Or.inr (Or.inl (h'.mono _ h1))
      · exact Or.inr (Or.inr h1)
    · exact Or.inr h2

theorem QPost.weaken {env : QEnv} {mode : SqlModeArg} {H H' : QTree × RunCtx → Prop} {A : List QQuery} {s s' : QSt}
    (h : QPost env mode H A s s') (hh : ∀ k, H k → H' k) : QPost env mode H' A s s' :=
  ⟨h.nodup, h.cached, h.mem, fun q hq => (h.owner q hq).imp id (Or.imp id (hh _)), h.mono⟩

theorem QPost.pre {env : QEnv} {mode : SqlModeArg} {H : QTree × RunCtx → Prop} {A : List QQuery} {s s' : QSt} {n m : ℕ}
    (h : QPost env mode H A s s') (hp : QPre env mode n s) (hm : m ≤ n) (hh : ∀ k, H k → m < k.1.size) : QPre env mode m s' := by
  refine ⟨h.nodup, h.cached, fun q hq => ?_⟩
  rcases h.owner q hq with h1 | h1 | h1
  · rcases hp.owner q h1 with h2 | h2
    · exact Or.inl (h.mono _ h2)
    · exact Or.inr (by omega)
  · exact Or.inl h1
  · exact Or.inr (hh _ h1)

theorem QPre.le {env : QEnv} {mode : SqlModeArg} {n m : ℕ} {s : QSt} (h : QPre env mode n s) (hm : m ≤ n) : QPre env mode m s :=
  ⟨h.nodup, h.cached, fun q hq => (h.owner q hq).imp id fun x => by omega⟩

theorem QRes.next_none {r : QRes} {k : QSt → QRes} {s' : QSt} (h : r.next k = (none, s')) :
    ∃ s, r = (none, s) ∧ k s = (none, s') := by
  rcases r with ⟨_ | e, s⟩
  · exact ⟨s, rfl, h⟩
  · simp [QRes.next] at h

theorem withCache_none {env : QEnv} {mode : SqlModeArg} {t : QTree} {c : RunCtx} {body : QSt → QRes} {s s' : QSt}
    (hp : QPre env mode t.size s) (h : withCache t c body s = (none, s'))
    (hb : (t, c) ∉ s.cache → ∀ s₁, body s = (none, s₁) → QPost env mode (fun k => k = (t, c)) (t.asked env mode c) s s₁) :
    QPost env mode (fun _ => False) (t.asked env mode c) s s' := by
  unfold withCache at h
  split at h
  · rename_i hc
    obtain rfl : s = s' := by simpa using h
    refine ⟨hp.nodup, hp.cached, fun q => ⟨Or.inl, ?_⟩, fun q hq => Or.inl hq, fun _ hk => hk⟩
    rintro (hq | hq)
    · exact hq
    · exact hp.cached _ hc q hq
  · rename_i hc
    obtain ⟨s₁, h1, h2⟩ := QRes.next_none h
    obtain rfl : (⟨s₁.trace, s₁.cache ++ [(t, c)]⟩ : QSt) = s' := by simpa using h2
    have hb' := hb hc s₁ h1
    refine ⟨hb'.nodup, fun k hk q hq => ?_, hb'.mem, fun q hq => ?_, fun k hk => List.mem_append_left _ (hb'.mono k hk)⟩
    · rcases List.mem_append.mp hk with hk | hk
      · exact hb'.cached k hk q hq
      · obtain rfl : k = (t, c) := by simpa using hk
        exact (hb'.mem q).2 (Or.inr hq)
    · rcases hb'.owner q hq with h3 | h3 | h3
      · exact Or.inl h3
      · exact Or.inr (Or.inl (List.mem_append_left _ h3))
      · exact Or.inr (Or.inl (by simp [h3]))

theorem runQuery_none {env : QEnv} {mode : SqlModeArg} {t : QTree} {c : RunCtx} {w : QWhat} {s s' : QSt} (hp : QPre env mode t.size s)
    (hc : (t, c) ∉ s.cache) (h : runQuery env ⟨t, c, w⟩ s = (none, s')) :
    QPost env mode (fun k => k = (t, c)) [⟨t, c, w⟩] s s' := by
  have hq : (⟨t, c, w⟩ : QQuery) ∉ s.trace := fun hq => by
    rcases hp.owner _ hq with h1 | h1
    · exact hc h1
    · simp at h1
  obtain rfl : (⟨s.trace ++ [⟨t, c, w⟩], s.cache⟩ : QSt) = s' := by
    simp only [runQuery, Prod.mk.injEq] at h
    exact h.2
  refine ⟨?_, fun k hk q hq' => List.mem_append_left _ (hp.cached k hk q hq'), fun q => List.mem_append, fun q hq' => ?_, fun _ hk => hk⟩
  · rw [List.nodup_append]
    exact ⟨hp.nodup, List.nodup_singleton _, fun a ha b hb => by
      obtain rfl : b = _ := by simpa using hb
      exact fun he => hq (he ▸ ha)⟩
  · rcases List.mem_append.mp hq' with h1 | h1
    · exact Or.inl h1
    · obtain rfl : q = _ := by simpa using h1
      exact Or.inr (Or.inr rfl)

theorem runPy_none {env : QEnv} {t : QTree} {s s' : QSt} (h : runPy env t s = (none, s')) : s' = s := by
  simp only [runPy, Prod.mk.injEq] at h
  exact h.2.symm

theorem runLoop_none {env : QEnv} {mode : SqlModeArg} {n : ℕ} {f : ℕ → QSt → QRes} {A : ℕ → List QQuery}
    (hf : ∀ i s s', QPre env mode n s → f i s = (none, s') → QPost env mode (fun _ => False) (A i) s s') :
    ∀ (k i : ℕ) (s s' : QSt), QPre env mode n s → runLoop f i k s = (none, s') →
      QPost env mode (fun _ => False) ((List.range' i k).flatMap A) s s'
  | 0, i, s, s', hp, h => by
    obtain rfl : s = s' := by simpa [runLoop] using h
    exact hp.post _
  | k + 1, i, s, s', hp, h => by
    obtain ⟨s₁, h1, h2⟩ := QRes.next_none h
    have p1 := hf i s s₁ hp h1
    have p2 := runLoop_none hf k (i + 1) s₁ s' (p1.pre hp (Nat.le_refl _) fun _ x => x.elim) h2
    rw [List.range'_succ, List.flatMap_cons]
    exact p1.trans p2

theorem runStats_trace {env : QEnv} (g : ℕ → QQuery) :
    ∀ (k i : ℕ) (s s' : QSt), runLoop (fun i => runQuery env (g i)) i k s = (none, s') →
      s' = ⟨s.trace ++ (List.range' i k).map g, s.cache⟩
  | 0, i, s, s', h => by
    obtain rfl : s = s' := by simpa [runLoop] using h
    simp
  | k + 1, i, s, s', h => by
    obtain ⟨s₁, h1, h2⟩ := QRes.next_none h
    have h3 := runStats_trace g k (i + 1) s₁ s' h2
    simp only [runQuery, Prod.mk.injEq] at h1
    rw [h3, ← h1.2]
    simp [List.range'_succ]

theorem runStats_none {env : QEnv} {mode : SqlModeArg} {t : QTree} {c : RunCtx} {k : ℕ} {s s' : QSt} (hp : QPre env mode t.size s)
    (hc : (t, c) ∉ s.cache) (h : runLoop (fun i => runQuery env ⟨t, c, .stats i⟩) 0 k s = (none, s')) :
    QPost env mode (fun k => k = (t, c)) ((List.range k).map fun i => ⟨t, c, .stats i⟩) s s' := by
  rw [runStats_trace _ k 0 s s' h, ← List.range_eq_range']
  refine ⟨?_, fun x hx q hq' => List.mem_append_left _ (hp.cached x hx q hq'), fun q => List.mem_append, fun q hq' => ?_, fun _ hk => hk⟩
  · rw [List.nodup_append]
    refine ⟨hp.nodup, List.Nodup.map (fun i j hij => by simpa using hij) List.nodup_range, fun a ha b hb hab => ?_⟩
    obtain ⟨i, -, rfl⟩ := List.mem_map.mp hb
    subst hab
    rcases hp.owner _ ha with h1 | h1
    · exact hc h1
    · simp at h1
  · rcases List.mem_append.mp hq' with h1 | h1
    · exact Or.inl h1
    · obtain ⟨i, -, rfl⟩ := List.mem_map.mp h1
      exact Or.inr (Or.inr rfl)

theorem rewrap_none {a : QAdvice} {r : QRes} {s' : QSt} (h : rewrap a r = (none, s')) : r = (none, s') := by
  rcases r with ⟨_ | (⟨_ | n⟩ | _ | _), s⟩ <;> simp_all [rewrap]

theorem sqlOrMixed_none {env : QEnv} {mode : SqlModeArg} {t : QTree} {c : RunCtx} {mixed : QSt → QRes} {s s' : QSt} (hpol : Polite env)
    (h : sqlOrMixed env mode t c mixed s = (none, s')) :
    (mode = .none ∧ t.hasSql = true ∧ runQuery env ⟨t, c, .metric⟩ s = (none, s')) ∨
      (¬(mode = .none ∧ t.hasSql = true) ∧ mixed s = (none, s')) := by
  unfold sqlOrMixed at h
  split at h
  · rename_i hm
    left
    refine ⟨hm.1, hm.2, ?_⟩
    have hne : ∀ s₁, (runQuery env ⟨t, c, .metric⟩ s).next (runPy env t) ≠ (some (.raw .notImpl), s₁) := by
      intro s₁ he
      unfold runQuery runPy QRes.next at he
      cases hx : env.exec s.trace ⟨t, c, .metric⟩ with
      | some r =>
        rw [hx] at he
        simp only [Option.map_some, Prod.mk.injEq, Option.some.injEq, QErr.raw.injEq] at he
        exact hpol.1 _ _ (hx.trans (by rw [he.1]))
      | none =>
        rw [hx] at he
        simp only [Option.map_none, Prod.mk.injEq] at he
        cases hy : env.py t (s.trace ++ [⟨t, c, .metric⟩]) with
        | none => rw [hy] at he; simp at he
        | some r =>
          rw [hy] at he
          simp only [Option.map_some, Option.some.injEq, QErr.raw.injEq] at he
          exact hpol.2 _ _ (hy.trans (by rw [he.1]))
    split at h
    · rename_i s₁ he
      exact absurd he (hne s₁)
    · obtain ⟨s₁, h1, h2⟩ := QRes.next_none h
      rw [h1, runPy_none h2]
  · rename_i hm
    exact Or.inr ⟨hm, h⟩

mutual

theorem run_none {env : QEnv} {mode : SqlModeArg} (hpol : Polite env) :
    ∀ (t : QTree) (c : RunCtx) (s s' : QSt), QPre env mode t.size s → t.run env mode c s = (none, s') →
      QPost env mode (fun _ => False) (t.asked env mode c) s s'
  | .leaf n own, c, s, s', hp, h => by
    rw [QTree.run] at h
    refine withCache_none hp h fun hc s₁ hb => ?_
    cases own
    · simp at hb
    · obtain ⟨s₂, h1, h2⟩ := QRes.next_none hb
      rw [runPy_none h2]
      rw [QTree.asked, if_pos rfl]
      exact runQuery_none hp hc h1
  | .node own wh extra cs, c, s, s', hp, h => by
    rw [QTree.run] at h
    refine withCache_none hp h fun hc s₁ hb => ?_
    rw [QTree.asked]
    rcases sqlOrMixed_none hpol hb with ⟨hm, hs, hq⟩ | ⟨hm, hq⟩
    · rw [if_pos ⟨hm, hs⟩]
      exact runQuery_none hp hc hq
    · rw [if_neg hm]
      obtain ⟨s₂, h1, h2⟩ := QRes.next_none hq
      rw [runPy_none h2]
      exact (runEach_none hpol cs _ s s₂ (hp.le (by simp [QTree.size])) h1).weaken fun _ x => x.elim
  | .model wh group magic t, c, s, s', hp, h => by
    rw [QTree.run] at h
    refine withCache_none hp h fun hc s₁ hb => ?_
    have hb := rewrap_none hb
    rw [QTree.asked]
    split at hb
    · rename_i hm
      rw [if_pos hm]
      cases magic with
      | none => simp at hb
      | some k =>
        obtain ⟨s₂, h1, h2⟩ := QRes.next_none hb
        rw [runPy_none h2]
        exact runStats_none hp hc h1
    · rename_i hm
      rw [if_neg hm]
      obtain ⟨s₂, h1, h2⟩ := QRes.next_none hb
      rw [runPy_none h2]
      exact (run_none hpol t _ s s₂ (hp.le (by simp [QTree.size])) h1).weaken fun _ x => x.elim
  | .ci own boot conf wh batch t, c, s, s', hp, h => by
    rw [QTree.run] at h
    refine withCache_none hp h fun hc s₁ hb => ?_
    have hb := rewrap_none hb
    rw [QTree.asked]
    rcases sqlOrMixed_none hpol hb with ⟨hm, hs, hq⟩ | ⟨hm, hq⟩
    · rw [if_pos ⟨hm, hs⟩]
      exact runQuery_none hp hc hq
    · rw [if_neg hm]
      obtain ⟨s₂, h1, hq⟩ := QRes.next_none hq
      obtain ⟨s₃, h2, hq⟩ := QRes.next_none hq
      obtain ⟨s₄, h3, hq⟩ := QRes.next_none hq
      rw [runPy_none hq]
      have p1 : QPost env mode (fun k => k = (QTree.ci own boot conf wh batch t, c))
          (if boot then [] else [⟨.ci own boot conf wh batch t, c, .units⟩]) s s₂ := by
        cases boot
        · exact runQuery_none hp hc h1
        · obtain rfl : s = s₂ := by simpa using h1
          exact hp.post _
      have q1 : QPre env mode t.size s₂ := p1.pre hp (by simp [QTree.size]) fun k hk => by rw [hk]; simp [QTree.size]
      have p2 := runLoop_none (env := env) (mode := mode) (n := t.size)
        (A := fun i => t.asked env mode ((c.enter wh []).sample boot i))
        (fun i a b ha hab => run_none hpol t _ a b ha hab) _ 0 s₂ s₃ q1 h2
      have q2 : QPre env mode t.size s₃ := p2.pre q1 (Nat.le_refl _) fun _ x => x.elim
      have p3 := run_none hpol t _ s₃ s₄ q2 h3
      rw [← List.range_eq_range'] at p2
      exact (p1.trans (p2.weaken fun _ x => x.elim)).trans (p3.weaken fun _ x => x.elim)

theorem runEach_none {env : QEnv} {mode : SqlModeArg} (hpol : Polite env) :
    ∀ (ts : List QTree) (c : RunCtx) (s s' : QSt), QPre env mode (sizeAll ts) s → runEach env mode ts c s = (none, s') →
      QPost env mode (fun _ => False) (askedAll env mode ts c) s s'
  | [], c, s, s', hp, h => by
    rw [runEach] at h
    obtain rfl : s = s' := by simpa using h
    rw [askedAll]
    exact hp.post _
  | t :: ts, c, s, s', hp, h => by
    rw [runEach] at h
    obtain ⟨s₁, h1, h2⟩ := QRes.next_none h
    rw [askedAll]
    have p1 := run_none hpol t c s s₁ (hp.le (by simp [sizeAll])) h1
    have q1 : QPre env mode (sizeAll ts) s₁ := p1.pre hp (by simp [sizeAll]) fun _ x => x.elim
    exact p1.trans (runEach_none hpol ts c s₁ s' q1 h2)

end

/-! ## The list and the promise -/

/-- Where the search for queries stops. -/
def stopOf (mode : SqlModeArg) (u : QTree) : Prop :=
  match mode with
  | .none => u.hasSql = true
  | .mixed => False
  | .magic => u.isModel
  | .other => True

/-- Which queries a metric has by itself. -/
def wants (mode : SqlModeArg) (u : QTree) (w : QWhat) : Prop :=
  match mode with
  | .none => (w = .metric ∧ u.hasSql = true) ∨ (w = .units ∧ u.isJackknife ∧ u.hasSql = false)
  | .mixed => (w = .metric ∧ u.isLeaf ∧ u.hasSql = true) ∨ (w = .units ∧ u.isJackknife)
  | .magic => (w = .metric ∧ u.isLeaf ∧ u.hasSql = true) ∨ (w = .units ∧ u.isJackknife) ∨ ∃ i, i < u.magicQueries ∧ w = .stats i
  | .other => False

theorem enter_eq (c : RunCtx) (wh extra : List String) : c.enter wh extra = c.below wh extra := by
  unfold RunCtx.enter RunCtx.below
  by_cases h : wh = [] <;> simp [h]

theorem part_leaf {n : ℕ} {own : Bool} {u : QTree} : ¬QPart (.leaf n own) u := by
  intro h
  generalize ht : QTree.leaf n own = t at h
  induction h with
  | trans h h' ih _ => exact ih ht
  | _ => cases ht

theorem part_node {own : Bool} {wh extra : List String} {cs : List QTree} {u : QTree} :
    QPart (.node own wh extra cs) u ↔ ∃ v ∈ cs, u = v ∨ QPart v u := by
  constructor
  · intro h
    generalize ht : QTree.node own wh extra cs = t at h
    induction h with
    | node _ _ _ _ u h => cases ht; exact ⟨u, h, Or.inl rfl⟩
    | trans h h' ih _ =>
      obtain ⟨v, hv, rfl | hp⟩ := ih ht
      · exact ⟨_, hv, Or.inr h'⟩
      · exact ⟨v, hv, Or.inr (hp.trans h')⟩
    | _ => cases ht
  · rintro ⟨v, hv, rfl | hp⟩
    · exact .node _ _ _ _ _ hv
    · exact .trans (.node _ _ _ _ _ hv) hp

theorem part_ci {own boot conf : Bool} {wh : List String} {batch : Option ℕ} {t u : QTree} :
    QPart (.ci own boot conf wh batch t) u ↔ u = t ∨ QPart t u := by
  constructor
  · intro h
    generalize ht : QTree.ci own boot conf wh batch t = x at h
    induction h with
    | ci _ _ _ _ _ u => cases ht; exact Or.inl rfl
    | trans h h' ih _ =>
      rcases ih ht with rfl | hp
      · exact Or.inr h'
      · exact Or.inr (hp.trans h')
    | _ => cases ht
  · rintro (rfl | hp)
    · exact .ci _ _ _ _ _ _
    · exact .trans (.ci _ _ _ _ _ _) hp

mutual

theorem sqlBelow_iff : ∀ t : QTree, t.sqlBelow = true ↔ t.oneQuery ∧ ¬t.withConf
  | .leaf n own => by simp [QTree.sqlBelow, QTree.oneQuery, QTree.sqlClass, QTree.withConf, part_leaf]
  | .node own wh extra cs => by
    simp only [QTree.sqlBelow, Bool.and_eq_true, sqlBelowAll_iff cs, QTree.oneQuery, QTree.sqlClass, QTree.withConf, part_node,
      not_false_eq_true, and_true]
    constructor
    · rintro ⟨h1, h2⟩
      refine ⟨h1, ?_⟩
      rintro u ⟨v, hv, rfl | hp⟩
      · exact ⟨(h2 _ hv).1.1, (h2 _ hv).2⟩
      · exact (h2 _ hv).1.2 u hp
    · rintro ⟨h1, h2⟩
      refine ⟨h1, fun v hv => ⟨⟨(h2 v ⟨v, hv, Or.inl rfl⟩).1, fun u hp => h2 u ⟨v, hv, Or.inr hp⟩⟩, (h2 v ⟨v, hv, Or.inl rfl⟩).2⟩⟩
  | .model wh group magic t => by simp [QTree.sqlBelow, QTree.oneQuery, QTree.sqlClass]
  | .ci own boot conf wh batch t => by
    simp only [QTree.sqlBelow, Bool.and_eq_true, Bool.not_eq_true', sqlBelow_iff t, QTree.oneQuery, QTree.sqlClass, QTree.withConf, part_ci]
    constructor
    · rintro ⟨⟨h1, h2⟩, h3, h4⟩
      refine ⟨⟨h1, ?_⟩, by simp [h2]⟩
      rintro u (rfl | hp)
      · exact ⟨h3.1, h4⟩
      · exact h3.2 u hp
    · rintro ⟨⟨h1, h2⟩, h3⟩
      exact ⟨⟨h1, by simpa using h3⟩, ⟨(h2 t (Or.inl rfl)).1, fun u hp => h2 u (Or.inr hp)⟩, (h2 t (Or.inl rfl)).2⟩

theorem sqlBelowAll_iff : ∀ ts : List QTree, sqlBelowAll ts = true ↔ ∀ t ∈ ts, t.oneQuery ∧ ¬t.withConf
  | [] => by simp [sqlBelowAll]
  | t :: ts => by simp [sqlBelowAll, sqlBelow_iff t, sqlBelowAll_iff ts]

end

theorem hasSql_iff (t : QTree) : t.hasSql = true ↔ t.oneQuery := by
  cases t with
  | ci own boot conf wh batch t =>
    simp only [QTree.hasSql, Bool.and_eq_true, sqlBelow_iff t, QTree.oneQuery, QTree.sqlClass, part_ci]
    constructor
    · rintro ⟨h1, h2, h3⟩
      refine ⟨h1, ?_⟩
      rintro u (rfl | hp)
      · exact ⟨h2.1, h3⟩
      · exact h2.2 u hp
    · rintro ⟨h1, h2⟩
      exact ⟨h1, ⟨(h2 t (Or.inl rfl)).1, fun u hp => h2 u (Or.inr hp)⟩, (h2 t (Or.inl rfl)).2⟩
  | _ => rw [QTree.hasSql, sqlBelow_iff] <;> simp [QTree.withConf]

theorem hasSql_false_iff (t : QTree) : t.hasSql = false ↔ ¬t.oneQuery := by
  rw [← hasSql_iff]
  simp

theorem promised_eq (env : QEnv) (mode : SqlModeArg) (t : QTree) (c : RunCtx) (q : QQuery) :
    promised env mode t c q ↔ QBelow env (stopOf mode) t c q.tree q.ctx ∧ wants mode q.tree q.what := by
  have hf : (fun u : QTree => u.hasSql = true) = QTree.oneQuery := funext fun u => propext (hasSql_iff u)
  cases mode
  · unfold promised wants
    rw [show stopOf .none = QTree.oneQuery from hf]
    simp only [hasSql_iff, hasSql_false_iff]
  · unfold promised wants
    simp only [hasSql_iff]
    rfl
  · unfold promised wants
    simp only [hasSql_iff]
    rfl
  · simp [promised, wants]

theorem QBelow_iff (env : QEnv) (stop : QTree → Prop) (t : QTree) (c : RunCtx) (u : QTree) (d : RunCtx) :
    QBelow env stop t c u d ↔ (u = t ∧ d = c) ∨ (¬stop t ∧ ∃ v e, QStep env t c v e ∧ QBelow env stop v e u d) := by
  constructor
  · intro h
    cases h with
    | refl => exact Or.inl ⟨rfl, rfl⟩
    | step hs h hr => exact Or.inr ⟨hs, _, _, h, hr⟩
  · rintro (⟨rfl, rfl⟩ | ⟨hs, v, e, h, hr⟩)
    · exact .refl _ _
    · exact .step hs h hr

theorem promised_iff (env : QEnv) (mode : SqlModeArg) (t : QTree) (c : RunCtx) (q : QQuery) :
    promised env mode t c q ↔ (q.tree = t ∧ q.ctx = c ∧ wants mode t q.what) ∨
      (¬stopOf mode t ∧ ∃ v e, QStep env t c v e ∧ promised env mode v e q) := by
  simp only [promised_eq]
  rw [QBelow_iff]
  constructor
  · rintro ⟨⟨h1, h2⟩ | ⟨hs, v, e, h, hr⟩, hw⟩
    · exact Or.inl ⟨h1, h2, h1 ▸ hw⟩
    · exact Or.inr ⟨hs, v, e, h, hr, hw⟩
  · rintro (⟨h1, h2, hw⟩ | ⟨hs, v, e, h, hr, hw⟩)
    · exact ⟨Or.inl ⟨h1, h2⟩, h1 ▸ hw⟩
    · exact ⟨Or.inr ⟨hs, v, e, h, hr⟩, hw⟩

theorem QQuery.ext_iff' (q : QQuery) (t : QTree) (c : RunCtx) (w : QWhat) :
    q = ⟨t, c, w⟩ ↔ q.tree = t ∧ q.ctx = c ∧ q.what = w := by
  cases q
  simp

theorem step_leaf {env : QEnv} {n : ℕ} {own : Bool} {c : RunCtx} {v : QTree} {e : RunCtx} : ¬QStep env (.leaf n own) c v e := by
  intro h
  cases h

theorem step_node {env : QEnv} {own : Bool} {wh extra : List String} {cs : List QTree} {c : RunCtx} {v : QTree} {e : RunCtx} :
    QStep env (.node own wh extra cs) c v e ↔ v ∈ cs ∧ e = c.enter wh extra := by
  rw [enter_eq]
  constructor
  · intro h
    cases h with
    | node _ _ _ _ _ _ h => exact ⟨h, rfl⟩
  · rintro ⟨h, rfl⟩
    exact .node _ _ _ _ _ _ h

theorem step_model {env : QEnv} {wh group : List String} {magic : Option ℕ} {t : QTree} {c : RunCtx} {v : QTree} {e : RunCtx} :
    QStep env (.model wh group magic t) c v e ↔ v = t ∧ e = c.enter wh group := by
  rw [enter_eq]
  constructor
  · intro h
    cases h
    exact ⟨rfl, rfl⟩
  · rintro ⟨rfl, rfl⟩
    exact .model _ _ _ _ _

theorem step_ci {env : QEnv} {own boot conf : Bool} {wh : List String} {batch : Option ℕ} {t : QTree} {c : RunCtx} {v : QTree} {e : RunCtx} :
    QStep env (.ci own boot conf wh batch t) c v e ↔ v = t ∧ (e = c.enter wh [] ∨
      ∃ i, i < env.resamples (.ci own boot conf wh batch t) c ∧ e = (c.enter wh []).sample boot i) := by
  rw [enter_eq]
  constructor
  · intro h
    cases h with
    | point => exact ⟨rfl, Or.inl rfl⟩
    | sample _ _ _ _ _ _ _ i h => exact ⟨rfl, Or.inr ⟨i, h, rfl⟩⟩
  · rintro ⟨rfl, rfl | ⟨i, h, rfl⟩⟩
    · exact .point _ _ _ _ _ _ _
    · exact .sample _ _ _ _ _ _ _ _ h

mutual

theorem mem_asked {env : QEnv} {mode : SqlModeArg} (hm : mode ≠ .other) :
    ∀ (t : QTree) (c : RunCtx) (q : QQuery), q ∈ t.asked env mode c ↔ promised env mode t c q
  | .leaf n own, c, q => by
    rw [promised_iff, QTree.asked]
    simp only [step_leaf, false_and, exists_false, and_false, or_false]
    cases own <;> cases mode <;>
      simp [wants, QTree.isLeaf, QTree.isJackknife, QTree.magicQueries, QTree.hasSql, QTree.sqlBelow, QQuery.ext_iff'] at hm ⊢
  | .node own wh extra cs, c, q => by
    rw [promised_iff, QTree.asked]
    simp only [step_node]
    have key : q ∈ askedAll env mode cs (c.enter wh extra) ↔
        ∃ v e, (v ∈ cs ∧ e = c.enter wh extra) ∧ promised env mode v e q := by
      rw [mem_askedAll hm]
      constructor
      · rintro ⟨t, ht, hq⟩
        exact ⟨t, _, ⟨ht, rfl⟩, hq⟩
      · rintro ⟨v, e, ⟨hv, rfl⟩, hq⟩
        exact ⟨v, hv, hq⟩
    rw [← key]
    cases mode
    · cases hs : (QTree.node own wh extra cs).hasSql <;> simp [wants, stopOf, hs, QTree.isJackknife, QQuery.ext_iff']
    · simp [wants, stopOf, QTree.isLeaf, QTree.isJackknife]
    · simp [wants, stopOf, QTree.isLeaf, QTree.isJackknife, QTree.magicQueries, QTree.isModel]
    · exact absurd rfl hm
  | .model wh group magic t, c, q => by
    rw [promised_iff, QTree.asked]
    simp only [step_model]
    have key : q ∈ t.asked env mode (c.enter wh group) ↔
        ∃ v e, (v = t ∧ e = c.enter wh group) ∧ promised env mode v e q := by
      rw [mem_asked hm]
      constructor
      · intro hq
        exact ⟨t, _, ⟨rfl, rfl⟩, hq⟩
      · rintro ⟨v, e, ⟨rfl, rfl⟩, hq⟩
        exact hq
    rw [← key]
    cases mode
    · simp [wants, stopOf, QTree.isJackknife, QTree.hasSql, QTree.sqlBelow]
    · simp [wants, stopOf, QTree.isLeaf, QTree.isJackknife]
    · cases magic with
      | none => simp [wants, stopOf, QTree.isLeaf, QTree.isJackknife, QTree.magicQueries, QTree.isModel]
      | some k =>
        simp only [wants, stopOf, QTree.isLeaf, QTree.isJackknife, QTree.magicQueries, QTree.isModel, not_true, false_and, or_false,
          and_false, false_or, if_true, List.mem_map, List.mem_range, Option.getD_some]
        constructor
        · rintro ⟨i, hi, rfl⟩
          exact ⟨rfl, rfl, i, hi, rfl⟩
        · rintro ⟨h1, h2, i, hi, h3⟩
          exact ⟨i, hi, ((QQuery.ext_iff' _ _ _ _).2 ⟨h1, h2, h3⟩).symm⟩
    · exact absurd rfl hm
  | .ci own boot conf wh batch t, c, q => by
    rw [promised_iff, QTree.asked]
    simp only [step_ci]
    have key : (q ∈ ((List.range (env.resamples (.ci own boot conf wh batch t) c)).flatMap
          fun i => t.asked env mode ((c.enter wh []).sample boot i)) ∨ q ∈ t.asked env mode (c.enter wh [])) ↔
        ∃ v e, (v = t ∧ (e = c.enter wh [] ∨
          ∃ i, i < env.resamples (.ci own boot conf wh batch t) c ∧ e = (c.enter wh []).sample boot i)) ∧ promised env mode v e q := by
      rw [mem_asked hm, List.mem_flatMap]
      constructor
      · rintro (⟨i, hi, hq⟩ | hq)
        · exact ⟨t, _, ⟨rfl, Or.inr ⟨i, List.mem_range.mp hi, rfl⟩⟩, (mem_asked hm t _ q).1 hq⟩
        · exact ⟨t, _, ⟨rfl, Or.inl rfl⟩, hq⟩
      · rintro ⟨v, e, ⟨rfl, rfl | ⟨i, hi, rfl⟩⟩, hq⟩
        · exact Or.inr hq
        · exact Or.inl ⟨i, List.mem_range.mpr hi, (mem_asked hm v _ q).2 hq⟩
    rw [← key]
    cases mode
    · cases hs : (QTree.ci own boot conf wh batch t).hasSql <;> cases boot <;>
        simp [wants, stopOf, hs, QTree.isJackknife, QQuery.ext_iff']
    · cases boot <;> simp [wants, stopOf, QTree.isLeaf, QTree.isJackknife, QQuery.ext_iff']
    · cases boot <;> simp [wants, stopOf, QTree.isLeaf, QTree.isJackknife, QTree.magicQueries, QTree.isModel, QQuery.ext_iff']
    · exact absurd rfl hm

theorem mem_askedAll {env : QEnv} {mode : SqlModeArg} (hm : mode ≠ .other) :
    ∀ (ts : List QTree) (c : RunCtx) (q : QQuery), q ∈ askedAll env mode ts c ↔ ∃ t ∈ ts, promised env mode t c q
  | [], c, q => by simp [askedAll]
  | t :: ts, c, q => by
    rw [askedAll, List.mem_append, mem_asked hm t c q, mem_askedAll hm ts c q]
    simp

end

/-! ## Errors -/

/-- The error comes from the last query that was run, or from the Python code of a metric. -/
def Blame (env : QEnv) (tr : List QQuery) (e : QErr) : Prop :=
  (∃ tr' q r, tr = tr' ++ [q] ∧ env.exec tr' q = some r ∧ e.cause = .raw r) ∨ ∃ t r, env.py t tr = some r ∧ e.cause = .raw r

theorem QRes.next_some {r : QRes} {k : QSt → QRes} {e : QErr} {s' : QSt} (h : r.next k = (some e, s')) :
    r = (some e, s') ∨ ∃ s, r = (none, s) ∧ k s = (some e, s') := by
  rcases r with ⟨_ | e', s⟩
  · exact Or.inr ⟨s, rfl, h⟩
  · exact Or.inl h

theorem withCache_some {t : QTree} {c : RunCtx} {body : QSt → QRes} {s s' : QSt} {e : QErr} (h : withCache t c body s = (some e, s')) :
    body s = (some e, s') := by
  unfold withCache at h
  split at h
  · simp at h
  · rcases QRes.next_some h with h | ⟨s₁, -, h⟩
    · exact h
    · simp at h

theorem runQuery_some {env : QEnv} {q : QQuery} {s s' : QSt} {e : QErr} (hpol : Polite env) (h : runQuery env q s = (some e, s')) :
    Blame env s'.trace e ∧ e ≠ .raw .notImpl := by
  simp only [runQuery, Prod.mk.injEq, Option.map_eq_some_iff] at h
  obtain ⟨⟨r, hr, rfl⟩, rfl⟩ := h
  refine ⟨Or.inl ⟨s.trace, q, r, rfl, hr, rfl⟩, fun he => ?_⟩
  obtain rfl : r = .notImpl := by simpa using he
  exact hpol.1 _ _ hr

theorem runPy_some {env : QEnv} {t : QTree} {s s' : QSt} {e : QErr} (hpol : Polite env) (h : runPy env t s = (some e, s')) :
    Blame env s'.trace e ∧ e ≠ .raw .notImpl := by
  simp only [runPy, Prod.mk.injEq, Option.map_eq_some_iff] at h
  obtain ⟨⟨r, hr, rfl⟩, rfl⟩ := h
  refine ⟨Or.inr ⟨t, r, hr, rfl⟩, fun he => ?_⟩
  obtain rfl : r = .notImpl := by simpa using he
  exact hpol.2 _ _ hr

theorem runLoop_some {f : ℕ → QSt → QRes} {P : QSt → QErr → Prop} (hf : ∀ i s e s', f i s = (some e, s') → P s' e) :
    ∀ (k i : ℕ) (s s' : QSt) (e : QErr), runLoop f i k s = (some e, s') → P s' e
  | 0, i, s, s', e, h => by simp [runLoop] at h
  | k + 1, i, s, s', e, h => by
    rcases QRes.next_some h with h | ⟨s₁, -, h⟩
    · exact hf _ _ _ _ h
    · exact runLoop_some hf k (i + 1) s₁ s' e h

theorem rewrap_some {a : QAdvice} {r : QRes} {e : QErr} {s' : QSt} (h : rewrap a r = (some e, s')) :
    (e = .raw .notImpl ∧ r = (some e, s')) ∨ ∃ e', e' ≠ .raw .notImpl ∧ e = .wrapped a e' ∧ r = (some e', s') := by
  rcases r with ⟨_ | (⟨_ | n⟩ | _ | _), s⟩ <;> simp_all [rewrap] <;> simp [← h.1]

theorem sqlOrMixed_some {env : QEnv} {mode : SqlModeArg} {t : QTree} {c : RunCtx} {mixed : QSt → QRes} {s s' : QSt} {e : QErr}
    (hpol : Polite env) (h : sqlOrMixed env mode t c mixed s = (some e, s')) :
    (Blame env s'.trace e ∧ e ≠ .raw .notImpl) ∨ (¬(mode = .none ∧ t.hasSql = true) ∧ mixed s = (some e, s')) := by
  unfold sqlOrMixed at h
  split at h
  · left
    have hne : ∀ e₁ s₁, (runQuery env ⟨t, c, .metric⟩ s).next (runPy env t) = (some e₁, s₁) →
        Blame env s₁.trace e₁ ∧ e₁ ≠ .raw .notImpl := by
      intro e₁ s₁ he
      rcases QRes.next_some he with h | ⟨s₂, -, h⟩
      · exact runQuery_some hpol h
      · exact runPy_some hpol h
    split at h
    · rename_i s₁ he
      exact absurd rfl (hne _ _ he).2
    · exact hne _ _ h
  · rename_i hm
    exact Or.inr ⟨hm, h⟩

/-- What an error of the computation of `t` is: NotImplementedError for something that has no SQL, or an error raised by a query or by
Python code. -/
def ErrOf (env : QEnv) (mode : SqlModeArg) (t : QTree) (s' : QSt) (e : QErr) : Prop :=
  (e = .raw .notImpl ∧ ¬t.complete (decide (mode = .magic))) ∨ (Blame env s'.trace e ∧ e ≠ .raw .notImpl)

theorem Blame.wrapped {env : QEnv} {tr : List QQuery} {e : QErr} (a : QAdvice) (h : Blame env tr e) : Blame env tr (.wrapped a e) := h

mutual

theorem run_some {env : QEnv} {mode : SqlModeArg} (hpol : Polite env) :
    ∀ (t : QTree) (c : RunCtx) (s s' : QSt) (e : QErr), t.run env mode c s = (some e, s') → ErrOf env mode t s' e
  | .leaf n own, c, s, s', e, h => by
    rw [QTree.run] at h
    have h := withCache_some h
    cases own
    · left
      simp only [Bool.false_eq_true, if_false, Prod.mk.injEq, Option.some.injEq] at h
      exact ⟨h.1.symm, by simp [QTree.complete]⟩
    · right
      rcases QRes.next_some h with h | ⟨s₂, -, h⟩
      · exact runQuery_some hpol h
      · exact runPy_some hpol h
  | .node own wh extra cs, c, s, s', e, h => by
    rw [QTree.run] at h
    rcases sqlOrMixed_some hpol (withCache_some h) with h | ⟨-, h⟩
    · exact Or.inr h
    · rcases QRes.next_some h with h | ⟨s₂, -, h⟩
      · rcases runEach_some hpol cs _ s s' e h with ⟨h1, h2⟩ | h
        · exact Or.inl ⟨h1, by simpa [QTree.complete] using h2⟩
        · exact Or.inr h
      · exact Or.inr (runPy_some hpol h)
  | .model wh group magic t, c, s, s', e, h => by
    rw [QTree.run] at h
    have key : ∀ e₁ s₁, (if mode = .magic then
          match magic with
          | none => (some (.raw .notImpl), s)
          | some k => (runLoop (fun i => runQuery env ⟨.model wh group (some k) t, c, .stats i⟩) 0 k s).next
              (runPy env (.model wh group (some k) t))
        else (t.run env mode (c.enter wh group) s).next (runPy env (.model wh group magic t)) : QRes) = (some e₁, s₁) →
        ErrOf env mode (.model wh group magic t) s₁ e₁ := by
      intro e₁ s₁ h
      split at h
      · rename_i hm
        cases magic with
        | none =>
          left
          simp only [Prod.mk.injEq, Option.some.injEq] at h
          exact ⟨h.1.symm, by simp [QTree.complete, hm]⟩
        | some k =>
          right
          rcases QRes.next_some h with h | ⟨s₂, -, h⟩
          · exact runLoop_some (P := fun s e => Blame env s.trace e ∧ e ≠ .raw .notImpl)
              (fun i a e' b hab => runQuery_some hpol hab) _ _ _ _ _ h
          · exact runPy_some hpol h
      · rename_i hm
        rcases QRes.next_some h with h | ⟨s₂, -, h⟩
        · rcases run_some hpol t _ s s₁ e₁ h with ⟨h1, h2⟩ | h
          · exact Or.inl ⟨h1, by simpa [QTree.complete, hm] using h2⟩
          · exact Or.inr h
        · exact Or.inr (runPy_some hpol h)
    rcases rewrap_some (withCache_some h) with ⟨-, h'⟩ | ⟨e', he', rfl, h'⟩
    · exact key _ _ h'
    · rcases key _ _ h' with h | h
      · exact absurd h.1 he'
      · exact Or.inr ⟨h.1.wrapped _, by simp⟩
  | .ci own boot conf wh batch t, c, s, s', e, h => by
    rw [QTree.run] at h
    have sub : ∀ d a b e₁, t.run env mode d a = (some e₁, b) → ErrOf env mode (.ci own boot conf wh batch t) b e₁ := by
      intro d a b e₁ h
      rcases run_some hpol t d a b e₁ h with ⟨h1, h2⟩ | h
      · exact Or.inl ⟨h1, by simpa [QTree.complete] using h2⟩
      · exact Or.inr h
    have key : ∀ e₁ s₁, sqlOrMixed env mode (.ci own boot conf wh batch t) c (fun s =>
          ((if boot then (none, s) else runQuery env ⟨.ci own boot conf wh batch t, c, .units⟩ s : QRes).next fun s =>
            (runLoop (fun i => t.run env mode ((c.enter wh []).sample boot i)) 0
              (env.resamples (.ci own boot conf wh batch t) c) s).next fun s =>
            (t.run env mode (c.enter wh []) s).next (runPy env (.ci own boot conf wh batch t)))) s = (some e₁, s₁) →
        ErrOf env mode (.ci own boot conf wh batch t) s₁ e₁ := by
      intro e₁ s₁ h
      rcases sqlOrMixed_some hpol h with h | ⟨-, h⟩
      · exact Or.inr h
      rcases QRes.next_some h with h | ⟨s₂, -, h⟩
      · cases boot
        · exact Or.inr (runQuery_some hpol h)
        · simp at h
      rcases QRes.next_some h with h | ⟨s₃, -, h⟩
      · exact runLoop_some (fun i a e' b hab => sub _ _ _ _ hab) _ _ _ _ _ h
      rcases QRes.next_some h with h | ⟨s₄, -, h⟩
      · exact sub _ _ _ _ h
      · exact Or.inr (runPy_some hpol h)
    rcases rewrap_some (withCache_some h) with ⟨-, h'⟩ | ⟨e', he', rfl, h'⟩
    · exact key _ _ h'
    · rcases key _ _ h' with h | h
      · exact absurd h.1 he'
      · exact Or.inr ⟨h.1.wrapped _, by simp⟩

theorem runEach_some {env : QEnv} {mode : SqlModeArg} (hpol : Polite env) :
    ∀ (ts : List QTree) (c : RunCtx) (s s' : QSt) (e : QErr), runEach env mode ts c s = (some e, s') →
      (e = .raw .notImpl ∧ ¬completeAll (decide (mode = .magic)) ts) ∨ (Blame env s'.trace e ∧ e ≠ .raw .notImpl)
  | [], c, s, s', e, h => by simp [runEach] at h
  | t :: ts, c, s, s', e, h => by
    rw [runEach] at h
    rcases QRes.next_some h with h | ⟨s₂, -, h⟩
    · rcases run_some hpol t c s s' e h with ⟨h1, h2⟩ | h
      · exact Or.inl ⟨h1, fun hc => h2 (by rw [completeAll] at hc; exact hc.1)⟩
      · exact Or.inr h
    · rcases runEach_some hpol ts c s₂ s' e h with ⟨h1, h2⟩ | h
      · exact Or.inl ⟨h1, fun hc => h2 (by rw [completeAll] at hc; exact hc.2)⟩
      · exact Or.inr h

end

theorem runQuery_raw {env : QEnv} {q : QQuery} {s s' : QSt} {e : QErr} (h : runQuery env q s = (some e, s')) : ∃ r, e = .raw r := by
  simp only [runQuery, Prod.mk.injEq, Option.map_eq_some_iff] at h
  obtain ⟨⟨r, -, rfl⟩, -⟩ := h
  exact ⟨r, rfl⟩

theorem runPy_raw {env : QEnv} {t : QTree} {s s' : QSt} {e : QErr} (h : runPy env t s = (some e, s')) : ∃ r, e = .raw r := by
  simp only [runPy, Prod.mk.injEq, Option.map_eq_some_iff] at h
  obtain ⟨⟨r, -, rfl⟩, -⟩ := h
  exact ⟨r, rfl⟩

mutual

theorem run_plain {env : QEnv} {mode : SqlModeArg} :
    ∀ (t : QTree) (c : RunCtx) (s s' : QSt) (e : QErr), t.plain → t.run env mode c s = (some e, s') → ∃ r, e = .raw r
  | .leaf n own, c, s, s', e, _, h => by
    rw [QTree.run] at h
    have h := withCache_some h
    cases own
    · simp only [Bool.false_eq_true, if_false, Prod.mk.injEq, Option.some.injEq] at h
      exact ⟨_, h.1.symm⟩
    · rcases QRes.next_some h with h | ⟨s₂, -, h⟩
      · exact runQuery_raw h
      · exact runPy_raw h
  | .node own wh extra cs, c, s, s', e, hp, h => by
    rw [QTree.run] at h
    have h := withCache_some h
    have mix : ∀ a, (runEach env mode cs (c.enter wh extra) a).next (runPy env (.node own wh extra cs)) = (some e, s') → ∃ r, e = .raw r := by
      intro a h
      rcases QRes.next_some h with h | ⟨s₂, -, h⟩
      · exact runEach_plain cs _ _ _ _ (by simpa [QTree.plain] using hp) h
      · exact runPy_raw h
    unfold sqlOrMixed at h
    split at h
    · split at h
      · exact mix _ h
      · rcases QRes.next_some h with h | ⟨s₂, -, h⟩
        · exact runQuery_raw h
        · exact runPy_raw h
    · exact mix _ h
  | .model _ _ _ _, _, _, _, _, hp, _ => by simp [QTree.plain] at hp
  | .ci _ _ _ _ _ _, _, _, _, _, hp, _ => by simp [QTree.plain] at hp

theorem runEach_plain {env : QEnv} {mode : SqlModeArg} :
    ∀ (ts : List QTree) (c : RunCtx) (s s' : QSt) (e : QErr), plainAll ts → runEach env mode ts c s = (some e, s') → ∃ r, e = .raw r
  | [], c, s, s', e, _, h => by simp [runEach] at h
  | t :: ts, c, s, s', e, hp, h => by
    rw [plainAll] at hp
    rw [runEach] at h
    rcases QRes.next_some h with h | ⟨s₂, -, h⟩
    · exact run_plain t c s s' e hp.1 h
    · exact runEach_plain ts c s₂ s' e hp.2 h

end

/-! ## The claim -/

theorem start_pre (env : QEnv) (mode : SqlModeArg) (n : ℕ) : QPre env mode n ⟨[], []⟩ :=
  ⟨List.nodup_nil, fun k hk => by simp at hk, fun q hq => by simp at hq⟩

theorem computeOnSql_none {env : QEnv} {mode : SqlModeArg} {t : QTree} {split : List String} {tr : List QQuery} (hpol : Polite env)
    (h : computeOnSql env mode t split = (none, tr)) :
    tr.Nodup ∧ ∀ q, q ∈ tr ↔ promised env mode t ⟨[], split, []⟩ q := by
  unfold computeOnSql at h
  split at h
  · simp at h
  · rename_i hm
    simp only [Prod.mk.injEq] at h
    have hr : t.run env mode ⟨[], split, []⟩ ⟨[], []⟩ = (none, (t.run env mode ⟨[], split, []⟩ ⟨[], []⟩).2) := Prod.ext h.1 rfl
    have p := run_none hpol t _ _ _ (start_pre env mode _) hr
    rw [← h.2]
    refine ⟨p.nodup, fun q => ?_⟩
    rw [p.mem, mem_asked hm]
    simp

/-- **C89**, what is run. When `execute` raises no NotImplementedError and `compute_on_sql` succeeds, then, for any metric, any mode, any
split and whatever `execute` returns: a query was run if and only if the mode promises it, and none was run twice. -/
theorem C89_queries (env : QEnv) (mode : SqlModeArg) (t : QTree) (split : List String) (tr : List QQuery) (hpol : Polite env)
    (h : computeOnSql env mode t split = (none, tr)) :
    tr.Nodup ∧ ∀ q, q ∈ tr ↔ promised env mode t ⟨[], split, []⟩ q :=
  computeOnSql_none hpol h

/-- **C89**, one query. A metric that can be computed in SQL is computed by exactly one query in the default mode. -/
theorem C89_one_query (env : QEnv) (t : QTree) (split : List String) (tr : List QQuery) (hpol : Polite env) (hs : t.oneQuery)
    (h : computeOnSql env .none t split = (none, tr)) : tr = [⟨t, ⟨[], split, []⟩, .metric⟩] := by
  obtain ⟨hn, hq⟩ := computeOnSql_none hpol h
  have key : ∀ q, q ∈ tr ↔ q = ⟨t, ⟨[], split, []⟩, .metric⟩ := by
    intro q
    rw [hq, promised_iff, QQuery.ext_iff']
    simp [stopOf, wants, (hasSql_iff t).2 hs]
  have hp : tr.Perm [⟨t, ⟨[], split, []⟩, .metric⟩] := by
    rw [List.perm_ext_iff_of_nodup hn (List.nodup_singleton _)]
    intro q
    rw [key]
    simp
  exact List.perm_singleton.mp hp

/-- **C89**, the mode. An unknown mode runs no query and is reported as such. -/
theorem C89_unknown_mode (env : QEnv) (t : QTree) (split : List String) :
    ∃ e, computeOnSql env .other t split = (some e, []) ∧ e.cause = .badMode := by
  refine ⟨badModeErr .other t, rfl, ?_⟩
  cases t <;> rfl

/-- **C89**, the cause. When `execute` raises no NotImplementedError and `compute_on_sql` fails, either something in the metric has no SQL, and
NotImplementedError says so; or the error at the end of the chain of causes is the one raised by the last query that was run, or the
one raised by the Python code of a metric after the last query. So nothing is run after an error and no error is hidden. -/
theorem C89_cause (env : QEnv) (mode : SqlModeArg) (t : QTree) (split : List String) (tr : List QQuery) (e : QErr) (hpol : Polite env)
    (hm : mode ≠ .other) (h : computeOnSql env mode t split = (some e, tr)) :
    (e = .raw .notImpl ∧ ¬t.complete (decide (mode = .magic))) ∨
      (∃ tr' q r, tr = tr' ++ [q] ∧ env.exec tr' q = some r ∧ e.cause = .raw r) ∨
      ∃ u r, env.py u tr = some r ∧ e.cause = .raw r := by
  unfold computeOnSql at h
  rw [if_neg hm] at h
  simp only [Prod.mk.injEq] at h
  have hr : t.run env mode ⟨[], split, []⟩ ⟨[], []⟩ = (some e, (t.run env mode ⟨[], split, []⟩ ⟨[], []⟩).2) := Prod.ext h.1 rfl
  rcases run_some hpol t _ _ _ _ hr with h1 | ⟨h1, -⟩
  · exact Or.inl h1
  · rw [h.2] at h1
    exact Or.inr h1

/-- **C89**, the advice. An error of a model or of a Jackknife or Bootstrap that is not NotImplementedError is a ValueError with
advice: the mode to try is never the one that failed. Metrics without them pass errors on as they are. -/
theorem C89_advice (env : QEnv) (mode : SqlModeArg) (t : QTree) (split : List String) (tr : List QQuery) (e : QErr) (hm : mode ≠ .other)
    (h : computeOnSql env mode t split = (some e, tr)) :
    (t.plain → ∃ r, e = .raw r) ∧
    (∀ wh group magic u, t = .model wh group magic u → e ≠ .raw .notImpl →
      ∃ e', e = .wrapped (if mode = .magic then .tryMixed else .tryMagic) e') ∧
    (∀ own boot conf wh u, t = .ci own boot conf wh none u → e ≠ .raw .notImpl → ∃ e', e = .wrapped .tryBatch e') ∧
    ∀ own boot conf wh b u, t = .ci own boot conf wh (some b) u → e ≠ .raw .notImpl → ∃ e', e = .wrapped (.reduceBatch b) e' := by
  unfold computeOnSql at h
  rw [if_neg hm] at h
  simp only [Prod.mk.injEq] at h
  have hr : t.run env mode ⟨[], split, []⟩ ⟨[], []⟩ = (some e, (t.run env mode ⟨[], split, []⟩ ⟨[], []⟩).2) := Prod.ext h.1 rfl
  refine ⟨fun hp => run_plain t _ _ _ _ hp hr, ?_, ?_, ?_⟩
  · rintro wh group magic u rfl hne
    rw [QTree.run] at hr
    rcases rewrap_some (withCache_some hr) with ⟨h', -⟩ | ⟨e', -, h', -⟩
    · exact absurd h' hne
    · exact ⟨e', h'⟩
  · rintro own boot conf wh u rfl hne
    rw [QTree.run] at hr
    rcases rewrap_some (withCache_some hr) with ⟨h', -⟩ | ⟨e', -, h', -⟩
    · exact absurd h' hne
    · exact ⟨e', h'⟩
  · rintro own boot conf wh b u rfl hne
    rw [QTree.run] at hr
    rcases rewrap_some (withCache_some hr) with ⟨h', -⟩ | ⟨e', -, h', -⟩
    · exact absurd h' hne
    · exact ⟨e', h'⟩

/-! ## Beam -/

mutual

theorem asked_noBoot {env : QEnv} {mode : SqlModeArg} :
    ∀ (t : QTree) (c : RunCtx), t.noBoot → (∀ p ∈ c.samples, p.1 = false) → ∀ q ∈ t.asked env mode c, ∀ p ∈ q.ctx.samples, p.1 = false
  | .leaf n own, c, _, hc, q, hq => by
    rw [QTree.asked] at hq
    cases own <;> simp at hq
    rw [hq]
    exact hc
  | .node own wh extra cs, c, ht, hc, q, hq => by
    rw [QTree.asked] at hq
    split at hq
    · obtain rfl : q = _ := by simpa using hq
      exact hc
    · exact askedAll_noBoot cs (c.enter wh extra) (by simpa [QTree.noBoot] using ht) hc q hq
  | .model wh group magic t, c, ht, hc, q, hq => by
    rw [QTree.asked] at hq
    split at hq
    · obtain ⟨i, -, rfl⟩ := List.mem_map.mp hq
      exact hc
    · exact asked_noBoot t (c.enter wh group) (by simpa [QTree.noBoot] using ht) hc q hq
  | .ci own boot conf wh batch t, c, ht, hc, q, hq => by
    rw [QTree.asked] at hq
    obtain ⟨rfl, ht'⟩ : boot = false ∧ t.noBoot := by simpa [QTree.noBoot] using ht
    split at hq
    · obtain rfl : q = _ := by simpa using hq
      exact hc
    · simp only [Bool.false_eq_true, if_false, List.mem_append, List.mem_flatMap, List.mem_singleton] at hq
      rcases hq with (rfl | ⟨i, -, hq⟩) | hq
      · exact hc
      · refine asked_noBoot t ((c.enter wh []).sample false i) ht' ?_ q hq
        intro p hp
        rcases List.mem_append.mp hp with hp | hp
        · exact hc p hp
        · obtain rfl : p = _ := by simpa using hp
          rfl
      · exact asked_noBoot t (c.enter wh []) ht' hc q hq

theorem askedAll_noBoot {env : QEnv} {mode : SqlModeArg} :
    ∀ (ts : List QTree) (c : RunCtx), noBootAll ts → (∀ p ∈ c.samples, p.1 = false) →
      ∀ q ∈ askedAll env mode ts c, ∀ p ∈ q.ctx.samples, p.1 = false
  | [], c, _, _, q, hq => by simp [askedAll] at hq
  | t :: ts, c, ht, hc, q, hq => by
    rw [noBootAll] at ht
    rw [askedAll] at hq
    rcases List.mem_append.mp hq with hq | hq
    · exact asked_noBoot t c ht.1 hc q hq
    · exact askedAll_noBoot ts c ht.2 hc q hq

end

theorem text_eq {q : QQuery} (h : ∀ p ∈ q.ctx.samples, p.1 = false) : q.text = q := by
  obtain ⟨t, ⟨f, sp, sa⟩, w⟩ := q
  simp only [QQuery.text, QQuery.mk.injEq, RunCtx.mk.injEq, true_and, and_true]
  conv_rhs => rw [← List.map_id sa]
  refine List.map_congr_left fun p hp => ?_
  rw [h p hp]
  simp

/-- **C89**, Beam. `compute_on_beam` runs the queries of `compute_on_sql`, and succeeds when it does; an error keeps its cause, and in
the default mode, and only there, it comes with the advice to try the mixed mode. -/
theorem C89_beam (env : QEnv) (mode : SqlModeArg) (t : QTree) (split : List String) :
    (computeOnBeam env mode t split).2 = (computeOnSql env mode t split).2 ∧
    (computeOnBeam env mode t split).1.map QErr.cause = (computeOnSql env mode t split).1.map QErr.cause ∧
    (mode ≠ .none → computeOnBeam env mode t split = computeOnSql env mode t split) ∧
    (mode = .none → ∀ e, (computeOnBeam env mode t split).1 = some e → ∃ e', e = .wrapped .beamMixed e') := by
  unfold computeOnBeam
  rcases h : computeOnSql env mode t split with ⟨_ | e, tr⟩
  · simp
  · refine ⟨rfl, ?_, ?_, ?_⟩
    · by_cases hm : mode = .none <;> simp [hm, QErr.cause]
    · intro hm
      simp [hm]
    · intro hm e' he
      simp only [hm, if_true, Option.some.injEq] at he
      exact ⟨e, he.symm⟩

theorem zipIdx_labels {α β : Type} (g : α → β) (clock : ℕ → ℕ) (l : List α) (h : (l.map g).Nodup) (n : ℕ) :
    ((l.zipIdx n).map fun p => (clock p.2, g p.1)).Nodup := by
  have h2 : ((l.zipIdx n).map fun p => (clock p.2, g p.1)).map Prod.snd = l.map g := by
    rw [List.map_map]
    have : (Prod.snd ∘ fun p : α × ℕ => (clock p.2, g p.1)) = g ∘ Prod.fst := rfl
    rw [this, ← List.map_map, List.zipIdx_map_fst]
  exact List.Nodup.of_map _ (h2 ▸ h)

/-- **C89**, the labels. Apache Beam accepts a label only once in a pipeline. The steps of one call of `compute_on_beam` have different labels even
if the clock stands still or is set back, when there is no Bootstrap in the metric. -/
theorem C89_labels_partial (env : QEnv) (mode : SqlModeArg) (t : QTree) (split : List String) (tr : List QQuery) (clock : ℕ → ℕ)
    (hpol : Polite env) (hb : t.noBoot) (h : computeOnBeam env mode t split = (none, tr)) : (beamLabels clock tr).Nodup := by
  have h' : computeOnSql env mode t split = (none, tr) := by
    unfold computeOnBeam at h
    rcases hc : computeOnSql env mode t split with ⟨_ | e, tr'⟩ <;> rw [hc] at h <;> simp at h
    rw [h]
  have hm : mode ≠ .other := by
    rintro rfl
    simp [computeOnSql] at h'
  obtain ⟨hn, hq⟩ := computeOnSql_none hpol h'
  refine zipIdx_labels QQuery.text clock tr ?_ 0
  have : tr.map QQuery.text = tr := by
    conv_rhs => rw [← List.map_id tr]
    refine List.map_congr_left fun q hqt => text_eq ?_
    exact asked_noBoot t _ hb (by simp) q ((mem_asked hm t _ q).2 ((hq q).1 hqt))
  rw [this]
  exact hn

/-! ## Examples and violations -/

/-- A database that answers everything; three resamples. -/
def calmEnv : QEnv := ⟨fun _ _ => none, fun _ _ => none, fun _ _ => 3⟩

theorem calmEnv_polite : Polite calmEnv := ⟨fun _ _ h => by simp [calmEnv] at h, fun _ _ h => by simp [calmEnv] at h⟩

/-- A list of two sums and a ratio of the second with a count, with a filter. -/
def exList : QTree :=
  .node true ["x > 0"] [] [.leaf 0 true, .leaf 1 true, .node true [] [] [.leaf 1 true, .leaf 2 true]]

/-- A model on that, split by its own columns, in a Jackknife with a confidence level. -/
def exJack : QTree := .ci true false true [] none (.model [] ["grp"] (some 1) exList)

-- the whole list in one query; three leaves in the mixed mode, the shared one once
example : (computeOnSql calmEnv .none exList ["country"]).2.length = 1 := by decide +kernel
example : (computeOnSql calmEnv .mixed exList ["country"]).1 = none ∧
    (computeOnSql calmEnv .mixed exList ["country"]).2 =
      [0, 1, 2].map fun n => ⟨.leaf n true, ⟨[["x > 0"]], ["country"], []⟩, .metric⟩ := by decide +kernel
-- the units, and on each of the resamples and on the data one query
example : (computeOnSql calmEnv .none exJack []).1 = none ∧ (computeOnSql calmEnv .none exJack []).2.length = 5 ∧
    (computeOnSql calmEnv .mixed exJack []).2.length = 13 ∧
    (computeOnSql calmEnv .magic exJack []).2.map QQuery.what = [.units, .stats 0, .stats 0, .stats 0, .stats 0] := by decide +kernel

/-- The second query fails. -/
def failSecond : QEnv := ⟨fun tr _ => if tr.length = 1 then some (.other 7) else none, fun _ _ => none, fun _ _ => 3⟩

example : Polite failSecond :=
  ⟨fun tr _ h => by by_cases hl : tr.length = 1 <;> simp [failSecond, hl] at h, fun _ _ h => by simp [failSecond] at h⟩

example : computeOnSql failSecond .mixed exJack [] =
    (some (.wrapped .tryBatch (.wrapped .tryMagic (.raw (.other 7)))), (computeOnSql failSecond .mixed exJack []).2) ∧
    (computeOnSql failSecond .mixed exJack []).2.length = 2 := by decide +kernel

example : computeOnBeam failSecond .none exJack [] =
    (some (.wrapped .beamMixed (.wrapped .tryBatch (.wrapped .tryMagic (.raw (.other 7))))), (computeOnSql failSecond .none exJack []).2) := by
  decide +kernel

/-- The first query raises NotImplementedError, as a database client does for a type it does not support. -/
def notImplFirst : QEnv := ⟨fun tr _ => if tr = [] then some .notImpl else none, fun _ _ => none, fun _ _ => 3⟩

/-- **C89** does not hold when `execute` raises NotImplementedError: the error is swallowed, the call succeeds, and the queries of the
mixed mode are run, which the default mode does not promise for a metric that has a query of its own. -/
theorem C89_swallowed_violation :
    exList.oneQuery ∧ notImplFirst.exec [] ⟨exList, ⟨[], [], []⟩, .metric⟩ = some .notImpl ∧
    (computeOnSql notImplFirst .none exList []).1 = none ∧ (computeOnSql notImplFirst .none exList []).2.length = 4 ∧
    ∃ q ∈ (computeOnSql notImplFirst .none exList []).2, ¬promised notImplFirst .none exList ⟨[], [], []⟩ q := by
  refine ⟨(hasSql_iff _).1 (by decide +kernel), by decide +kernel, by decide +kernel, by decide +kernel,
    ⟨.leaf 0 true, ⟨[["x > 0"]], [], []⟩, .metric⟩, by decide +kernel, ?_⟩
  rw [promised_iff]
  rintro (⟨h, -⟩ | ⟨h, -⟩)
  · exact absurd h (by decide +kernel)
  · exact h (by change exList.hasSql = true; decide +kernel)

/-- **C89** does not hold for the labels of a Bootstrap: its batches are the same query, so the labels differ only by the time. -/
theorem C89_labels_violation :
    ∃ (t : QTree) (tr : List QQuery), computeOnBeam calmEnv .mixed t [] = (none, tr) ∧ ¬(beamLabels (fun _ => 0) tr).Nodup :=
  ⟨.ci true true false [] (some 10) (.leaf 0 true), _, rfl, by decide +kernel⟩

end Verif
