import Verif.Model.LogitMissing
import Verif.Props.LogisticUser
import Verif.Props.SuffMissing

/-!
# C94 for logistic regressions

/repo/models.py:1031-1257.
-/

namespace Verif

open Finset

theorem full_none {k : ℕ} {r : RegRowO} (h : r.full k = none) : r.y = none ∨ ∃ i < k, r.x i = none := by
  rw [RegRowO.full] at h
  split at h
  · split at h
    · exact absurd h (by simp)
    · rename_i ha
      simp only [List.all_eq_true, List.mem_range, not_forall] at ha
      obtain ⟨i, hi, hx⟩ := ha
      exact Or.inr ⟨i, hi, by simpa using hx⟩
  · left; assumption

theorem mapM_some_of {α β : Type} {f : α → Option β} {g : α → β} {l : List α} (h : ∀ a ∈ l, f a = some (g a)) : l.mapM f = some (l.map g) := by
  induction l with
  | nil => rfl
  | cons a l ih => rw [List.mapM_cons, h a (by simp), ih fun b hb => h b (by simp [hb])]; rfl

theorem mapM_none_of {α β : Type} {f : α → Option β} {l : List α} {a : α} (ha : a ∈ l) (h : f a = none) : l.mapM f = none := by
  induction l with
  | nil => simp at ha
  | cons b l ih =>
    rw [List.mapM_cons]
    rcases List.mem_cons.1 ha with rfl | ha
    · rw [h]; rfl
    · rw [ih ha]; cases f b <;> rfl

theorem xsO_full {m : LogitCfg} {r : RegRowO} {s : RegRow} (h : r.full m.k = some s) (i : ℕ) : m.xsO r i = some (m.xs s i) := by
  unfold LogitCfg.xsO LogitCfg.xs
  split
  · exact (full_some h).2 i (by assumption)
  · rfl

theorem zO_full {m : LogitCfg} {r : RegRowO} {s : RegRow} (h : r.full m.k = some s) (c : ℕ → ℝ) : m.zO c r = some (m.z c s) := by
  unfold LogitCfg.zO LogitCfg.z
  rw [mapM_some_of (g := fun i => c i * m.xs s i) fun i _ => by rw [xsO_full h]; rfl]
  rfl

theorem zO_none {m : LogitCfg} {r : RegRowO} (h : ∃ i < m.k, r.x i = none) (c : ℕ → ℝ) : m.zO c r = none := by
  obtain ⟨i, hi, hx⟩ := h
  have hkn : m.k ≤ m.n := by unfold LogitCfg.n; split <;> omega
  unfold LogitCfg.zO
  rw [mapM_none_of (a := i) (by simp; omega) (by simp [LogitCfg.xsO, hi, hx, nullMul])]
  rfl

/-- The rows that count for the gradient are the complete ones. -/
theorem filterMap_grad (m : LogitCfg) (rows : List RegRowO) (c : ℕ → ℝ) (i : ℕ) :
    rows.filterMap (fun r => nullMul (m.xsO r i) (sigMinusBO (m.zO c r) r.y)) =
      (fullRows m.k rows).map fun r => m.xs r i * sigMinusB (m.z c r) r.y := by
  induction rows with
  | nil => rfl
  | cons r rows ih =>
    cases e : r.full m.k with
    | none =>
      have : nullMul (m.xsO r i) (sigMinusBO (m.zO c r) r.y) = none := by
        rcases full_none e with h | h
        · rw [h]; cases m.xsO r i <;> cases m.zO c r <;> rfl
        · rw [zO_none h]; cases m.xsO r i <;> rfl
      rw [fullRows, List.filterMap_cons_none (f := fun r => nullMul (m.xsO r i) (sigMinusBO (m.zO c r) r.y)) this, List.filterMap_cons_none e, ih]; rfl
    | some s =>
      rw [fullRows, List.filterMap_cons_some (f := fun r => nullMul (m.xsO r i) (sigMinusBO (m.zO c r) r.y)) (b := m.xs s i * sigMinusB (m.z c s) s.y)
        (by rw [xsO_full e, zO_full e, (full_some e).1]; rfl), List.filterMap_cons_some e, List.map_cons, ih]; rfl

/-- The configuration whose gradient over the complete rows the query computes: `C` times the number of rows over that of complete rows. -/
noncomputable def LogitCfg.scaled (m : LogitCfg) (rows : List RegRowO) : LogitCfg :=
  { m with l2C := m.l2C.map fun C => C * rows.length / (fullRows m.k rows).length }

theorem gradColsO_eq (m : LogitCfg) (rows : List RegRowO) (hne : fullRows m.k rows ≠ []) (c : ℕ → ℝ) :
    (m.gradColsO rows c).mapM id = some ((m.scaled rows).gradCols (fullRows m.k rows) c) := by
  have hM : ((fullRows m.k rows).length : ℝ) ≠ 0 := by
    have := List.length_pos_iff.2 hne
    positivity
  rw [LogitCfg.gradColsO, List.mapM_map, mapM_some_of]
  · rfl
  · intro i _
    simp only [Function.comp_def, id]
    rw [avgNull_of (filterMap_grad m rows c i) hne]
    simp only [Option.map_some, Option.some.injEq]
    congr 1
    unfold LogitCfg.scaled
    cases m.l2C with
    | none => rfl
    | some C =>
      simp only [Option.map_some]
      split
      · rw [div_div, div_div]
        congr 1
        field_simp
      · rfl

theorem gradColsO_none (m : LogitCfg) (hk : 0 < m.k) (rows : List RegRowO) (hne : fullRows m.k rows = []) (c : ℕ → ℝ) :
    (m.gradColsO rows c).mapM id = none := by
  have hn : 0 < m.n := m.n_pos hk
  rw [LogitCfg.gradColsO, List.mapM_map, mapM_none_of (a := 0) (by simpa using hn)]
  simp only [Function.comp_def, id]
  have : rows.filterMap (fun r => nullMul (m.xsO r 0) (sigMinusBO (m.zO c r) r.y)) = [] := by rw [filterMap_grad, hne]; rfl
  simp [avgNull, this]

/-- What one round returns when it does not move: the gradient over the complete rows vanishes. -/
theorem newtonO_rest (m : LogitCfg) (hk : 0 < m.k) (rows : List RegRowO) (c c' : ℕ → ℝ) (b : Bool)
    (h : m.newtonO rows 1 (c, false) = some (c', b)) (hrest : ∀ j < m.n, c' j = c j) :
    fullRows m.k rows ≠ [] ∧ ∀ i < m.n, ((m.scaled rows).gradCols (fullRows m.k rows) c).getD i 0 = 0 := by
  have hstep : m.newtonStepO rows (c, false) = some (c', b) := by
    rw [LogitCfg.newtonO] at h
    cases hs : m.newtonStepO rows (c, false) with
    | none => rw [hs] at h; cases h
    | some s => rw [hs] at h; exact h
  rw [LogitCfg.newtonStepO, if_neg (by simp)] at hstep
  by_cases hne : fullRows m.k rows = []
  · rw [gradColsO_none m hk rows hne] at hstep; cases hstep
  refine ⟨hne, ?_⟩
  rw [gradColsO_eq m rows hne] at hstep
  simp only [Option.bind_eq_bind, Option.bind_some, Option.bind_eq_some_iff, Option.pure_def, Option.some.injEq, Prod.mk.injEq] at hstep
  obtain ⟨h1, -, h2, -, delta, hd, he, -⟩ := hstep
  obtain ⟨hl, hsys, -⟩ := npSolve_spec hd
  have hn : h2.1 = m.n := by rw [← hl, LogitCfg.gradCols, List.length_map, List.length_range]; rfl
  intro i hi
  rw [← hsys i (by omega)]
  apply Finset.sum_eq_zero
  intro j hj
  have := hrest j (by have := mem_range.1 hj; omega)
  rw [← he] at this
  have h0 : delta j = 0 := by simpa using this
  rw [h0, mul_zero]

/-- The statistics by name. -/
noncomputable def SN.valO (rows : List RegRowO) : SN → Option ℝ
  | .x i => avgNull rows fun r => r.x i
  | .xx i j => avgNull rows fun r => nullMul (r.x i) (r.x j)
  | .y => avgNull rows fun r => r.y
  | .xy i => avgNull rows fun r => nullMul (r.x i) r.y
  | .n => some (rows.length : ℝ)

theorem suffStatsO_eq (k : ℕ) (fit nobs : Bool) (rows : List RegRowO) :
    suffStatsO k fit nobs rows = (suffSN k fit nobs).map fun s => (s.text, SN.valO rows s) := by
  cases fit <;> cases nobs <;> simp [suffStatsO, suffSN, SN.text, SN.valO, Function.comp_def]

theorem numbers_some {l : List SN} {v : SN → Option ℝ} {s : Series ℝ} (h : numbers (l.map fun n => (n.text, v n)) = some s) :
    s = l.map fun n => (n.text, (v n).getD 0) := by
  induction l generalizing s with
  | nil => cases h; rfl
  | cons a l ih =>
    rw [numbers, List.map_cons, List.mapM_cons] at h
    simp only [Option.bind_eq_bind, Option.bind_eq_some_iff, Option.map_eq_some_iff, Option.pure_def, Option.some.injEq] at h
    obtain ⟨p, ⟨x, hx, rfl⟩, t, ht, rfl⟩ := h
    have ht' := ih (s := t) ht
    rw [ht', List.map_cons, hx]
    rfl

theorem fistaConst_rowsO (maxEig : ℕ → (ℕ → ℕ → ℝ) → ℝ) (k : ℕ) (hk : 0 < k) (fit : Bool) (l1 l2 : ℝ) (rows : List RegRowO) (s : Series ℝ)
    (hs : numbers (suffStatsO k fit true rows) = some s) (a : FistaConst) (h : fistaConst maxEig fit l1 l2 s = some a) :
    (∃ n A, a.step = logitStep (maxEig n A)) ∧ a.l1 = l1 / rows.length ∧ a.l2 = l2 / rows.length := by
  obtain ⟨k', rfl⟩ : ∃ k', k = k' + 1 := ⟨k - 1, by omega⟩
  rw [suffStatsO_eq] at hs
  have hs := numbers_some hs
  subst hs
  have hN : SN.n ∈ suffSN (k' + 1) fit true := by simp [suffSN]
  have a2 := loc_suff [] (nodup_suffSN (k' + 1) fit true) (fun n => (SN.valO rows n).getD 0) [SN.n] (by simpa using hN) (by simp)
  rw [List.nil_append] at a2
  rw [show [SN.n].map SN.text = [nmN] from rfl] at a2
  rw [fistaConst, Series.at1, a2] at h
  simp only [Option.bind_eq_bind, Option.bind_eq_some_iff, Option.pure_def] at h
  obtain ⟨⟨⟨n, A⟩, rhs⟩, _, nObs, hn, h⟩ := h
  simp only [List.map_cons, List.map_nil, Option.some.injEq] at hn h
  subst hn
  subst h
  exact ⟨⟨n, A, rfl⟩, rfl, rfl⟩

/-- The number of rows over the number of complete rows. -/
noncomputable def missingFactor (k : ℕ) (rows : List RegRowO) : ℝ := rows.length / (fullRows k rows).length

theorem missingFactor_pos {k : ℕ} {rows : List RegRowO} (hne : fullRows k rows ≠ []) : 0 < missingFactor k rows := by
  have h1 := List.length_pos_iff.2 hne
  have h2 : 0 < rows.length := by
    rw [List.length_pos_iff]; rintro rfl; exact hne rfl
  unfold missingFactor
  positivity

/-- **C94.** If one iteration from some coefficients returns the same coefficients, what `LogisticRegression` returns on SQL minimises sklearn's
objective for the groups that have all the values: without a penalty exactly; with a penalty not for the given `C` but for `C` times the number
of groups over the number of those that have all the values. -/
theorem C94_logit_rest (u : LogitUser) (hk : 0 < u.k) (hC : 0 < u.c) (hratio : ∀ r, u.penalty = .elasticnet r → 0 ≤ r ∧ r ≤ 1)
    (maxEig : ℕ → (ℕ → ℕ → ℝ) → ℝ) (hEig : ∀ n A, 0 < maxEig n A) (rows : List RegRowO) (c out : ℕ → ℝ)
    (hrun : { u with maxIter := 1 }.sqlO maxEig rows c = some out)
    (hrest : ∀ j < u.cfg.n, out j = u.cfg.output c j) (b : ℝ) (w : ℕ → ℝ) (hb : u.fit = false → b = 0) :
    skLogit u.k u.penalty (u.c * missingFactor u.k rows) (fullRows u.k rows) (interceptOf u.fit out) (slopesOf u.fit out) ≤
      skLogit u.k u.penalty (u.c * missingFactor u.k rows) (fullRows u.k rows) b w := by
  set C' := u.c * missingFactor u.k rows with hC'
  have hn : ∀ c', (∀ j < u.cfg.n, c' j = c j) → lastIntercept u.k u.fit c' = lastIntercept u.k u.fit c := by
    intro c' h
    unfold lastIntercept
    cases hf : u.fit with
    | false => rfl
    | true =>
      simp only [if_true]
      apply h
      simp [LogitUser.cfg, LogitCfg.n, hf]
  have hkn : u.k ≤ u.cfg.n := by
    cases hf : u.fit <;> simp [LogitUser.cfg, LogitCfg.n, hf]
  have hout : ∀ c', out = u.cfg.output c' → ∀ j < u.cfg.n, c' j = c j := by
    rintro c' rfl
    exact output_eq u.cfg c c' hrest
  -- what is left to prove for the coefficients in the order of the code
  suffices key : fullRows u.k rows ≠ [] ∧ ∃ c' L1 L2, out = u.cfg.output c' ∧
      (∀ b w, skLogit u.k u.penalty C' (fullRows u.k rows) b w =
        (match u.penalty with | .none => 1 | _ => C') * logitObjective u.k L1 L2 (fullRows u.k rows) b w) ∧
      ∀ b w, (u.fit = false → b = 0) →
        logitObjective u.k L1 L2 (fullRows u.k rows) (lastIntercept u.k u.fit c) c ≤ logitObjective u.k L1 L2 (fullRows u.k rows) b w by
    obtain ⟨hne, c', L1, L2, ho, hsk, hmin⟩ := key
    have hcc := hout c' ho
    have h1 : interceptOf u.fit out = lastIntercept u.k u.fit c := by
      rw [ho, ← hn c' hcc]; exact output_intercept u.cfg c'
    have h2 : slopesOf u.fit out = c' := by rw [ho]; exact output_slopes u.cfg c'
    rw [hsk, hsk, h1, h2, logitObjective_congr u.k L1 L2 _ _ (w := c') (w' := c) fun i hi => hcc i (by omega)]
    apply mul_le_mul_of_nonneg_left (hmin b w hb)
    have := missingFactor_pos hne
    split
    · norm_num
    · positivity
  have hN : fullRows u.k rows ≠ [] → ((fullRows u.k rows).length : ℝ) ≠ 0 ∧ (rows.length : ℝ) ≠ 0 := by
    intro hne
    have h1 := List.length_pos_iff.2 hne
    have h2 : 0 < rows.length := by
      rw [List.length_pos_iff]; rintro rfl; exact hne rfl
    exact ⟨by positivity, by positivity⟩
  have hnewton : ∀ L2, 0 ≤ L2 → (fullRows u.k rows ≠ [] → (u.cfg.scaled rows).strength = L2) →
      (({ u with maxIter := 1 } : LogitUser).cfg.newtonO rows 1 (c, false)).map (fun r => u.cfg.output r.1) = some out →
      fullRows u.k rows ≠ [] ∧ ∃ c', out = u.cfg.output c' ∧ ∀ b w, (u.fit = false → b = 0) →
        logitObjective u.k 0 L2 (fullRows u.k rows) (lastIntercept u.k u.fit c) c ≤ logitObjective u.k 0 L2 (fullRows u.k rows) b w := by
    intro L2 hL0 hL h
    simp only [Option.map_eq_some_iff] at h
    obtain ⟨r, hr, h⟩ := h
    have hr1 : u.cfg.newtonO rows 1 (c, false) = some (r.1, r.2) := hr
    obtain ⟨hne, hz⟩ := newtonO_rest u.cfg hk rows c r.1 r.2 hr1 (hout _ h.symm)
    refine ⟨hne, r.1, h.symm, fun b w hb => ?_⟩
    have hst := hL hne
    have := grad_zero_min (u.cfg.scaled rows) (rows := fullRows u.k rows) hne (by rw [hst]; exact hL0) c hz b w hb
    rw [hst] at this
    exact this
  have hfista : ∀ L1 L2, 0 ≤ L1 → 0 ≤ L2 → u.cfg.l2C = .none → (do
        let s ← numbers (suffStatsO u.k u.fit true rows)
        let a ← fistaConst maxEig u.fit L1 L2 s
        let r ← ({ u with maxIter := 1 } : LogitUser).cfg.fistaO rows a 1 0 ⟨c, c, fun _ => 0, false⟩
        return ({ u with maxIter := 1 } : LogitUser).cfg.output r.coef) = some out →
      fullRows u.k rows ≠ [] ∧ ∃ c', out = u.cfg.output c' ∧ ∀ b w, (u.fit = false → b = 0) →
        logitObjective u.k (L1 / missingFactor u.k rows) (L2 / missingFactor u.k rows) (fullRows u.k rows) (lastIntercept u.k u.fit c) c ≤
          logitObjective u.k (L1 / missingFactor u.k rows) (L2 / missingFactor u.k rows) (fullRows u.k rows) b w := by
    intro L1 L2 h1 h2 hl h
    simp only [Option.bind_eq_bind, Option.bind_eq_some_iff, Option.pure_def, Option.some.injEq] at h
    obtain ⟨s, hs, a, ha, r, hr, h⟩ := h
    obtain ⟨⟨n, A, hstep⟩, e1, e2⟩ := fistaConst_rowsO maxEig u.k hk u.fit L1 L2 rows s hs a ha
    have hr1 : u.cfg.fistaO rows a 1 0 ⟨c, c, fun _ => 0, false⟩ = some r := hr
    have hmom : (⟨c, c, fun _ => 0, false⟩ : FistaSlice).momentum 0 = ⟨c, c, fun _ => 0, false⟩ := by
      simp [FistaSlice.momentum]
    rw [LogitCfg.fistaO, if_neg (by simp)] at hr1
    simp only [hmom] at hr1
    by_cases hne : fullRows u.k rows = []
    · rw [gradColsO_none u.cfg hk rows hne] at hr1; cases hr1
    refine ⟨hne, r.coef, h.symm, fun b w hb => ?_⟩
    rw [gradColsO_eq u.cfg rows hne] at hr1
    simp only [Option.bind_eq_bind, Option.bind_some, LogitCfg.fistaO, Option.some.injEq] at hr1
    have hsc : u.cfg.scaled rows = u.cfg := by
      rw [LogitCfg.scaled, hl, Option.map_none, ← hl]
    rw [hsc] at hr1
    obtain ⟨hM, hNr⟩ := hN hne
    have hf := missingFactor_pos hne
    have hap : a = ⟨a.step, L1 / missingFactor u.k rows / (fullRows u.k rows).length, L2 / missingFactor u.k rows / (fullRows u.k rows).length⟩ := by
      have q1 : L1 / missingFactor u.k rows / (fullRows u.k rows).length = a.l1 := by
        rw [e1, missingFactor]; field_simp
      have q2 : L2 / missingFactor u.k rows / (fullRows u.k rows).length = a.l2 := by
        rw [e2, missingFactor]; field_simp
      rw [q1, q2]
    have hpos : 0 < a.step := by
      rw [hstep, logitStep]
      have := hEig n A
      positivity
    refine C61_fista_rest u.cfg hl (L1 / missingFactor u.k rows) (L2 / missingFactor u.k rows) (by positivity) (by positivity)
      (fullRows u.k rows) hne a.step hpos ⟨c, c, fun _ => 0, false⟩ rfl (fun _ _ => rfl) ?_ b w hb
    rw [← hap]
    intro j hj
    have := hout _ h.symm j hj
    rw [← hr1] at this
    exact this
  rw [LogitUser.sqlO] at hrun
  cases hp : u.penalty with
  | none =>
    simp only [hp] at hrun
    obtain ⟨hne, c', h1, h3⟩ := hnewton 0 le_rfl (fun _ => by simp [LogitCfg.strength, LogitCfg.scaled, LogitUser.cfg, hp]) (by rw [hp]; exact hrun)
    exact ⟨hne, c', 0, 0, h1, fun b w => by simp [skLogit, logitObjective], h3⟩
  | l2 =>
    simp only [hp] at hrun
    have hC0 : fullRows u.k rows ≠ [] → 0 < C' := fun hne => mul_pos hC (missingFactor_pos hne)
    have hpos : 0 ≤ 1 / C' := by
      by_cases hne : fullRows u.k rows = []
      · simp [hC', missingFactor, hne]
      · have := hC0 hne; positivity
    obtain ⟨hne, c', h1, h3⟩ := hnewton (1 / C') hpos
      (fun _ => by simp [LogitCfg.strength, LogitCfg.scaled, LogitUser.cfg, hp, hC', missingFactor]; ring) (by rw [hp]; exact hrun)
    refine ⟨hne, c', 0, 1 / C', h1, fun b w => ?_, h3⟩
    have := hC0 hne
    simp only [skLogit, logitObjective]
    field_simp
    ring
  | l1 =>
    simp only [hp] at hrun
    obtain ⟨hne, c', h1, h3⟩ := hfista (1 / u.c) ((1 - 1) / u.c) (by positivity) (by simp) (by simp [LogitUser.cfg, hp]) (by rw [hp]; exact hrun)
    refine ⟨hne, c', _, _, h1, fun b w => ?_, h3⟩
    have := missingFactor_pos hne
    simp only [skLogit, logitObjective, hC']
    field_simp
    ring
  | elasticnet ratio =>
    simp only [hp] at hrun
    obtain ⟨hr0, hr1⟩ := hratio ratio hp
    obtain ⟨hne, c', h1, h3⟩ := hfista (ratio / u.c) ((1 - ratio) / u.c) (by positivity) (div_nonneg (by linarith) hC.le)
      (by simp [LogitUser.cfg, hp]) (by rw [hp]; exact hrun)
    refine ⟨hne, c', _, _, h1, fun b w => ?_, h3⟩
    have := missingFactor_pos hne
    simp only [skLogit, logitObjective, hC']
    field_simp
    ring

/-- **C94.** Without a penalty, coefficients at rest are those of a logistic regression on the groups that have all the values. -/
theorem C94_logit_partial (u : LogitUser) (hk : 0 < u.k) (hC : 0 < u.c) (hp : u.penalty = .none)
    (maxEig : ℕ → (ℕ → ℕ → ℝ) → ℝ) (hEig : ∀ n A, 0 < maxEig n A) (rows : List RegRowO) (c out : ℕ → ℝ)
    (hrun : { u with maxIter := 1 }.sqlO maxEig rows c = some out)
    (hrest : ∀ j < u.cfg.n, out j = u.cfg.output c j) (b : ℝ) (w : ℕ → ℝ) (hb : u.fit = false → b = 0) :
    skLogit u.k .none u.c (fullRows u.k rows) (interceptOf u.fit out) (slopesOf u.fit out) ≤ skLogit u.k .none u.c (fullRows u.k rows) b w := by
  have := C94_logit_rest u hk hC (by rw [hp]; simp) maxEig hEig rows c out hrun hrest b w hb
  rw [hp] at this
  exact this

/-- **C94.** There is no result when no group has all the values. -/
theorem C94_logit_nothing (u : LogitUser) (hk : 0 < u.k) (hit : 0 < u.maxIter) (maxEig : ℕ → (ℕ → ℕ → ℝ) → ℝ) (rows : List RegRowO)
    (h : ∀ r ∈ rows, r.y = none ∨ ∃ i < u.k, r.x i = none) (c : ℕ → ℝ) : u.sqlO maxEig rows c = none := by
  have hf : fullRows u.k rows = [] := by
    rw [fullRows, List.filterMap_eq_nil_iff]
    intro r hr
    cases e : r.full u.k with
    | none => rfl
    | some s =>
      rcases h r hr with h | ⟨i, hi, h⟩
      · rw [(full_some e).1] at h; cases h
      · rw [(full_some e).2 i hi] at h; cases h
  obtain ⟨f, hf'⟩ : ∃ f, u.maxIter = f + 1 := ⟨u.maxIter - 1, by omega⟩
  have hn : u.cfg.newtonO rows u.maxIter (c, false) = none := by
    rw [hf', LogitCfg.newtonO, LogitCfg.newtonStepO, if_neg (by simp), gradColsO_none u.cfg hk rows hf]
    rfl
  have hs : ∀ a, u.cfg.fistaO rows a u.maxIter 0 ⟨c, c, fun _ => 0, false⟩ = none := by
    intro a
    rw [hf', LogitCfg.fistaO, if_neg (by simp)]
    simp only [gradColsO_none u.cfg hk rows hf]
    rfl
  rw [LogitUser.sqlO]
  simp only [hn, hs]
  cases u.penalty <;> (try rfl) <;> (simp only [Option.bind_eq_bind, Option.bind_none, Option.bind_eq_none_iff]; intros; trivial)

theorem hessColsO_eq (m : LogitCfg) (hk : 0 < m.k) (rows : List RegRowO) (hrows : rows ≠ []) (h : ∀ r ∈ rows, r.full m.k ≠ none) (c : ℕ → ℝ) :
    m.hessColsO rows c = some (m.hessCols (fullRows m.k rows) c) := by
  have hne := fullRows_ne hrows h
  rw [LogitCfg.hessColsO, mapM_some_of (g := fun p => avg (fullRows m.k rows) fun r => m.xs r p.1 * m.xs r p.2 * sigW (m.z c r))]
  · rw [LogitCfg.hessCols, fullRows_length h]
    rfl
  · intro p _
    exact avgNull_of (filterMap_full h fun r s hs => by rw [xsO_full hs, xsO_full hs, zO_full hs]; rfl) hne

theorem scaled_full (m : LogitCfg) (rows : List RegRowO) (hrows : rows ≠ []) (h : ∀ r ∈ rows, r.full m.k ≠ none) : m.scaled rows = m := by
  have hl := fullRows_length h
  have hp : (rows.length : ℝ) ≠ 0 := by
    have := List.length_pos_iff.2 hrows
    positivity
  have : (m.l2C.map fun C : ℝ => C * (rows.length : ℝ) / (fullRows m.k rows).length) = m.l2C := by
    rw [← hl]
    cases m.l2C with
    | none => rfl
    | some C => simp [hp]
  rw [LogitCfg.scaled, this]

/-- **C94.** When no value is missing, the result over SQL is the one of `LogitUser.sql` on the rows, which C61 is about. -/
theorem C94_logit_complete (u : LogitUser) (hk : 0 < u.k) (maxEig : ℕ → (ℕ → ℕ → ℝ) → ℝ) (rows : List RegRowO) (hrows : rows ≠ [])
    (h : ∀ r ∈ rows, r.full u.k ≠ none) (c : ℕ → ℝ) : u.sqlO maxEig rows c = u.sql maxEig (fullRows u.k rows) c := by
  have hne := fullRows_ne hrows h
  have hg : ∀ c, (u.cfg.gradColsO rows c).mapM id = some (u.cfg.gradCols (fullRows u.k rows) c) := by
    intro c
    have := gradColsO_eq u.cfg rows hne c
    rw [scaled_full u.cfg rows hrows h] at this
    exact this
  have hstep : ∀ s, u.cfg.newtonStepO rows s = u.cfg.newtonStep (fullRows u.k rows) s := by
    intro s
    rw [LogitCfg.newtonStepO, LogitCfg.newtonStep]
    split
    · rfl
    · rw [hg, hessColsO_eq u.cfg hk rows hrows h]
      simp only [Option.bind_eq_bind, Option.bind_some, Option.pure_def]
      congr 1
      funext a
      cases npSolve a.1 a.2 (u.cfg.gradCols (fullRows u.k rows) s.1) <;> rfl
  have hnewton : ∀ f s, u.cfg.newtonO rows f s = u.cfg.newtonIter (fullRows u.k rows) f s := by
    intro f
    induction f with
    | zero => intro s; rfl
    | succ f ih =>
      intro s
      rw [LogitCfg.newtonO, LogitCfg.newtonIter, hstep]
      congr 1
      funext s
      exact ih s
  have hfista : ∀ a f i s, u.cfg.fistaO rows a f i s = some (u.cfg.fistaIter (fullRows u.k rows) a f i s) := by
    intro a f
    induction f with
    | zero => intro i s; rfl
    | succ f ih =>
      intro i s
      rw [LogitCfg.fistaO, LogitCfg.fistaIter]
      split
      · rfl
      · simp only [hg, Option.bind_eq_bind, Option.bind_some]
        exact ih _ _
  have hm : ((fullRows u.k rows).map fun r => ((), r)).map (·.2) = fullRows u.k rows := by
    rw [List.map_map, show ((·.2) ∘ fun r : RegRow => ((), r)) = id from rfl, List.map_id]
  have hN : u.cfg.newton ((fullRows u.k rows).map fun r => ((), r)) [] false [c] =
      (u.cfg.newtonO rows u.maxIter (c, false)).map fun s => [s] := by
    rw [LogitCfg.newton, List.map_cons, List.map_nil, newtonLoop_solo _ (LogitCfg.n_pos _ hk), hm, hnewton]
    rfl
  have hF : ∀ l1 l2, u.cfg.fista maxEig l1 l2 ((fullRows u.k rows).map fun r => ((), r)) [] false
        [((), suffStats u.k u.fit true (fullRows u.k rows))] [c] =
      (fistaConst maxEig u.fit l1 l2 (suffStats u.k u.fit true (fullRows u.k rows))).bind fun a =>
        (u.cfg.fistaO rows a u.maxIter 0 ⟨c, c, fun _ => 0, false⟩).map fun r => [(r.coef, r.conv)] := by
    intro l1 l2
    rw [LogitCfg.fista]
    simp only [Bool.false_eq_true, if_false, false_and]
    rw [List.mapM_cons]
    have e : u.cfg.fit = u.fit := rfl
    rw [e]
    cases fistaConst maxEig u.fit l1 l2 (suffStats u.k u.fit true (fullRows u.k rows)) with
    | none => rfl
    | some a =>
      simp only [List.mapM_nil, Option.bind_eq_bind, Option.bind_some, Option.pure_def, List.map_cons, List.map_nil]
      rw [fistaLoop_solo u.cfg _ a _ _ _ rfl, hm, hfista]
      rfl
  rw [LogitUser.sqlO, LogitUser.sql, numbers_complete u.k u.fit true rows hrows h]
  simp only [hN, hF]
  cases u.penalty with
  | none => cases u.cfg.newtonO rows u.maxIter (c, false) <;> rfl
  | l2 => cases u.cfg.newtonO rows u.maxIter (c, false) <;> rfl
  | l1 =>
    simp only [Option.bind_eq_bind, Option.bind_some]
    cases fistaConst maxEig u.fit (1 / u.c) ((1 - 1) / u.c) (suffStats u.k u.fit true (fullRows u.k rows)) with
    | none => rfl
    | some a => simp only [Option.bind_some]; cases u.cfg.fistaO rows a u.maxIter 0 ⟨c, c, fun _ => 0, false⟩ <;> rfl
  | elasticnet r =>
    simp only [Option.bind_eq_bind, Option.bind_some]
    cases fistaConst maxEig u.fit (r / u.c) ((1 - r) / u.c) (suffStats u.k u.fit true (fullRows u.k rows)) with
    | none => rfl
    | some a => simp only [Option.bind_some]; cases u.cfg.fistaO rows a u.maxIter 0 ⟨c, c, fun _ => 0, false⟩ <;> rfl

/-- **C94, violated.** With the `l2` penalty, if some group lacks a value and what is returned at rest are nevertheless the coefficients of the
logistic regression on the groups that have all the values, then they are all 0. -/
theorem C94_logit_l2_violation (u : LogitUser) (hk : 0 < u.k) (hC : 0 < u.c) (hp : u.penalty = .l2) (maxEig : ℕ → (ℕ → ℕ → ℝ) → ℝ)
    (rows : List RegRowO) (hmiss : ∃ r ∈ rows, r.y = none ∨ ∃ i < u.k, r.x i = none) (c out : ℕ → ℝ)
    (hrun : { u with maxIter := 1 }.sqlO maxEig rows c = some out) (hrest : ∀ j < u.cfg.n, out j = u.cfg.output c j)
    (hmin : ∀ b w, (u.fit = false → b = 0) →
      skLogit u.k .l2 u.c (fullRows u.k rows) (interceptOf u.fit out) (slopesOf u.fit out) ≤ skLogit u.k .l2 u.c (fullRows u.k rows) b w) :
    ∀ i < u.k, slopesOf u.fit out i = 0 := by
  rw [LogitUser.sqlO] at hrun
  simp only [hp] at hrun
  simp only [Option.map_eq_some_iff] at hrun
  obtain ⟨r, hr, ho⟩ := hrun
  have hcfg : ({ k := u.k, fit := u.fit, penalty := .l2, c := u.c, tol := u.tol, maxIter := 1 } : LogitUser).cfg =
      { u.cfg with maxIter := 1 } := by simp [LogitUser.cfg, hp]
  rw [hcfg] at hr ho
  have ho : out = u.cfg.output r.1 := ho.symm
  have hcc : ∀ j < u.cfg.n, r.1 j = c j := by
    subst ho
    exact output_eq u.cfg c r.1 hrest
  have hr1 : u.cfg.newtonO rows 1 (r.1, false) = u.cfg.newtonO rows 1 (r.1, false) := rfl
  obtain ⟨hne, hz⟩ := newtonO_rest { u.cfg with maxIter := 1 } hk rows c r.1 r.2 hr hcc
  have hne : fullRows u.k rows ≠ [] := hne
  have hkn : u.k ≤ u.cfg.n := by
    cases hf : u.fit <;> simp [LogitUser.cfg, LogitCfg.n, hf]
  have hst : u.cfg.strength = 1 / u.c := by simp [LogitCfg.strength, LogitUser.cfg, hp]
  have hint : interceptOf u.fit out = lastIntercept u.k u.fit r.1 := by rw [ho]; exact output_intercept u.cfg r.1
  have hsl : slopesOf u.fit out = r.1 := by rw [ho]; exact output_slopes u.cfg r.1
  have hlast : lastIntercept u.k u.fit r.1 = lastIntercept u.k u.fit c := by
    unfold lastIntercept
    cases hf : u.fit with
    | false => rfl
    | true =>
      simp only [if_true]
      apply hcc
      simp [LogitUser.cfg, LogitCfg.n, hf]
  have hsk : ∀ b w, skLogit u.k .l2 u.c (fullRows u.k rows) b w = u.c * logitObjective u.k 0 (1 / u.c) (fullRows u.k rows) b w := by
    intro b w
    simp only [skLogit, logitObjective]
    field_simp
    ring
  have hz2 := min_grad_zero u.cfg hne c (by
    intro c'
    rw [hst]
    have := hmin (lastIntercept u.k u.fit c') c' (by intro hf; simp [lastIntercept, hf])
    rw [hsk, hsk, hint, hsl, hlast, logitObjective_congr u.k 0 (1 / u.c) _ _ (w := r.1) (w' := c) fun i hi => hcc i (by omega)] at this
    exact le_of_mul_le_mul_left this hC)
  intro i hi
  rw [hsl, hcc i (by omega)]
  have a1 := hz i (by show i < u.cfg.n; omega)
  have a2 := hz2 i (by omega)
  have hlt : (fullRows u.k rows).length < rows.length := by
    rw [fullRows, List.length_filterMap_eq_countP]
    refine lt_of_le_of_ne List.countP_le_length fun he => ?_
    rw [List.countP_eq_length] at he
    obtain ⟨q, hq, hm⟩ := hmiss
    obtain ⟨s, hs⟩ := Option.isSome_iff_exists.1 (he q hq)
    rcases hm with hm | ⟨i, hi, hm⟩
    · rw [(full_some hs).1] at hm; cases hm
    · rw [(full_some hs).2 i hi] at hm; cases hm
  have hM : 0 < ((fullRows u.k rows).length : ℝ) := by
    have := List.length_pos_iff.2 hne
    positivity
  have hNM : ((fullRows u.k rows).length : ℝ) < rows.length := by exact_mod_cast hlt
  have hl2 : u.cfg.l2C = some u.c := by simp [LogitUser.cfg, hp]
  have hin : i < u.cfg.n := by omega
  have b1 : ((LogitCfg.scaled { u.cfg with maxIter := 1 } rows).gradCols (fullRows u.k rows) c).getD i 0 =
      avg (fullRows u.k rows) (fun r => u.cfg.xs r i * sigMinusB (u.cfg.z c r) r.y) +
        c i / (fullRows u.k rows).length / (u.c * rows.length / (fullRows u.k rows).length) := by
    rw [LogitCfg.gradCols, List.getD_eq_getElem?_getD, List.getElem?_map, List.getElem?_range (by exact hin), Option.map_some, Option.getD_some]
    simp only [LogitCfg.scaled, hl2, Option.map_some]
    rw [if_pos (show i < u.cfg.k from hi)]
    rfl
  have b2 : (u.cfg.gradCols (fullRows u.k rows) c).getD i 0 =
      avg (fullRows u.k rows) (fun r => u.cfg.xs r i * sigMinusB (u.cfg.z c r) r.y) + c i / (fullRows u.k rows).length / u.c := by
    rw [LogitCfg.gradCols, List.getD_eq_getElem?_getD, List.getElem?_map, List.getElem?_range (by exact hin), Option.map_some, Option.getD_some]
    simp only [hl2]
    rw [if_pos (show i < u.cfg.k from hi)]
  have a1' := b1.symm.trans a1
  rw [b2] at a2
  have hd : c i / (fullRows u.k rows).length / u.c = c i / (fullRows u.k rows).length / (u.c * rows.length / (fullRows u.k rows).length) := by
    linarith
  have hNr : 0 < (rows.length : ℝ) := by linarith
  field_simp at hd
  by_contra hci
  have : (rows.length : ℝ) = (fullRows u.k rows).length := by
    have h3 : c i * ((rows.length : ℝ) - (fullRows u.k rows).length) = 0 := by linarith
    rcases mul_eq_zero.1 h3 with h | h
    · exact absurd h hci
    · linarith
  linarith

/-- One feature and no intercept: coefficients with a vanishing gradient are at rest. -/
theorem rest_one (u : LogitUser) (hk : u.k = 1) (hf : u.fit = false) (hit : u.maxIter = 1) (hp : u.penalty = .none ∨ u.penalty = .l2)
    (rows : List RegRowO) (c : ℕ → ℝ) (hgrad : (u.cfg.gradColsO rows c).mapM id = some [0]) {h : ℝ} (hpos : 0 < h)
    (hh : u.cfg.hessColsO rows c = some [h]) :
    ∃ out, ({ u with maxIter := 1 } : LogitUser).sqlO (fun _ _ => 1) rows c = some out ∧ (∀ j < u.cfg.n, out j = u.cfg.output c j) ∧
      out 0 = c 0 := by
  have hsym : ∃ H, symmetrize [h] = some (1, H) ∧ H 0 0 = h := by
    obtain ⟨M, h1, h2⟩ := symmetrize_triu 1 fun _ _ => h
    exact ⟨M, h1, (h2 0 0 le_rfl (by norm_num)).1⟩
  obtain ⟨H, hH, hH0⟩ := hsym
  obtain ⟨delta, hd⟩ := npSolve_isSome (n := 1) (A := H) (b := [0]) rfl (by
    intro d hd j hj
    have := hd 0 (by norm_num)
    simp only [Finset.sum_range_one, hH0] at this
    interval_cases j
    rcases mul_eq_zero.1 this with h' | h'
    · exact absurd h' hpos.ne'
    · exact h')
  have hd0 : delta 0 = 0 := by
    have := (npSolve_spec hd).2.1 0 (by norm_num)
    simp only [Finset.sum_range_one, hH0] at this
    rcases mul_eq_zero.1 this with h' | h'
    · exact absurd h' hpos.ne'
    · exact h'
  have hn : u.cfg.n = 1 := by simp [LogitUser.cfg, LogitCfg.n, hk, hf]
  have hout : ∀ c', u.cfg.output c' 0 = c' 0 := by intro c'; simp [LogitUser.cfg, LogitCfg.output, hf]
  have hu : ({ u with maxIter := 1 } : LogitUser) = u := by rw [← hit]
  have hrun : ({ u with maxIter := 1 } : LogitUser).sqlO (fun _ _ => 1) rows c = some (u.cfg.output fun i => c i - delta i) := by
    rw [hu, LogitUser.sqlO]
    have key : ((u.cfg.newtonO rows u.maxIter (c, false)).map fun r => u.cfg.output r.1) = some (u.cfg.output fun i => c i - delta i) := by
      rw [hit, LogitCfg.newtonO, LogitCfg.newtonStepO, if_neg (by simp)]
      simp only [hgrad, hh, Option.bind_eq_bind, Option.bind_some, hH, hd, Option.pure_def, LogitCfg.newtonO, Option.map_some]
    rcases hp with hp | hp <;> simp only [hp] <;> exact key
  refine ⟨_, hrun, ?_, by rw [hout, hd0, sub_zero]⟩
  intro j hj
  have : j = 0 := by omega
  subst this
  rw [hout, hout, hd0, sub_zero]

/-- Three groups, the label of the last one missing. -/
def exLogitMissing : List RegRowO := [⟨some 1, fun _ => some 1⟩, ⟨some 0, fun _ => some 0⟩, ⟨none, fun _ => some 1⟩]

/-- `C` for which the slope 1 is at rest on these groups. -/
noncomputable def exLogitMissingC : ℝ := 2 / (3 * (1 - logistic 1))

/-- **C94, violated.** There are groups, a `C` and coefficients at rest that are not those of the logistic regression on the groups that have all
the values; sklearn refuses the same groups. -/
theorem C94_logit_violation : ∃ (u : LogitUser) (rows : List RegRowO) (c out : ℕ → ℝ), 0 < u.k ∧ 0 < u.c ∧ u.penalty = .l2 ∧
    { u with maxIter := 1 }.sqlO (fun _ _ => 1) rows c = some out ∧ (∀ j < u.cfg.n, out j = u.cfg.output c j) ∧
    (¬ ∀ b w, (u.fit = false → b = 0) →
      skLogit u.k .l2 u.c (fullRows u.k rows) (interceptOf u.fit out) (slopesOf u.fit out) ≤ skLogit u.k .l2 u.c (fullRows u.k rows) b w) ∧
    ∀ fitted, logitComputeO fitted u.k rows = none := by
  have hl0 := logistic_pos 1
  have hl1 := logistic_lt_one 1
  have hC : 0 < exLogitMissingC := by
    unfold exLogitMissingC
    apply div_pos (by norm_num); linarith
  set u : LogitUser := ⟨1, false, .l2, exLogitMissingC, 1, 1⟩ with hu
  have hfull : fullRows 1 exLogitMissing = [⟨1, fun _ => 1⟩, ⟨0, fun _ => 0⟩] := by simp [fullRows, exLogitMissing, RegRowO.full]
  have hgrad : (u.cfg.gradColsO exLogitMissing fun _ => 1).mapM id = some [0] := by
    rw [gradColsO_eq u.cfg exLogitMissing (by show fullRows 1 exLogitMissing ≠ []; rw [hfull]; simp)]
    show some ((u.cfg.scaled exLogitMissing).gradCols (fullRows 1 exLogitMissing) fun _ => 1) = _
    have hsc : u.cfg.scaled exLogitMissing = ⟨1, false, some (exLogitMissingC * 3 / 2), 1, 1⟩ := by
      show LogitCfg.scaled ⟨1, false, some exLogitMissingC, 1, 1⟩ exLogitMissing = _
      rw [LogitCfg.scaled]
      simp only [Option.map_some, hfull]
      simp [exLogitMissing]
    rw [hsc, hfull]
    simp only [LogitCfg.gradCols, LogitCfg.n, LogitCfg.z, LogitCfg.xs, avg, sigMinusB_eq]
    have hne : (1 - logistic 1) ≠ 0 := by linarith
    simp [exLogitMissingC]
    field_simp
    ring
  have hhess : ∃ h : ℝ, 0 < h ∧ u.cfg.hessColsO exLogitMissing (fun _ => 1) = some [h] := by
    have hw : 0 < sigW 1 := by rw [sigW_eq]; apply mul_pos hl0; linarith
    refine ⟨(sigW 1 + sigW 1) / 3 + 1 / (3 * exLogitMissingC), by positivity, ?_⟩
    have ht : triu u.cfg.n = [(0, 0)] := by decide
    have hz : ∀ x : ℝ, ∀ y : Option ℝ, u.cfg.zO (fun _ => 1) ⟨y, fun _ => some x⟩ = some x := by
      intro x y
      show LogitCfg.zO ⟨1, false, some exLogitMissingC, 1, 1⟩ _ _ = _
      simp [LogitCfg.zO, LogitCfg.n, LogitCfg.xsO, nullMul, List.mapM_cons, List.range_succ]
    have hx : ∀ x : ℝ, ∀ y : Option ℝ, u.cfg.xsO ⟨y, fun _ => some x⟩ 0 = some x := by
      intro x y
      rfl
    rw [LogitCfg.hessColsO, ht]
    simp only [List.mapM_cons, List.mapM_nil, exLogitMissing, avgNull, List.filterMap_cons, List.filterMap_nil, hz, hx, nullMul, Option.map_some]
    simp [hu, LogitUser.cfg, addAt, diagIdx, LogitCfg.n]
  obtain ⟨h, hpos, hh⟩ := hhess
  obtain ⟨out, hrun, hrest, ho⟩ := rest_one u rfl rfl rfl (Or.inr rfl) exLogitMissing (fun _ => 1) hgrad hpos hh
  refine ⟨u, exLogitMissing, fun _ => 1, _, by decide, hC, rfl, hrun, hrest, ?_, ?_⟩
  · intro hmin
    have := C94_logit_l2_violation u (by decide) hC rfl (fun _ _ => 1) exLogitMissing ⟨_, by simp [exLogitMissing]; exact Or.inr (Or.inr rfl), Or.inl rfl⟩
      (fun _ => 1) _ hrun hrest hmin 0 (by decide)
    have h1 : slopesOf u.fit out 0 = out 0 := rfl
    rw [h1, ho] at this
    norm_num at this
  · intro fitted
    show logitComputeO fitted 1 exLogitMissing = none
    simp [logitComputeO, exLogitMissing, RegRowO.full, List.mapM_cons]

/-- The hypotheses of `C94_logit_partial` are met by groups one of which has no label. -/
example : ∃ (u : LogitUser) (rows : List RegRowO) (c out : ℕ → ℝ), 0 < u.k ∧ 0 < u.c ∧ u.penalty = .none ∧ (∃ r ∈ rows, r.y = none) ∧
    2 ≤ (fullRows u.k rows).length ∧
    { u with maxIter := 1 }.sqlO (fun _ _ => 1) rows c = some out ∧ ∀ j < u.cfg.n, out j = u.cfg.output c j := by
  set u : LogitUser := ⟨1, false, .none, 1, 1, 1⟩ with hu
  set rows : List RegRowO := [⟨some 1, fun _ => some 1⟩, ⟨some 0, fun _ => some 1⟩, ⟨none, fun _ => some 1⟩] with hrows
  have hfull : fullRows 1 rows = [⟨1, fun _ => 1⟩, ⟨0, fun _ => 1⟩] := by simp [fullRows, hrows, RegRowO.full]
  have hgrad : (u.cfg.gradColsO rows fun _ => 0).mapM id = some [0] := by
    rw [gradColsO_eq u.cfg rows (by show fullRows 1 rows ≠ []; rw [hfull]; simp)]
    show some ((u.cfg.scaled rows).gradCols (fullRows 1 rows) fun _ => 0) = _
    have hsc : u.cfg.scaled rows = ⟨1, false, none, 1, 1⟩ := rfl
    rw [hsc, hfull]
    simp only [LogitCfg.gradCols, LogitCfg.n, LogitCfg.z, LogitCfg.xs, avg, sigMinusB_eq]
    simp [logistic]
    norm_num
  have hhess : u.cfg.hessColsO rows (fun _ => 0) = some [sigW 0] := by
    have ht : triu u.cfg.n = [(0, 0)] := by decide
    have hz : ∀ x : ℝ, ∀ y : Option ℝ, u.cfg.zO (fun _ => 0) ⟨y, fun _ => some x⟩ = some 0 := by
      intro x y
      show LogitCfg.zO ⟨1, false, none, 1, 1⟩ _ _ = _
      simp [LogitCfg.zO, LogitCfg.n, LogitCfg.xsO, nullMul, List.mapM_cons, List.range_succ]
    have hx : ∀ x : ℝ, ∀ y : Option ℝ, u.cfg.xsO ⟨y, fun _ => some x⟩ 0 = some x := by
      intro x y
      rfl
    rw [LogitCfg.hessColsO, ht]
    simp only [List.mapM_cons, List.mapM_nil, hrows, avgNull, List.filterMap_cons, List.filterMap_nil, hz, hx, nullMul, Option.map_some]
    simp [hu, LogitUser.cfg]
    ring
  have hw : 0 < sigW 0 := by
    rw [sigW_eq]
    have := logistic_lt_one 0
    exact mul_pos (logistic_pos 0) (by linarith)
  obtain ⟨out, h1, h2, -⟩ := rest_one u rfl rfl rfl (Or.inl rfl) rows (fun _ => 0) hgrad hw hhess
  exact ⟨u, rows, fun _ => 0, out, by decide, by norm_num [hu], rfl, ⟨⟨none, fun _ => some 1⟩, by simp [hrows], rfl⟩,
    by show 2 ≤ (fullRows 1 rows).length; rw [hfull]; decide, h1, h2⟩

/-- The hypotheses of `C94_logit_nothing` and `C94_logit_complete` are met. -/
example : ∃ rows rows' : List RegRowO, rows ≠ [] ∧ (∀ r ∈ rows, r.y = none ∨ ∃ i < 1, r.x i = none) ∧ rows' ≠ [] ∧
    ∀ r ∈ rows', r.full 1 ≠ none :=
  ⟨[⟨none, fun _ => some 1⟩, ⟨some 1, fun _ => none⟩], [⟨some 1, fun _ => some 1⟩], by simp, by simp, by simp, by simp [RegRowO.full]⟩

/-- **C94.** When no value is missing, `ElasticNet` and `Lasso` over SQL give what `enetSql` gives on the rows, which C49 is about. -/
theorem C94_enet_complete (maxEig : ℕ → (ℕ → ℕ → ℝ) → ℝ) (pre : Series ℝ) (k : ℕ) (alpha l1Ratio : ℝ) (fit : Bool) (tol : ℝ) (maxIter : ℕ)
    (init : ℕ → ℝ) (rows : List RegRowO) (hrows : rows ≠ []) (h : ∀ r ∈ rows, r.full k ≠ none) :
    enetSqlO maxEig pre k alpha l1Ratio fit tol maxIter init rows =
      enetSql maxEig pre k alpha l1Ratio fit false tol maxIter init (fullRows k rows) := by
  rw [enetSqlO, enetSql, numbers_complete k fit false rows hrows h]
  split
  · rfl
  · simp

end Verif
