import Verif.Props.LogisticFit

/-!
# C61 in the parameters a user gives

/repo/models.py:919-1003, 1031-1257.
-/

namespace Verif

open Finset

/-- The coefficients a row of results stands for, as the code stores them. -/
theorem output_intercept (m : LogitCfg) (c : ℕ → ℝ) : interceptOf m.fit (m.output c) = lastIntercept m.k m.fit c := by
  unfold interceptOf lastIntercept LogitCfg.output
  cases m.fit <;> simp

theorem output_slopes (m : LogitCfg) (c : ℕ → ℝ) : slopesOf m.fit (m.output c) = c := by
  funext i
  unfold slopesOf LogitCfg.output
  cases m.fit <;> simp

/-- Rows of results that agree stand for coefficients that agree. -/
theorem output_eq (m : LogitCfg) (c c' : ℕ → ℝ) (h : ∀ j < m.n, m.output c' j = m.output c j) : ∀ j < m.n, c' j = c j := by
  intro j hj
  unfold LogitCfg.n at h hj
  unfold LogitCfg.output at h
  cases hf : m.fit with
  | false => rw [hf] at h hj; simpa using h j hj
  | true =>
    rw [hf] at h hj
    simp only [if_true] at h hj
    rcases Nat.lt_succ_iff_lt_or_eq.1 hj with h1 | h1
    · have := h (j + 1) (by omega)
      simpa using this
    · have := h 0 (by omega)
      rw [h1]
      simpa using this

/-- The constants of the proximal method on the statistics of the rows. -/
theorem fistaConst_rows (maxEig : ℕ → (ℕ → ℕ → ℝ) → ℝ) (k : ℕ) (hk : 0 < k) (fit : Bool) (l1 l2 : ℝ) (rows : List RegRow) (a : FistaConst)
    (h : fistaConst maxEig fit l1 l2 (suffStats k fit true rows) = some a) :
    (∃ n A, a.step = logitStep (maxEig n A)) ∧ a.l1 = l1 / rows.length ∧ a.l2 = l2 / rows.length := by
  obtain ⟨k', rfl⟩ : ∃ k', k = k' + 1 := ⟨k - 1, by omega⟩
  have hN : SN.n ∈ suffSN (k' + 1) fit true := by simp [suffSN]
  have a2 := loc_suff [] (nodup_suffSN (k' + 1) fit true) (SN.val rows) [SN.n] (by simpa using hN) (by simp)
  rw [List.nil_append] at a2
  rw [show [SN.n].map SN.text = [nmN] from rfl] at a2
  rw [fistaConst, suffStats_eq, Series.at1, a2] at h
  simp only [Option.bind_eq_bind, Option.bind_eq_some_iff, Option.pure_def] at h
  obtain ⟨⟨⟨n, A⟩, rhs⟩, _, nObs, hn, h⟩ := h
  simp only [List.map_cons, List.map_nil, Option.some.injEq] at hn h
  subst hn
  subst h
  exact ⟨⟨n, A, rfl⟩, rfl, rfl⟩

/-- What the proximal method returns without a split after one iteration. -/
theorem fista_once (m : LogitCfg) (hm : m.maxIter = 1) (maxEig : ℕ → (ℕ → ℕ → ℝ) → ℝ) (l1 l2 : ℝ) (rows : List RegRow) (c : ℕ → ℝ)
    (res : List ((ℕ → ℝ) × Bool))
    (h : m.fista maxEig l1 l2 (rows.map fun r => ((), r)) [] false [((), suffStats m.k m.fit true rows)] [c] = some res) :
    ∃ a, fistaConst maxEig m.fit l1 l2 (suffStats m.k m.fit true rows) = some a ∧ ∃ b,
      res = [((m.fistaUpdate a (m.gradCols rows c) ⟨c, c, fun _ => 0, false⟩).coef, b)] := by
  rw [LogitCfg.fista] at h
  simp only [Bool.false_eq_true, if_false, false_and] at h
  rw [List.mapM_cons] at h
  cases hc : fistaConst maxEig m.fit l1 l2 (suffStats m.k m.fit true rows) with
  | none => rw [hc] at h; cases h
  | some a =>
    rw [hc] at h
    simp only [List.mapM_nil, Option.bind_eq_bind, Option.bind_some, Option.pure_def, List.map_cons, List.map_nil, Option.some.injEq] at h
    rw [fistaLoop_solo m _ a _ _ _ rfl, hm] at h
    refine ⟨a, rfl, (m.fistaUpdate a (m.gradCols rows c) ⟨c, c, fun _ => 0, false⟩).conv, ?_⟩
    rw [← h]
    have hmom : (⟨c, c, fun _ => 0, false⟩ : FistaSlice).momentum 0 = ⟨c, c, fun _ => 0, false⟩ := by
      simp [FistaSlice.momentum]
    simp only [LogitCfg.fistaIter, Bool.false_eq_true, if_false, hmom, List.map_map]
    rw [show ((·.2) ∘ fun r : RegRow => ((), r)) = id from rfl, List.map_id]
    rfl

/-- **C61.** If one iteration from some coefficients returns the same coefficients, what `LogisticRegression` returns on SQL,
the intercept first, minimises sklearn's objective for the penalty, `C` and `l1_ratio` given by the user, over all
coefficients and, with `fit_intercept`, all intercepts. -/
theorem C61_user (u : LogitUser) (hk : 0 < u.k) (hC : 0 < u.c) (hratio : ∀ r, u.penalty = .elasticnet r → 0 ≤ r ∧ r ≤ 1)
    (maxEig : ℕ → (ℕ → ℕ → ℝ) → ℝ) (hEig : ∀ n A, 0 < maxEig n A) (rows : List RegRow) (hrows : rows ≠ []) (c out : ℕ → ℝ)
    (hrun : { u with maxIter := 1 }.sql maxEig rows c = some out)
    (hrest : ∀ j < u.cfg.n, out j = u.cfg.output c j) (b : ℝ) (w : ℕ → ℝ) (hb : u.fit = false → b = 0) :
    skLogit u.k u.penalty u.c rows (interceptOf u.fit out) (slopesOf u.fit out) ≤ skLogit u.k u.penalty u.c rows b w := by
  have hn : ∀ c', (∀ j < u.cfg.n, c' j = c j) → lastIntercept u.k u.fit c' = lastIntercept u.k u.fit c := by
    intro c' h
    unfold lastIntercept
    cases hf : u.fit with
    | false => rfl
    | true =>
      simp only [if_true]
      apply h
      simp [LogitUser.cfg, LogitCfg.n, hf]
  have hkn : u.k ≤ u.cfg.n := by
    cases hf : u.fit <;> simp [LogitUser.cfg, LogitCfg.n, hf]
  -- what is left to prove for the coefficients in the order of the code
  suffices key : ∃ c' L1 L2, out = u.cfg.output c' ∧ (∀ j < u.cfg.n, c' j = c j) ∧
      (∀ b w, skLogit u.k u.penalty u.c rows b w = (match u.penalty with | .none => 1 | _ => u.c) * logitObjective u.k L1 L2 rows b w) ∧
      ∀ b w, (u.fit = false → b = 0) →
        logitObjective u.k L1 L2 rows (lastIntercept u.k u.fit c) c ≤ logitObjective u.k L1 L2 rows b w by
    obtain ⟨c', L1, L2, rfl, hcc, hsk, hmin⟩ := key
    have h1 : interceptOf u.fit (u.cfg.output c') = lastIntercept u.k u.fit c := by
      rw [← hn c' hcc]; exact output_intercept u.cfg c'
    have h2 : slopesOf u.fit (u.cfg.output c') = c' := output_slopes u.cfg c'
    rw [hsk, hsk, h1, h2, logitObjective_congr u.k L1 L2 rows _ (w := c') (w' := c) fun i hi => hcc i (by omega)]
    apply mul_le_mul_of_nonneg_left (hmin b w hb)
    split
    · norm_num
    · exact hC.le
  have hout : ∀ c', out = u.cfg.output c' → ∀ j < u.cfg.n, c' j = c j := by
    rintro c' rfl
    exact output_eq u.cfg c c' hrest
  have hnewton : ∀ L2, u.cfg.strength = L2 → ({ u with maxIter := 1 } : LogitUser).cfg.newton (rows.map fun r => ((), r)) [] false [c] >>=
        (fun res => match res with | r :: _ => some (u.cfg.output r.1) | [] => .none) = some out →
      ∃ c', out = u.cfg.output c' ∧ (∀ j < u.cfg.n, c' j = c j) ∧ ∀ b w, (u.fit = false → b = 0) →
        logitObjective u.k 0 L2 rows (lastIntercept u.k u.fit c) c ≤ logitObjective u.k 0 L2 rows b w := by
    intro L2 hL h
    simp only [Option.bind_eq_bind, Option.bind_eq_some_iff] at h
    obtain ⟨res, hres, h⟩ := h
    have hsolo := hres
    rw [LogitCfg.newton, List.map_cons, List.map_nil, newtonLoop_solo _ (LogitCfg.n_pos _ hk)] at hsolo
    cases hi : LogitCfg.newtonIter ({ u with maxIter := 1 } : LogitUser).cfg ((rows.map fun r => ((), r)).map (·.2))
        ({ u with maxIter := 1 } : LogitUser).cfg.maxIter (c, false) with
    | none => rw [hi] at hsolo; cases hsolo
    | some s =>
      rw [hi] at hsolo
      simp only [Option.map_some, Option.some.injEq] at hsolo
      subst hsolo
      simp only [Option.some.injEq] at h
      refine ⟨s.1, h.symm, hout s.1 h.symm, fun b w hb => ?_⟩
      rw [← hL]
      exact C61_newton_rest u.cfg hk (by
        intro C hc
        simp only [LogitUser.cfg] at hc
        split at hc
        · simp only [Option.some.injEq] at hc; rw [← hc]; exact hC
        · cases hc) rows hrows c s.1 s.2 hres (hout s.1 h.symm) b w hb
  have hfista : ∀ L1 L2, 0 ≤ L1 → 0 ≤ L2 → u.cfg.l2C = .none → ({ u with maxIter := 1 } : LogitUser).cfg.fista maxEig L1 L2
        (rows.map fun r => ((), r)) [] false [((), suffStats u.k u.fit true rows)] [c] >>=
        (fun res => match res with | r :: _ => some (u.cfg.output r.1) | [] => .none) = some out →
      ∃ c', out = u.cfg.output c' ∧ (∀ j < u.cfg.n, c' j = c j) ∧ ∀ b w, (u.fit = false → b = 0) →
        logitObjective u.k L1 L2 rows (lastIntercept u.k u.fit c) c ≤ logitObjective u.k L1 L2 rows b w := by
    intro L1 L2 h1 h2 hl h
    simp only [Option.bind_eq_bind, Option.bind_eq_some_iff] at h
    obtain ⟨res, hres, h⟩ := h
    obtain ⟨a, ha, cb, rfl⟩ := fista_once _ rfl maxEig L1 L2 rows c res hres
    simp only [Option.some.injEq] at h
    obtain ⟨⟨n, A, hstep⟩, e1, e2⟩ := fistaConst_rows maxEig u.k hk u.fit L1 L2 rows a ha
    have hap : a = ⟨a.step, L1 / rows.length, L2 / rows.length⟩ := by rw [← e1, ← e2]
    refine ⟨_, h.symm, hout _ h.symm, fun b w hb => ?_⟩
    have hpos : 0 < a.step := by
      rw [hstep, logitStep]
      have := hEig n A
      positivity
    refine C61_fista_rest u.cfg hl L1 L2 h1 h2 rows hrows a.step hpos ⟨c, c, fun _ => 0, false⟩ rfl (fun _ _ => rfl) ?_ b w hb
    rw [← hap]
    exact hout _ h.symm
  rw [LogitUser.sql] at hrun
  cases hp : u.penalty with
  | none =>
    simp only [hp] at hrun
    obtain ⟨c', h1, h2, h3⟩ := hnewton 0 (by simp [LogitCfg.strength, LogitUser.cfg, hp]) (by rw [hp]; exact hrun)
    exact ⟨c', 0, 0, h1, h2, fun b w => by simp [skLogit, logitObjective], h3⟩
  | l2 =>
    simp only [hp] at hrun
    obtain ⟨c', h1, h2, h3⟩ := hnewton (1 / u.c) (by simp [LogitCfg.strength, LogitUser.cfg, hp]) (by rw [hp]; exact hrun)
    refine ⟨c', 0, 1 / u.c, h1, h2, fun b w => ?_, h3⟩
    simp only [skLogit, logitObjective]
    field_simp
    ring
  | l1 =>
    simp only [hp] at hrun
    obtain ⟨c', h1, h2, h3⟩ := hfista (1 / u.c) ((1 - 1) / u.c) (by positivity) (by simp) (by simp [LogitUser.cfg, hp]) (by rw [hp]; exact hrun)
    refine ⟨c', 1 / u.c, (1 - 1) / u.c, h1, h2, fun b w => ?_, h3⟩
    simp only [skLogit, logitObjective]
    field_simp
    ring
  | elasticnet ratio =>
    simp only [hp] at hrun
    obtain ⟨hr0, hr1⟩ := hratio ratio hp
    obtain ⟨c', h1, h2, h3⟩ := hfista (ratio / u.c) ((1 - ratio) / u.c) (by positivity) (div_nonneg (by linarith) hC.le)
      (by simp [LogitUser.cfg, hp]) (by rw [hp]; exact hrun)
    refine ⟨c', ratio / u.c, (1 - ratio) / u.c, h1, h2, fun b w => ?_, h3⟩
    simp only [skLogit, logitObjective]
    field_simp
    ring

/-- The hypotheses are met: `LogisticRegression(penalty='l2', C=2)` on two rows, with an intercept, rests at 0. -/
theorem exFit_rest : ∃ out, ({ k := 1, fit := true, penalty := .l2, c := 2, tol := 1, maxIter := 1 } : LogitUser).sql (fun _ _ => 1)
      exFitRows (fun _ => 0) = some out ∧
    ∀ j < 2, out j = ({ k := 1, fit := true, penalty := .l2, c := 2, tol := 1, maxIter := 1 } : LogitUser).cfg.output (fun _ => 0) j := by
  obtain ⟨c', h1, h2⟩ := C61_minimiser_rests ⟨1, true, some 2, 1, 1⟩ (by decide) 2 rfl (by norm_num) (by norm_num) (by decide) exFitRows
    (by simp [exFitRows]) (fun _ => 0) exFit_min
  refine ⟨LogitCfg.output ⟨1, true, some 2, 1, 1⟩ c', ?_, ?_⟩
  · rw [LogitUser.sql]
    simp only [LogitUser.cfg]
    rw [h1]
    rfl
  · have e0 : c' 0 = 0 := h2 0 (by decide)
    have e1 : c' 1 = 0 := h2 1 (by decide)
    intro j hj
    interval_cases j <;> simp [LogitCfg.output, LogitUser.cfg, e0, e1]

end Verif
