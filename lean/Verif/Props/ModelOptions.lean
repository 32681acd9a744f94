import Verif.Props.LogisticUser
import Verif.Props.ElasticNet
import Verif.Spec.ModelOptions

/-!
# C96: an option of a regression has its effect or is refused
-/

namespace Verif

open Finset

theorem construct_some {a : LogitArgs} {u : LogitUser} (h : a.construct = some u) :
    u.k = a.k ∧ u.fit = a.fit ∧ u.c = a.c ∧ u.tol = a.tol ∧ u.maxIter = a.maxIter ∧
      ((a.penalty = none ∧ a.l1Ratio = none ∧ u.penalty = .none) ∨ (a.penalty = some "l1" ∧ a.l1Ratio = none ∧ u.penalty = .l1) ∨
        (a.penalty = some "l2" ∧ a.l1Ratio = none ∧ u.penalty = .l2) ∨
        ∃ r, a.penalty = some "elasticnet" ∧ a.l1Ratio = some r ∧ 0 < r ∧ r ≤ 1 ∧ u.penalty = .elasticnet r) := by
  unfold LogitArgs.construct at h
  split at h
  · cases h
  next h1 =>
  split at h
  · cases h
  next h2 =>
  split at h
  · cases h
  next h3 =>
  rw [Option.some.injEq] at h
  subst h
  refine ⟨rfl, rfl, rfl, rfl, rfl, ?_⟩
  have hn : a.penalty ≠ some "elasticnet" → a.l1Ratio = none := by
    intro hp
    cases hl : a.l1Ratio with
    | none => rfl
    | some r => exact absurd ⟨by rw [hl]; rfl, hp⟩ h3
  rw [not_not] at h1
  simp only [List.mem_cons, List.not_mem_nil, or_false] at h1
  rcases h1 with hp | hp | hp | hp
  · exact Or.inl ⟨hp, hn (by rw [hp]; simp), by simp [hp]⟩
  · exact Or.inr (Or.inl ⟨hp, hn (by rw [hp]; simp), by simp [hp]⟩)
  · exact Or.inr (Or.inr (Or.inl ⟨hp, hn (by rw [hp]; simp), by simp [hp]⟩))
  · refine Or.inr (Or.inr (Or.inr ?_))
    have h2' : ¬ _ := fun h => h2 ⟨hp, h⟩
    rw [not_or, not_not] at h2'
    cases hl : a.l1Ratio with
    | none => exact absurd rfl (by have := h2'.1; rw [hl] at this; exact this)
    | some r =>
      rw [hl] at h2'
      simp only [Option.getD_some] at h2'
      exact ⟨r, hp, rfl, lt_of_le_of_ne h2'.2.1 (Ne.symm h2'.1), h2'.2.2, by simp [hp]⟩

/-- The objective of the options that are left. -/
theorem objective_construct {a : LogitArgs} {u : LogitUser} (h : a.construct = some u) (hw : a.classWeight.given = false) (rows : List RegRow) (b : ℝ)
    (w : ℕ → ℝ) : a.objective rows b w = some (skLogit u.k u.penalty u.c rows b w) := by
  obtain ⟨hk, -, hc, -, -, hp⟩ := construct_some h
  have hone : ∀ r, rowWeight rows a.classWeight r = 1 := by
    intro r
    cases hcw : a.classWeight with
    | none => rfl
    | balanced => rw [hcw] at hw; cases hw
    | dict l =>
      rw [hcw] at hw
      cases l with
      | nil => rfl
      | cons p l => cases hw
  unfold LogitArgs.objective skLogit
  simp only [hone, one_mul, hk, hc]
  rcases hp with ⟨h1, h2, h3⟩ | ⟨h1, h2, h3⟩ | ⟨h1, h2, h3⟩ | ⟨r, h1, h2, -, -, h3⟩ <;> rw [h1, h2, h3] <;> simp

/-- **C96.** If one iteration leaves the coefficients where they are, then what `LogisticRegression` returns over SQL minimises sklearn's objective for
all the options that were given, class weights included. -/
theorem C96_logit (a : LogitArgs) (hk : 0 < a.k) (hC : 0 < a.c) (maxEig : ℕ → (ℕ → ℕ → ℝ) → ℝ) (hEig : ∀ n A, 0 < maxEig n A)
    (rows : List RegRow) (u : LogitUser) (hu : a.construct = some u) (c out : ℕ → ℝ)
    (hrun : { a with maxIter := 1 }.sql maxEig rows c = some out) (hrest : ∀ j < u.cfg.n, out j = u.cfg.output c j) :
    ∃ o, a.objective rows (interceptOf a.fit out) (slopesOf a.fit out) = some o ∧
      ∀ b w, (a.fit = false → b = 0) → ∃ o', a.objective rows b w = some o' ∧ o ≤ o' := by
  have hu1 : ({ a with maxIter := 1 } : LogitArgs).construct = some { u with maxIter := 1 } := by
    unfold LogitArgs.construct at hu ⊢
    simp only at hu ⊢
    split at hu
    · cases hu
    next h1 =>
    rw [if_neg h1]
    split at hu
    · cases hu
    next h2 =>
    rw [if_neg h2]
    split at hu
    · cases hu
    next h3 =>
    rw [if_neg h3]
    rw [Option.some.injEq] at hu
    subst hu
    rfl
  unfold LogitArgs.sql at hrun
  rw [hu1] at hrun
  simp only at hrun
  split at hrun
  · cases hrun
  next hw =>
  split at hrun
  · cases hrun
  split at hrun
  · cases hrun
  next hn =>
  have hw' : a.classWeight.given = false := by simpa using hw
  have hrows : rows ≠ [] := by
    rintro rfl
    exact hn (by simp [classCount])
  obtain ⟨h1, h2, h3, -, -, hp⟩ := construct_some hu
  rw [← h2]
  refine ⟨_, objective_construct hu hw' rows _ _, fun b w hb => ⟨_, objective_construct hu hw' rows b w, ?_⟩⟩
  refine C61_user u (h1 ▸ hk) (h3 ▸ hC) ?_ maxEig hEig rows hrows c out hrun hrest b w hb
  intro r hr
  rcases hp with ⟨-, -, h⟩ | ⟨-, -, h⟩ | ⟨-, -, h⟩ | ⟨r', -, -, h4, h5, h⟩ <;> rw [hr] at h <;> cases h
  exact ⟨h4.le, h5⟩

/-- **C96.** What is refused: class weights, a scaled intercept, other than two classes, an unknown penalty, and an `l1_ratio` without the penalty
that uses it. -/
theorem C96_refused (a : LogitArgs) (maxEig : ℕ → (ℕ → ℕ → ℝ) → ℝ) (rows : List RegRow) (init : ℕ → ℝ)
    (h : a.classWeight = .balanced ∨ (∃ p l, a.classWeight = .dict (p :: l)) ∨ (a.interceptScaling ≠ 0 ∧ a.interceptScaling ≠ 1) ∨
      (rows.map RegRow.y).toFinset.card ≠ 2 ∨ (∀ p, a.penalty = some p → p ≠ "l1" ∧ p ≠ "l2" ∧ p ≠ "elasticnet") ∧ a.penalty ≠ none ∨
      (∃ r, a.l1Ratio = some r ∧ (a.penalty ≠ some "elasticnet" ∨ r < 0 ∨ 1 < r)) ∨ (a.penalty = some "elasticnet" ∧ a.l1Ratio = none)) :
    a.sql maxEig rows init = none := by
  by_contra hne
  obtain ⟨out, hout⟩ := Option.ne_none_iff_exists'.1 hne
  unfold LogitArgs.sql at hout
  cases hu : a.construct with
  | none => rw [hu] at hout; cases hout
  | some u =>
    rw [hu] at hout
    simp only at hout
    split at hout
    · cases hout
    next hw =>
    split at hout
    · cases hout
    next hs =>
    split at hout
    · cases hout
    next hn =>
    obtain ⟨-, -, -, -, -, hp⟩ := construct_some hu
    rcases h with h | ⟨p, l, h⟩ | ⟨h0, h1⟩ | h | ⟨h, h0⟩ | ⟨r, hr, h⟩ | ⟨h1, h2⟩
    · exact hw (by rw [h]; rfl)
    · exact hw (by rw [h]; rfl)
    · rw [LogitArgs.scaling, if_neg h0] at hs; exact hs h1
    · exact hn (by unfold classCount; convert h)
    · rcases hp with ⟨h1, -⟩ | ⟨h1, -⟩ | ⟨h1, -⟩ | ⟨r, h1, -⟩
      · exact h0 h1
      · exact (h _ h1).1 rfl
      · exact (h _ h1).2.1 rfl
      · exact (h _ h1).2.2 rfl
    · rcases hp with ⟨h1, h2, -⟩ | ⟨h1, h2, -⟩ | ⟨h1, h2, -⟩ | ⟨r', h1, h2, h3, h4, -⟩
      · rw [hr] at h2; cases h2
      · rw [hr] at h2; cases h2
      · rw [hr] at h2; cases h2
      · rw [hr, Option.some.injEq] at h2
        subst h2
        rcases h with h | h | h
        · exact h h1
        · linarith
        · linarith
    · rcases hp with ⟨h3, -⟩ | ⟨h3, -⟩ | ⟨h3, -⟩ | ⟨r', h3, h4, -⟩
      · rw [h1] at h3; cases h3
      · rw [h1] at h3; simp at h3
      · rw [h1] at h3; simp at h3
      · rw [h2] at h4; cases h4

/-- What is accepted is fit: with the other options, two classes in the data and the `l2` penalty, there is no refusal. -/
theorem C96_accepted (a : LogitArgs) (maxEig : ℕ → (ℕ → ℕ → ℝ) → ℝ) (rows : List RegRow) (init : ℕ → ℝ)
    (hw : a.classWeight = .none) (hs : a.interceptScaling = 1) (hp : a.penalty = some "l2") (hl : a.l1Ratio = none)
    (hn : (rows.map RegRow.y).toFinset.card = 2) :
    a.sql maxEig rows init = LogitUser.sql ⟨a.k, a.fit, .l2, a.c, a.tol, a.maxIter⟩ maxEig rows init := by
  have hu : a.construct = some ⟨a.k, a.fit, .l2, a.c, a.tol, a.maxIter⟩ := by
    unfold LogitArgs.construct
    rw [if_neg (by rw [hp]; simp), if_neg (by rw [hp]; simp), if_neg (by rw [hl]; simp)]
    simp [hp]
  unfold LogitArgs.sql
  rw [hu]
  simp only [hw, ClassWeight.given, LogitArgs.scaling, hs]
  have : classCount rows = 2 := by unfold classCount; convert hn
  simp [this]

/-- The hypotheses of `C96_logit` are met. -/
example : ∃ (a : LogitArgs) (u : LogitUser) (out : ℕ → ℝ), 0 < a.k ∧ 0 < a.c ∧ a.construct = some u ∧
    { a with maxIter := 1 }.sql (fun _ _ => 1) exFitRows (fun _ => 0) = some out ∧ ∀ j < u.cfg.n, out j = u.cfg.output (fun _ => 0) j := by
  obtain ⟨out, h1, h2⟩ := exFit_rest
  refine ⟨⟨1, true, some "l2", 2, none, 1, .none, 1, 1⟩, ⟨1, true, .l2, 2, 1, 1⟩, out, by norm_num, by norm_num, ?_, ?_, h2⟩
  · simp [LogitArgs.construct]
  · rw [C96_accepted _ _ _ _ rfl rfl rfl rfl]
    · exact h1
    · have : (exFitRows.map RegRow.y) = [0, 1] := by simp [exFitRows]
      rw [this]
      simp

/-- **C96.** In terms of what the user asks for: without `positive`, every resting point of the iteration of an ElasticNet or Lasso
over SQL solves the problem. -/
theorem C96_enet_partial (u : EnetUser) (maxEig : ℕ → (ℕ → ℕ → ℝ) → ℝ) (hEig : ∀ n A, PSD n A → FormBound n A (maxEig n A)) (pre : Series ℝ) (k : ℕ)
    (hk : 0 < k) (ha : 0 ≤ u.alpha) (hr0 : 0 < u.l1Ratio) (hr1 : u.l1Ratio ≤ 1) (hp : u.positive = false) (hn : u.normalize = false)
    (rows : List RegRow) (hrows : rows ≠ []) (hpre : NoClash pre k u.fit false rows) (hnz : u.fit = false → ∃ r ∈ rows, ∃ i < k, r.x i ≠ 0) :
    ∃ a : FistaArgs ℝ, (∀ init, u.sql maxEig pre k init rows =
        some (finish k u.fit rows (a.fista u.maxIter init).1, (a.fista u.maxIter init).2)) ∧
      ∀ c : ℕ → ℝ, (∀ j < a.n, a.prox c j = c j) →
        u.Solves k rows (interceptOf u.fit (finish k u.fit rows c)) (slopesOf u.fit (finish k u.fit rows c)) := by
  obtain ⟨a, -, -, h3, h4, -⟩ := C49_user maxEig hEig pre k hk u.alpha u.l1Ratio ha hr0 hr1 u.fit u.tol rows hrows hpre hnz
  refine ⟨a, fun init => by rw [EnetUser.sql, hn, h3], fun c hc => ⟨?_, ?_, ?_⟩⟩
  · intro hf; rw [hf]; rfl
  · intro h; rw [hp] at h; exact absurd h (by decide)
  · intro b w hb _
    exact h4 c hc b w hb

/-- **C96.** `positive=True` is not used over SQL: on one row with `x = 1` and `y = -1` the only resting point of the iteration has a negative
coefficient, and the user's problem has the solution 0. -/
theorem C96_positive_violation (maxEig : ℕ → (ℕ → ℕ → ℝ) → ℝ) (hEig : ∀ n A, PSD n A → FormBound n A (maxEig n A)) (tol : ℝ) (maxIter : ℕ) :
    let u : EnetUser := ⟨1 / 2, 1, false, false, true, tol, maxIter⟩
    let rows : List RegRow := [⟨-1, fun _ => 1⟩]
    u.Solves 1 rows 0 (fun _ => 0) ∧
    ∃ a : FistaArgs ℝ, (∀ init, u.sql maxEig [] 1 init rows = some (finish 1 false rows (a.fista maxIter init).1, (a.fista maxIter init).2)) ∧
      (∃ c : ℕ → ℝ, ∀ j < a.n, a.prox c j = c j) ∧
      ∀ c : ℕ → ℝ, (∀ j < a.n, a.prox c j = c j) → slopesOf false (finish 1 false rows c) 0 = -1 / 2 := by
  intro u rows
  have hval : ∀ w : ℕ → ℝ, skEnet 1 (1 / 2) 1 rows 0 w = (-1 - w 0) ^ 2 / 2 + |w 0| / 2 := by
    intro w
    simp only [skEnet, rows, predict, List.map_cons, List.map_nil, List.sum_cons, List.sum_nil, List.length_cons, List.length_nil, Finset.range_one,
      Finset.sum_singleton]
    norm_num
    ring
  have hlow : ∀ w : ℕ → ℝ, 3 / 8 + (w 0 + 1 / 2) ^ 2 / 2 ≤ skEnet 1 (1 / 2) 1 rows 0 w := by
    intro w
    rw [hval]
    nlinarith [neg_abs_le (w 0)]
  refine ⟨⟨fun _ => rfl, fun _ _ _ => le_refl _, ?_⟩, ?_⟩
  · intro b w hb hw
    obtain rfl := hb rfl
    have := hw rfl 0 (by norm_num)
    change skEnet 1 (1 / 2) 1 rows 0 _ ≤ skEnet 1 (1 / 2) 1 rows 0 _
    rw [hval, hval, abs_of_nonneg this]
    norm_num
    nlinarith
  · obtain ⟨a, -, -, h3, h4, h5⟩ := C49_user maxEig hEig [] 1 (by norm_num) (1 / 2) 1 (by norm_num) (by norm_num) (le_refl _) false tol rows
      (by simp [rows]) (by intro p hp; simp at hp) (fun _ => ⟨⟨-1, fun _ => 1⟩, by simp [rows], 0, by norm_num, by norm_num⟩)
    have hhalf : skEnet 1 (1 / 2) 1 rows 0 (fun _ => -1 / 2) = 3 / 8 := by
      rw [hval, show (-1 / 2 : ℝ) = -(1 / 2) by norm_num, abs_neg, abs_of_nonneg (by norm_num)]; norm_num
    refine ⟨a, h3 maxIter, ?_, ?_⟩
    · obtain ⟨c, hc, -⟩ := h5 0 (fun _ => -1 / 2) (fun _ => rfl) (by
        intro b w hb
        obtain rfl := hb rfl
        rw [hhalf]
        have := hlow w
        nlinarith [sq_nonneg (w 0 + 1 / 2)])
      exact ⟨c, hc⟩
    · intro c hc
      have h := h4 c hc 0 (fun _ => -1 / 2) (fun _ => rfl)
      rw [hhalf, show interceptOf false (finish 1 false rows c) = 0 from rfl] at h
      have h' := hlow (slopesOf false (finish 1 false rows c))
      have h0 : (slopesOf false (finish 1 false rows c) 0 + 1 / 2) ^ 2 = 0 := le_antisymm (by linarith) (sq_nonneg _)
      rw [pow_eq_zero_iff (by norm_num)] at h0
      linarith

/-- The hypotheses of `C96_enet_partial` are met. -/
example : ∃ maxEig : ℕ → (ℕ → ℕ → ℝ) → ℝ, (∀ n A, PSD n A → FormBound n A (maxEig n A)) ∧
    ∀ fit, NoClash [] 1 fit false [⟨1, fun _ => 2⟩, ⟨3, fun _ => 5⟩] ∧
      (fit = false → ∃ r ∈ [(⟨1, fun _ => 2⟩ : RegRow), ⟨3, fun _ => 5⟩], ∃ i < 1, r.x i ≠ 0) := by
  obtain ⟨e, he⟩ := exists_maxEig
  exact ⟨e, he, fun fit => ⟨by intro p hp; simp at hp, fun _ => ⟨⟨1, fun _ => 2⟩, by simp, 0, by simp, by norm_num⟩⟩⟩

end Verif
