import Verif.Spec.SqlArith

/-!
# Lemmas for C25
-/

namespace Verif
variable {K : Type}

theorem parse_mono : ∀ (n : Nat) (m : Mode K) (ts : List (ATok K)) (x : SE K × List (ATok K)),
    parse n m ts = some x → parse (n + 1) m ts = some x := by
  intro n
  induction n with
  | zero => intro m ts x h; simp [parse] at h
  | succ n ih =>
    intro m ts x h
    have bind_mono : ∀ (m : Mode K) (ts : List (ATok K)) (f g : SE K × List (ATok K) → Option (SE K × List (ATok K))),
        (∀ y, f y = some x → g y = some x) → (parse n m ts).bind f = some x →
        (parse (n + 1) m ts).bind g = some x := by
      intro m ts f g hfg h
      obtain ⟨y, h1, h2⟩ := Option.bind_eq_some_iff.1 h
      exact Option.bind_eq_some_iff.2 ⟨y, ih _ _ _ h1, hfg y h2⟩
    cases m with
    | expr =>
      rw [parse.eq_def] at h ⊢
      simp only at h ⊢
      exact bind_mono _ _ _ _ (fun y hy => ih _ _ _ hy) h
    | term =>
      rw [parse.eq_def] at h ⊢
      simp only at h ⊢
      exact bind_mono _ _ _ _ (fun y hy => ih _ _ _ hy) h
    | exprRest acc =>
      rw [parse.eq_def] at h ⊢
      simp only at h ⊢
      split at h
      all_goals first
        | exact bind_mono _ _ _ _ (fun y hy => ih _ _ _ hy) h
        | exact h
    | termRest acc =>
      rw [parse.eq_def] at h ⊢
      simp only at h ⊢
      split at h
      all_goals first
        | exact bind_mono _ _ _ _ (fun y hy => ih _ _ _ hy) h
        | exact h
    | unary =>
      rw [parse.eq_def] at h ⊢
      simp only at h ⊢
      split at h
      · exact bind_mono _ _ _ _ (fun y hy => hy) h
      · exact bind_mono _ _ _ _ (fun y hy => hy) h
      · exact ih _ _ _ h
    | prim =>
      rw [parse.eq_def] at h ⊢
      simp only at h ⊢
      split at h
      · exact h
      · exact h
      · exact h
      · exact bind_mono _ _ _ _ (fun y hy => hy) h
      · exact bind_mono _ _ _ _ (fun y hy => hy) h
      · refine bind_mono _ _ _ _ (fun y hy => ?_) h
        split at hy
        · exact bind_mono _ _ _ _ (fun y hy => hy) hy
        · cases hy
      · refine bind_mono _ _ _ _ (fun y hy => ?_) h
        split at hy
        · refine bind_mono _ _ _ _ (fun y hy => ?_) hy
          split at hy
          · exact bind_mono _ _ _ _ (fun y hy => hy) hy
          · cases hy
        · cases hy
      · cases h

theorem parse_mono_le {n n' : Nat} (hn : n ≤ n') {m : Mode K} {ts : List (ATok K)} {x : SE K × List (ATok K)}
    (h : parse n m ts = some x) : parse n' m ts = some x := by
  induction hn with
  | refl => exact h
  | step _ ih => exact parse_mono _ _ _ _ ih

/-- Reading succeeds with enough fuel. -/
def Ev (m : Mode K) (ts : List (ATok K)) (x : SE K × List (ATok K)) : Prop := ∃ n, parse n m ts = some x

theorem Ev.unique {m : Mode K} {ts : List (ATok K)} {x y : SE K × List (ATok K)} (h1 : Ev m ts x) (h2 : Ev m ts y) :
    x = y := by
  obtain ⟨n, h1⟩ := h1
  obtain ⟨k, h2⟩ := h2
  have a := parse_mono_le (Nat.le_max_left n k) h1
  have b := parse_mono_le (Nat.le_max_right n k) h2
  rw [a] at b
  exact Option.some.inj b

theorem Ev.both {m m' : Mode K} {ts ts' : List (ATok K)} {x y : SE K × List (ATok K)} (h1 : Ev m ts x) (h2 : Ev m' ts' y) :
    ∃ n, parse n m ts = some x ∧ parse n m' ts' = some y := by
  obtain ⟨n, h1⟩ := h1
  obtain ⟨k, h2⟩ := h2
  exact ⟨max n k, parse_mono_le (Nat.le_max_left n k) h1, parse_mono_le (Nat.le_max_right n k) h2⟩

section rules
variable {ts r : List (ATok K)} {t u acc : SE K} {x : SE K × List (ATok K)}

theorem Ev.expr (h1 : Ev .term ts (t, r)) (h2 : Ev (.exprRest t) r x) : Ev .expr ts x := by
  obtain ⟨n, h1, h2⟩ := h1.both h2
  exact ⟨n + 1, by rw [parse, h1]; exact h2⟩

theorem Ev.term (h1 : Ev .unary ts (t, r)) (h2 : Ev (.termRest t) r x) : Ev .term ts x := by
  obtain ⟨n, h1, h2⟩ := h1.both h2
  exact ⟨n + 1, by rw [parse, h1]; exact h2⟩

theorem Ev.plus (h1 : Ev .term ts (t, r)) (h2 : Ev (.exprRest (.add acc t)) r x) :
    Ev (.exprRest acc) (.plus :: ts) x := by
  obtain ⟨n, h1, h2⟩ := h1.both h2
  exact ⟨n + 1, by rw [parse]; simp only [h1]; exact h2⟩

theorem Ev.minus (h1 : Ev .term ts (t, r)) (h2 : Ev (.exprRest (.sub acc t)) r x) :
    Ev (.exprRest acc) (.bminus :: ts) x := by
  obtain ⟨n, h1, h2⟩ := h1.both h2
  exact ⟨n + 1, by rw [parse]; simp only [h1]; exact h2⟩

theorem Ev.times (h1 : Ev .unary ts (t, r)) (h2 : Ev (.termRest (.mul acc t)) r x) :
    Ev (.termRest acc) (.times :: ts) x := by
  obtain ⟨n, h1, h2⟩ := h1.both h2
  exact ⟨n + 1, by rw [parse]; simp only [h1]; exact h2⟩

theorem Ev.slash (h1 : Ev .unary ts (t, r)) (h2 : Ev (.termRest (.div acc t)) r x) :
    Ev (.termRest acc) (.slash :: ts) x := by
  obtain ⟨n, h1, h2⟩ := h1.both h2
  exact ⟨n + 1, by rw [parse]; simp only [h1]; exact h2⟩

theorem Ev.neg (h1 : Ev .unary ts (t, r)) : Ev .unary (.uminus :: ts) (.neg t, r) := by
  obtain ⟨n, h1⟩ := h1
  exact ⟨n + 1, by rw [parse]; simp only [h1]; rfl⟩

/-- Tokens an operand can start with, other than a sign. -/
def PrimStart : List (ATok K) → Prop
  | .uminus :: _ => False
  | .bminus :: _ => False
  | _ => True

theorem Ev.unary (hs : PrimStart ts) (h : Ev .prim ts x) : Ev .unary ts x := by
  obtain ⟨n, h⟩ := h
  refine ⟨n + 1, ?_⟩
  rw [parse.eq_def]
  simp only
  split
  · exact hs.elim
  · exact hs.elim
  · exact h

/-- No `*` or `/` follows. -/
def StopT : List (ATok K) → Prop
  | .times :: _ => False
  | .slash :: _ => False
  | _ => True

/-- No operator follows. -/
def StopE : List (ATok K) → Prop
  | .plus :: _ => False
  | .bminus :: _ => False
  | .uminus :: _ => False
  | .times :: _ => False
  | .slash :: _ => False
  | _ => True

theorem StopE.toT {r : List (ATok K)} (h : StopE r) : StopT r := by
  unfold StopE at h
  unfold StopT
  split <;> simp_all

theorem Ev.stopT (h : StopT r) : Ev (.termRest acc) r (acc, r) := by
  refine ⟨1, ?_⟩
  rw [parse.eq_def]
  simp only
  split
  · exact h.elim
  · exact h.elim
  · rfl

theorem Ev.stopE (h : StopE r) : Ev (.exprRest acc) r (acc, r) := by
  refine ⟨1, ?_⟩
  rw [parse.eq_def]
  simp only
  split
  · exact h.elim
  · exact h.elim
  · exact h.elim
  · rfl

theorem Ev.paren (h : Ev .expr ts (t, .rpar :: r)) : Ev .prim (.lpar :: ts) (t, r) := by
  obtain ⟨n, h⟩ := h
  exact ⟨n + 1, by rw [parse]; simp only [h]; rfl⟩

theorem Ev.sqrt (h : Ev .expr ts (t, .rpar :: r)) : Ev .prim (.kwSqrt :: ts) (.sqrt t, r) := by
  obtain ⟨n, h⟩ := h
  exact ⟨n + 1, by rw [parse]; simp only [h]; rfl⟩

theorem Ev.power {r' : List (ATok K)} (h1 : Ev .expr ts (t, .comma :: r')) (h2 : Ev .expr r' (u, .rpar :: r)) :
    Ev .prim (.kwPower :: ts) (.power t u, r) := by
  obtain ⟨n, h1, h2⟩ := h1.both h2
  refine ⟨n + 1, ?_⟩
  rw [parse]
  simp [h1, h2]

theorem Ev.ifz {c : SE K} {r1 r2 : List (ATok K)} (h1 : Ev .expr ts (c, .eqZero :: .comma :: r1))
    (h2 : Ev .expr r1 (t, .comma :: r2)) (h3 : Ev .expr r2 (u, .rpar :: r)) :
    Ev .prim (.kwIf :: ts) (.ifz c t u, r) := by
  obtain ⟨n, h1⟩ := h1
  obtain ⟨k, h2, h3⟩ := h2.both h3
  have a := parse_mono_le (Nat.le_max_left n k) h1
  have b := parse_mono_le (Nat.le_max_right n k) h2
  have c := parse_mono_le (Nat.le_max_right n k) h3
  refine ⟨max n k + 1, ?_⟩
  rw [parse]
  simp [a, b, c]

end rules
end Verif
