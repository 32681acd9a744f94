import Verif.Lemmas.SqlArith
import Mathlib.Tactic.Ring
import Mathlib.Algebra.Field.Rat

/-!
# C25 Printed column arithmetic has the intended value
-/

namespace Verif
variable {K : Type} [Field K] [DecidableEq K]

/-! ## Lemmas -/

section
variable (env : Nat → Option K) (pw : K → K → Option K) (sq : K → Option K)

theorem op2_mul_assoc (a b c : Option K) :
    op2 (· * ·) (op2 (· * ·) a b) c = op2 (· * ·) a (op2 (· * ·) b c) := by
  cases a <;> cases b <;> cases c <;> simp [op2, mul_assoc]

theorem op2_neg_mul (a b : Option K) :
    op2 (· * ·) (a.map (- ·)) b = (op2 (· * ·) a b).map (- ·) := by
  cases a <;> cases b <;> simp [op2]

/-- The text of an operand. -/
def CE.opnd (e : CE K) : List (ATok K) := CE.paren e.isNum e.print

/-- How the text of an operand is read: at the start of a product, as a further factor, after a sign. -/
structure Operand (e : CE K) : Prop where
  head : ∃ t : SE K, t.eval env pw sq = some (e.val env pw) ∧
    ∀ rest x, Ev (.termRest t) rest x → Ev .term (e.opnd ++ rest) x
  factor : ∀ acc : SE K, ∀ v, acc.eval env pw sq = some v → ∃ t : SE K,
    t.eval env pw sq = some (op2 (· * ·) v (e.val env pw)) ∧
    ∀ rest x, Ev (.termRest t) rest x → Ev (.termRest acc) (.times :: e.opnd ++ rest) x
  signed : ∃ t : SE K, t.eval env pw sq = some ((e.val env pw).map (- ·)) ∧
    ∀ rest x, Ev (.termRest t) rest x → Ev .term (.uminus :: e.opnd ++ rest) x

/-- How the whole text is read. -/
def Whole (e : CE K) : Prop := ∃ t : SE K, t.eval env pw sq = some (e.val env pw) ∧
  ∀ rest, StopE rest → Ev .expr (e.print ++ rest) (t, rest)

variable {env pw sq}

/-- A text read as one unary expression. -/
theorem operand_of_unary {e : CE K} {t : SE K} (ht : t.eval env pw sq = some (e.val env pw))
    (h : ∀ rest, Ev .unary (e.opnd ++ rest) (t, rest)) : Operand env pw sq e := by
  refine ⟨⟨t, ht, fun rest x hx => (h rest).term hx⟩, fun acc v hv => ⟨.mul acc t, ?_, fun rest x hx => ?_⟩,
    ⟨.neg t, ?_, fun rest x hx => (h rest).neg.term hx⟩⟩
  · simp [SE.eval, hv, ht]
  · exact (h rest).times hx
  · simp [SE.eval, ht]

theorem whole_of_unary {e : CE K} {t : SE K} (ht : t.eval env pw sq = some (e.val env pw))
    (h : ∀ rest, Ev .unary (e.print ++ rest) (t, rest)) : Whole env pw sq e :=
  ⟨t, ht, fun rest hr => ((h rest).term (Ev.stopT hr.toT)).expr (Ev.stopE hr)⟩

theorem operand_paren {e : CE K} (hn : e.isNum = false) (hp : e.print.any ATok.pm = true)
    (h : Whole env pw sq e) : Operand env pw sq e := by
  obtain ⟨t, ht, h⟩ := h
  refine operand_of_unary ht (fun rest => ?_)
  have : e.opnd ++ rest = .lpar :: (e.print ++ .rpar :: rest) := by
    unfold CE.opnd CE.paren
    simp [hn, hp]
  rw [this]
  exact Ev.unary (by trivial) (Ev.paren (h (.rpar :: rest) (by trivial)))

theorem opnd_plain {e : CE K} (hp : e.print.any ATok.pm = false) : e.opnd = e.print := by
  unfold CE.opnd CE.paren
  simp only [hp, Bool.false_eq_true, if_false]
  split <;> rfl

theorem print_mul (a b : CE K) : (CE.mul a b).print = a.opnd ++ .times :: b.opnd := rfl

theorem operand_mul {a b : CE K} (ha : Operand env pw sq a) (hb : Operand env pw sq b)
    (hp : (CE.mul a b).print.any ATok.pm = false) : Operand env pw sq (.mul a b) := by
  obtain ⟨ta, hta, pa⟩ := ha.head
  obtain ⟨tb, htb, pb⟩ := hb.factor ta _ hta
  have hop := opnd_plain hp
  rw [print_mul] at hop
  refine ⟨⟨tb, htb, fun rest x hx => ?_⟩, fun acc v hv => ?_, ?_⟩
  · rw [hop, List.append_assoc]
    exact pa _ _ (pb _ _ hx)
  · obtain ⟨t1, h1, p1⟩ := ha.factor acc v hv
    obtain ⟨t2, h2, p2⟩ := hb.factor t1 _ h1
    refine ⟨t2, by rw [h2, op2_mul_assoc]; rfl, fun rest x hx => ?_⟩
    rw [hop]
    have := p1 _ _ (p2 _ _ hx)
    simpa using this
  · obtain ⟨t1, h1, p1⟩ := ha.signed
    obtain ⟨t2, h2, p2⟩ := hb.factor t1 _ h1
    refine ⟨t2, by rw [h2, op2_neg_mul]; rfl, fun rest x hx => ?_⟩
    rw [hop]
    have := p1 _ _ (p2 _ _ hx)
    simpa using this

theorem whole_of_head {e : CE K} (h : Operand env pw sq e) (hp : e.opnd = e.print) : Whole env pw sq e := by
  obtain ⟨t, ht, h⟩ := h.head
  rw [hp] at h
  exact ⟨t, ht, fun rest hr => (h rest _ (Ev.stopT hr.toT)).expr (Ev.stopE hr)⟩

theorem isHalf_val {e : CE K} (h : e.isHalf = true) : e.val env pw = some (1 / 2) := by
  cases e with
  | num ng v pm =>
    simp only [CE.isHalf, Bool.and_eq_true, Bool.not_eq_true', beq_iff_eq] at h
    simp [CE.val, h.1, h.2]
  | _ => cases h

/-- A closed text (a call or a single token) is an operand and a whole. -/
theorem closed_both {e : CE K} {t : SE K} (ht : t.eval env pw sq = some (e.val env pw)) (hn : e.isNum = false)
    (hs : ∀ rest, PrimStart (e.print ++ rest))
    (h : ∀ rest, Ev .prim (e.print ++ rest) (t, rest)) : Operand env pw sq e ∧ Whole env pw sq e := by
  have hw : Whole env pw sq e := whole_of_unary ht (fun rest => (h rest).unary (hs rest))
  refine ⟨?_, hw⟩
  cases hp : e.print.any ATok.pm with
  | true => exact operand_paren hn hp hw
  | false => exact operand_of_unary ht (fun rest => by rw [opnd_plain hp]; exact (h rest).unary (hs rest))

theorem reads_all (hsq : ∀ x, pw x (1 / 2) = sq x) (e : CE K) : Operand env pw sq e ∧ Whole env pw sq e := by
  induction e with
  | col i pm =>
    refine closed_both (t := .atom i) rfl rfl (fun rest => by trivial) (fun rest => ⟨1, by rfl⟩)
  | num ng v pm =>
    have h : ∀ rest, Ev .unary ((CE.num ng v pm).print ++ rest) (if ng then .neg (.num v) else .num v, rest) := by
      intro rest
      have h1 : Ev .unary (ATok.num v pm :: rest) (.num v, rest) := Ev.unary (by trivial) ⟨1, by rfl⟩
      cases ng with
      | true => exact h1.neg
      | false => exact h1
    have hv : (if ng then .neg (.num v) else .num v : SE K).eval env pw sq = some ((CE.num ng v pm).val env pw) := by
      cases ng <;> simp [SE.eval, CE.val]
    exact ⟨operand_of_unary hv h, whole_of_unary hv h⟩
  | add a b iha ihb =>
    have hw : Whole env pw sq (.add a b) := by
      obtain ⟨ta, hta, pa⟩ := iha.1.head
      obtain ⟨tb, htb, pb⟩ := ihb.1.head
      refine ⟨.add ta tb, by simp [SE.eval, hta, htb, CE.val], fun rest hr => ?_⟩
      have : (CE.add a b).print ++ rest = a.opnd ++ (.plus :: (b.opnd ++ rest)) := by
        simp [CE.print, CE.opnd]
      rw [this]
      exact (pa _ _ (Ev.stopT (by trivial))).expr
        (Ev.plus (pb _ _ (Ev.stopT hr.toT)) (Ev.stopE hr))
    exact ⟨operand_paren rfl (by simp [CE.print, ATok.pm]) hw, hw⟩
  | sub a b iha ihb =>
    have hw : Whole env pw sq (.sub a b) := by
      obtain ⟨ta, hta, pa⟩ := iha.1.head
      obtain ⟨tb, htb, pb⟩ := ihb.1.head
      refine ⟨.sub ta tb, by simp [SE.eval, hta, htb, CE.val], fun rest hr => ?_⟩
      have : (CE.sub a b).print ++ rest = a.opnd ++ (.bminus :: (b.opnd ++ rest)) := by
        simp [CE.print, CE.opnd]
      rw [this]
      exact (pa _ _ (Ev.stopT (by trivial))).expr
        (Ev.minus (pb _ _ (Ev.stopT hr.toT)) (Ev.stopE hr))
    exact ⟨operand_paren rfl (by simp [CE.print, ATok.pm]) hw, hw⟩
  | mul a b iha ihb =>
    have hw : Whole env pw sq (.mul a b) := by
      obtain ⟨ta, hta, pa⟩ := iha.1.head
      obtain ⟨tb, htb, pb⟩ := ihb.1.factor ta _ hta
      refine ⟨tb, htb, fun rest hr => ?_⟩
      rw [print_mul, List.append_assoc]
      exact (pa _ _ (pb _ _ (Ev.stopT hr.toT))).expr (Ev.stopE hr)
    refine ⟨?_, hw⟩
    cases hp : (CE.mul a b).print.any ATok.pm with
    | true => exact operand_paren rfl hp hw
    | false => exact operand_mul iha.1 ihb.1 hp
  | neg a iha =>
    have hw : Whole env pw sq (.neg a) := by
      obtain ⟨t, ht, p⟩ := iha.1.signed
      exact ⟨t, ht, fun rest hr => (p _ _ (Ev.stopT hr.toT)).expr (Ev.stopE hr)⟩
    exact ⟨operand_paren rfl (by simp [CE.print, ATok.pm]) hw, hw⟩
  | div a b iha ihb =>
    obtain ⟨ta, hta, pa⟩ := iha.2
    obtain ⟨tb, htb, pb⟩ := ihb.2
    refine closed_both (t := .ifz tb .null (.div ta tb)) ?_ rfl (fun rest => by trivial) (fun rest => ?_)
    · simp only [SE.eval, hta, htb, CE.val, Option.bind_eq_bind, Option.bind_some]
      cases hb : b.val env pw with
      | none => cases ha : a.val env pw <;> simp [op2, op2?]
      | some y =>
        by_cases hy : y = 0
        · subst hy
          cases ha : a.val env pw <;> simp [op2?]
        · cases ha : a.val env pw <;> simp [op2, op2?, hy]
    · have : (CE.div a b).print ++ rest = .kwIf :: .lpar :: (b.print ++ .rpar :: .eqZero :: .comma :: .kwNull ::
          .comma :: .lpar :: (a.print ++ .rpar :: .slash :: .lpar :: (b.print ++ .rpar :: .rpar :: rest))) := by
        simp [CE.print]
      rw [this]
      have wrap : ∀ (e : CE K) (t : SE K) (r : List (ATok K)),
          (∀ rest, StopE rest → Ev .expr (e.print ++ rest) (t, rest)) →
          Ev .unary (.lpar :: (e.print ++ .rpar :: r)) (t, r) := fun e t r h =>
        Ev.unary (by trivial) (Ev.paren (h _ (by trivial)))
      refine Ev.ifz (c := tb) (t := .null) (u := .div ta tb)
        (((wrap b tb _ pb).term (Ev.stopT (by trivial))).expr (Ev.stopE (by trivial)))
        (((Ev.unary (by trivial) ⟨1, by rfl⟩).term (Ev.stopT (by trivial))).expr (Ev.stopE (by trivial)))
        (((wrap a ta _ pa).term (Ev.slash (wrap b tb _ pb) (Ev.stopT (by trivial)))).expr (Ev.stopE (by trivial)))
  | pow a b iha ihb =>
    obtain ⟨ta, hta, pa⟩ := iha.2
    obtain ⟨tb, htb, pb⟩ := ihb.2
    cases hb : b.isHalf with
    | true =>
      refine closed_both (t := .sqrt ta) ?_ rfl (fun rest => ?_) (fun rest => ?_)
      · simp only [SE.eval, hta, CE.val, isHalf_val hb, Option.bind_eq_bind, Option.bind_some]
        cases ha : a.val env pw with
        | none => simp [op2?]
        | some x =>
          have := hsq x
          simp only [op2?, Option.bind_some, this]
          rfl
      · simp [CE.print, hb, PrimStart]
      · have : (CE.pow a b).print ++ rest = .kwSqrt :: (a.print ++ .rpar :: rest) := by simp [CE.print, hb]
        rw [this]
        exact Ev.sqrt (pa _ (by trivial))
    | false =>
      refine closed_both (t := .power ta tb) ?_ rfl (fun rest => ?_) (fun rest => ?_)
      · simp [SE.eval, hta, htb, CE.val]
      · simp [CE.print, hb, PrimStart]
      · have : (CE.pow a b).print ++ rest = .kwPower :: (a.print ++ .comma :: (b.print ++ .rpar :: rest)) := by
          simp [CE.print, hb]
        rw [this]
        exact Ev.power (pa _ (by trivial)) (pb _ (by trivial))

end

/-! ## C25 -/

/-- **C25** The SQL text of any arithmetic over columns is read, with SQL precedence, as an expression that
never fails and whose value is the value of the arithmetic written in Python, for all values (NULL
included) of the columns. `SAFE.SQRT` is the power 1/2. -/
theorem C25_value (env : Nat → Option K) (pw : K → K → Option K) (sq : K → Option K)
    (hsq : ∀ x, pw x (1 / 2) = sq x) (e : CE K) :
    ∃ t, Reads e.print t ∧ t.eval env pw sq = some (e.val env pw) := by
  obtain ⟨t, ht, h⟩ := (reads_all (env := env) hsq e).2
  have := h [] (by trivial)
  rw [List.append_nil] at this
  exact ⟨t, this, ht⟩

/-- **C25** A text is read in one way only. -/
theorem C25_unique (ts : List (ATok K)) (t t' : SE K) (h : Reads ts t) (h' : Reads ts t') : t = t' :=
  congrArg Prod.fst (Ev.unique h h')

/-- So: however the printed text is read, it has the intended value. -/
theorem C25_every_reading (env : Nat → Option K) (pw : K → K → Option K) (sq : K → Option K)
    (hsq : ∀ x, pw x (1 / 2) = sq x) (e : CE K) (t : SE K) (h : Reads e.print t) :
    t.eval env pw sq = some (e.val env pw) := by
  obtain ⟨t', h1, h2⟩ := C25_value env pw sq hsq e
  rw [C25_unique _ _ _ h h1, h2]


/-! ### No accidental comment -/

/-- The last token is not a sign. -/
def LastOk (ts : List (ATok K)) : Prop := ∃ xs x, ts = xs ++ [x] ∧ x ≠ .uminus

omit [Field K] [DecidableEq K] in
theorem comment_append {xs ys : List (ATok K)} (hx : LastOk xs) (h : Comment (xs ++ ys)) :
    Comment xs ∨ Comment ys := by
  obtain ⟨zs, z, rfl, hz⟩ := hx
  induction zs with
  | nil =>
    right
    cases z with
    | uminus => exact absurd rfl hz
    | _ => exact h
  | cons a zs ih =>
    cases zs with
    | nil =>
      cases a <;> cases z <;> first | (exact absurd rfl hz) | (exact ih h) | (exact Or.inl trivial) | (rcases ih h with h | h <;> first | exact Or.inl h | exact Or.inr h)
    | cons b zs =>
      cases a <;> cases b <;> first | (exact Or.inl trivial) | (rcases ih h with h | h <;> first | exact Or.inl h | exact Or.inr h)

theorem lastOk_append {xs ys : List (ATok K)} (h : LastOk ys) : LastOk (xs ++ ys) := by
  obtain ⟨zs, z, rfl, hz⟩ := h
  exact ⟨xs ++ zs, z, by simp, hz⟩

theorem lastOk_cons {x : ATok K} {ys : List (ATok K)} (h : LastOk ys) : LastOk (x :: ys) :=
  lastOk_append (xs := [x]) h

theorem lastOk_one {x : ATok K} (h : x ≠ .uminus) : LastOk [x] := ⟨[], x, rfl, h⟩

theorem lastOk_paren {n : Bool} {ts : List (ATok K)} (h : LastOk ts) : LastOk (CE.paren n ts) := by
  unfold CE.paren
  split
  · exact h
  · split
    · exact lastOk_append (lastOk_one (by simp))
    · exact h

theorem lastOk_print (e : CE K) : LastOk e.print := by
  induction e with
  | col i pm => exact lastOk_one (by simp)
  | num ng v pm =>
    cases ng with
    | true => exact lastOk_cons (lastOk_one (by simp))
    | false => exact lastOk_one (by simp)
  | add a b _ ihb | sub a b _ ihb | mul a b _ ihb => exact lastOk_append (lastOk_cons (lastOk_paren ihb))
  | neg a ih => exact lastOk_cons (lastOk_paren ih)
  | div a b _ _ => exact lastOk_append (lastOk_cons (lastOk_one (by simp)))
  | pow a b _ _ =>
    unfold CE.print
    split
    · exact lastOk_append (lastOk_one (by simp))
    · exact lastOk_append (lastOk_one (by simp))

theorem comment_cons {x : ATok K} {ys : List (ATok K)} (hx : x ≠ .uminus) (h : Comment (x :: ys)) : Comment ys := by
  rcases comment_append (lastOk_one hx) (show Comment ([x] ++ ys) from h) with h | h
  · cases x <;> first | exact absurd rfl hx | exact h.elim
  · exact h

theorem comment_paren {n : Bool} {ts : List (ATok K)} (hl : LastOk ts) (h : Comment (CE.paren n ts)) : Comment ts := by
  unfold CE.paren at h
  split at h
  · exact h
  · split at h
    · rcases comment_append (xs := ATok.lpar :: ts) (lastOk_cons hl) h with h | h
      · exact comment_cons (by simp) h
      · exact h.elim
    · exact h

theorem num_no_comment {e : CE K} (h : e.isNum = true) : ¬ Comment e.print := by
  cases e with
  | num ng v pm => cases ng <;> exact id
  | _ => cases h

/-- **C25** The text never contains `--`, which would start a comment. -/
theorem C25_no_comment (e : CE K) (he : e.wf) : ¬ Comment e.print := by
  have bin : ∀ (a b : CE K) (x : ATok K), x ≠ .uminus → (a.wf → ¬ Comment a.print) → (b.wf → ¬ Comment b.print) →
      ((a.wf ∧ (b.wf ∨ b.isNum)) ∨ (a.isNum ∧ b.wf)) →
      ¬ Comment (CE.paren a.isNum a.print ++ x :: CE.paren b.isNum b.print) := by
    intro a b x hx iha ihb hwf h
    have ha : ¬ Comment a.print := by
      rcases hwf with ⟨h1, _⟩ | ⟨h1, _⟩
      · exact iha h1
      · exact num_no_comment h1
    have hb : ¬ Comment b.print := by
      rcases hwf with ⟨_, h1 | h1⟩ | ⟨_, h1⟩
      · exact ihb h1
      · exact num_no_comment h1
      · exact ihb h1
    rcases comment_append (lastOk_paren (lastOk_print a)) h with h | h
    · exact ha (comment_paren (lastOk_print a) h)
    · exact hb (comment_paren (lastOk_print b) (comment_cons hx h))
  have both : ∀ (a b : CE K), (a.wf → ¬ Comment a.print) → (b.wf → ¬ Comment b.print) →
      ((a.wf ∧ (b.wf ∨ b.isNum)) ∨ (a.isNum ∧ b.wf)) → ¬ Comment a.print ∧ ¬ Comment b.print := by
    intro a b iha ihb hwf
    rcases hwf with ⟨h1, h2 | h2⟩ | ⟨h1, h2⟩
    · exact ⟨iha h1, ihb h2⟩
    · exact ⟨iha h1, num_no_comment h2⟩
    · exact ⟨num_no_comment h1, ihb h2⟩
  induction e with
  | col i pm => exact id
  | num ng v pm => exact he.elim
  | add a b iha ihb | sub a b iha ihb | mul a b iha ihb => exact bin a b _ (by simp) iha ihb he
  | neg a iha =>
    have hn : a.isNum = false := by
      cases a with
      | num _ _ _ => exact he.elim
      | _ => rfl
    intro h
    change Comment (.uminus :: CE.paren a.isNum a.print) at h
    have hrest : ¬ Comment (CE.paren a.isNum a.print) := fun h => iha he (comment_paren (lastOk_print a) h)
    have hhead : ∀ x xs, CE.paren a.isNum a.print = x :: xs → x ≠ .uminus ∧ x ≠ .bminus := by
      intro x xs hx
      unfold CE.paren at hx
      rw [hn] at hx
      simp only [Bool.false_eq_true, if_false] at hx
      split at hx
      · cases hx; simp
      · rename_i hp
        constructor <;> rintro rfl <;> simp [hx, ATok.pm] at hp
    cases hts : CE.paren a.isNum a.print with
    | nil => rw [hts] at h; exact h
    | cons x xs =>
      rw [hts] at h hrest
      obtain ⟨h1, h2⟩ := hhead x xs hts
      cases x <;> first | exact absurd rfl h1 | exact absurd rfl h2 | exact hrest h
  | div a b iha ihb =>
    obtain ⟨ha, hb⟩ := both a b iha ihb he
    intro h
    have e : (CE.div a b).print = .kwIf :: .lpar :: (b.print ++ .rpar :: .eqZero :: .comma :: .kwNull ::
          .comma :: .lpar :: (a.print ++ .rpar :: .slash :: .lpar :: (b.print ++ [.rpar, .rpar]))) := by
        simp [CE.print]
    rw [e] at h
    rcases comment_append (lastOk_print b) (show Comment (b.print ++ _) from h) with h | h
    · exact hb h
    · rcases comment_append (lastOk_print a) (show Comment (a.print ++ _) from h) with h | h
      · exact ha h
      · rcases comment_append (lastOk_print b) (show Comment (b.print ++ _) from h) with h | h
        · exact hb h
        · exact h
  | pow a b iha ihb =>
    obtain ⟨ha, hb⟩ := both a b iha ihb he
    intro h
    unfold CE.print at h
    split at h
    · rcases comment_append (lastOk_print a) (show Comment (a.print ++ [.rpar]) from h) with h | h
      · exact ha h
      · exact h
    · rw [List.append_assoc] at h
      rcases comment_append (lastOk_print a) (show Comment (a.print ++ (.comma :: b.print ++ [.rpar])) from comment_cons (x := .kwPower) (by simp) (by simpa using h)) with h | h
      · exact ha h
      · rcases comment_append (lastOk_print b) (show Comment (b.print ++ [.rpar]) from h) with h | h
        · exact hb h
        · exact h

/-- A concrete case: `a * (b * -(c - -2)) / (d - e)` is well formed; its text is
`IF((d - e) = 0, NULL, (a * (b * (-(c - -2)))) / (d - e))`. -/
example : let e : CE ℚ := .div (.mul (.col 0 false) (.mul (.col 1 false) (.neg (.sub (.col 2 false) (.num true 2 false))))) (.sub (.col 3 false) (.col 4 false))
    e.wf ∧ e.print = [.kwIf, .lpar, .atom 3 false, .bminus, .atom 4 false, .rpar, .eqZero, .comma, .kwNull, .comma,
      .lpar, .atom 0 false, .times, .lpar, .atom 1 false, .times, .lpar, .uminus, .lpar, .atom 2 false, .bminus,
      .uminus, .num 2 false, .rpar, .rpar, .rpar, .rpar, .slash, .lpar, .atom 3 false, .bminus, .atom 4 false, .rpar, .rpar] := by
  refine ⟨by simp [CE.wf, CE.isNum], by simp [CE.print, CE.paren, CE.isNum, ATok.pm]⟩

end Verif
