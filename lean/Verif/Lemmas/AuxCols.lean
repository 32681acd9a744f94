import Verif.Spec.AuxCols

namespace Verif

/-- Requests seen through: a user column, a number, a column added before, or arithmetic. -/
inductive AX where
  | base (c : CName)
  | num (n : Nat)
  | aux (a : AX)
  | bin (op : AOp) (a b : AX)

def AX.pr (pre : CName) : AX → CName
  | .base c => c
  | .num n => natName n
  | .aux a => pre ++ a.pr pre
  | .bin op a b =>
      if op.commutes && decide (b.pr pre < a.pr pre) then op.render (b.pr pre) (a.pr pre)
      else op.render (a.pr pre) (b.pr pre)

def comb (op : AOp) : Option (List Cell) → Option (List Cell) → Option (List Cell)
  | some x, some y => some (op.cells x y)
  | _, _ => none

def AX.eval (U : DF) (len : Nat) : AX → Option (List Cell)
  | .base c => U.lookup c
  | .num n => some (List.replicate len (some (n : Rat)))
  | .aux a => a.eval U len
  | .bin op a b => comb op (a.eval U len) (b.eval U len)

/-- Base columns are user columns. -/
def AX.Wf (U : DF) : AX → Prop
  | .base c => (U.lookup c).isSome
  | .num _ => True
  | .aux a => a.Wf U
  | .bin _ a b => a.Wf U ∧ b.Wf U

/-! ### Words -/

theorem natName_digit (n : Nat) : ∀ c ∈ natName n, c.isDigit = true := fun _ h =>
  Nat.isDigit_of_mem_toDigits (by decide) (by decide) h

theorem natName_cons (n : Nat) : ∃ h t, natName n = h :: t ∧ h.isDigit = true := by
  cases hn : natName n with
  | nil => exact absurd hn Nat.toDigits_ne_nil
  | cons h t => exact ⟨h, t, rfl, natName_digit n h (by simp [hn])⟩

theorem natName_plain (n : Nat) : ∀ c ∈ natName n, isDelim c = false := by
  intro c hc
  have := natName_digit n c hc
  unfold isDelim
  by_contra h
  simp only [Bool.not_eq_false, Bool.or_eq_true, decide_eq_true_eq] at h
  rcases h with ((rfl | rfl) | rfl) | rfl <;> exact absurd this (by decide)

theorem digitChar_inj : ∀ a < 10, ∀ b < 10, Nat.digitChar a = Nat.digitChar b → a = b := by decide

theorem natName_inj : ∀ (n m : Nat), natName n = natName m → n = m := by
  intro n
  induction n using Nat.strongRecOn with
  | _ n ih =>
    intro m h
    unfold natName at h ih
    rw [Nat.toDigits_eq_if (by decide), Nat.toDigits_eq_if (b := 10) (n := m) (by decide)] at h
    by_cases hn : n < 10
    · by_cases hm : m < 10
      · rw [if_pos hn, if_pos hm] at h
        exact digitChar_inj n hn m hm (by simpa using h)
      · rw [if_pos hn, if_neg hm] at h
        have := congrArg List.length h
        have h2 := Nat.length_toDigits_pos (b := 10) (n := m / 10)
        simp at this
    · by_cases hm : m < 10
      · rw [if_neg hn, if_pos hm] at h
        have := congrArg List.length h
        have h2 := Nat.length_toDigits_pos (b := 10) (n := n / 10)
        simp at this
      · rw [if_neg hn, if_neg hm] at h
        obtain ⟨h1, h2⟩ := List.append_inj' h rfl
        have e1 := ih (n / 10) (by omega) (m / 10) h1
        have e2 := digitChar_inj (n % 10) (by omega) (m % 10) (by omega) (by simpa using h2)
        omega

/-- What may follow a name inside a larger one. -/
def Follow (r : CName) : Prop := r = [] ∨ ∃ c t, r = c :: t ∧ (c = ' ' ∨ c = ')' ∨ c = ',')

def DelimHead (r : CName) : Prop := r = [] ∨ ∃ c t, r = c :: t ∧ isDelim c = true

theorem Follow.delim {r : CName} (h : Follow r) : DelimHead r := by
  rcases h with rfl | ⟨c, t, rfl, h⟩
  · exact Or.inl rfl
  · exact Or.inr ⟨c, t, rfl, by rcases h with rfl | rfl | rfl <;> decide⟩

theorem word_unique : ∀ (w1 w2 r1 r2 : CName), (∀ c ∈ w1, isDelim c = false) →
    (∀ c ∈ w2, isDelim c = false) → DelimHead r1 → DelimHead r2 → w1 ++ r1 = w2 ++ r2 →
    w1 = w2 ∧ r1 = r2
  | [], [], r1, r2, _, _, _, _, h => ⟨rfl, by simpa using h⟩
  | [], c :: w2, r1, r2, _, h2, d1, _, h => by
      exfalso
      rcases d1 with rfl | ⟨x, t, rfl, hx⟩
      · simp at h
      · simp only [List.nil_append, List.cons_append, List.cons.injEq] at h
        have := h2 c (by simp)
        rw [← h.1, hx] at this; cases this
  | c :: w1, [], r1, r2, h1, _, _, d2, h => by
      exfalso
      rcases d2 with rfl | ⟨x, t, rfl, hx⟩
      · simp at h
      · simp only [List.nil_append, List.cons_append, List.cons.injEq] at h
        have := h1 c (by simp)
        rw [h.1, hx] at this; cases this
  | c :: w1, d :: w2, r1, r2, h1, h2, d1, d2, h => by
      simp only [List.cons_append, List.cons.injEq] at h
      obtain ⟨e1, e2⟩ := word_unique w1 w2 r1 r2 (fun c hc => h1 c (List.mem_cons_of_mem _ hc))
        (fun c hc => h2 c (List.mem_cons_of_mem _ hc)) d1 d2 h.2
      exact ⟨by rw [h.1, e1], e2⟩

/-! ### Printed arithmetic -/

/-- The order in which the arguments are printed. -/
theorem comb_comm (op : AOp) (h : op.commutes = true) (x y : Option (List Cell)) :
    comb op x y = comb op y x := by
  cases x with
  | none => cases y <;> rfl
  | some x =>
    cases y with
    | none => rfl
    | some y =>
      show some (List.zipWith op.cell x y) = some (List.zipWith op.cell y x)
      congr 1
      rw [List.zipWith_comm]
      congr 1
      funext a b
      cases op <;> simp [AOp.commutes] at h
      · cases a <;> cases b <;> simp [AOp.cell, Cell.map₂, add_comm]
      · cases a <;> cases b <;> simp [AOp.cell, Cell.map₂, mul_comm]

theorem bin_view (pre : CName) (U : DF) (len : Nat) (op : AOp) (a b : AX) :
    ∃ a' b', ((a' = a ∧ b' = b) ∨ (a' = b ∧ b' = a)) ∧
      (AX.bin op a b).pr pre = op.render (a'.pr pre) (b'.pr pre) ∧
      (AX.bin op a b).eval U len = comb op (a'.eval U len) (b'.eval U len) := by
  by_cases h : (op.commutes && decide (b.pr pre < a.pr pre)) = true
  · refine ⟨b, a, Or.inr ⟨rfl, rfl⟩, by simp only [AX.pr]; rw [if_pos h], ?_⟩
    rw [Bool.and_eq_true] at h
    exact comb_comm op h.1 _ _
  · exact ⟨a, b, Or.inl ⟨rfl, rfl⟩, by simp only [AX.pr]; rw [if_neg h], rfl⟩

theorem render_head (op : AOp) (n0 n1 r : CName) :
    (∃ t, op.render n0 n1 ++ r = '(' :: t) ∨
    (op = .pow ∧ ∃ t, op.render n0 n1 ++ r = ['P', 'O', 'W', 'E', 'R'] ++ '(' :: t) := by
  cases op <;> simp [AOp.render]

/-- The prefix behaves. -/
structure GoodPre (pre : CName) (U : DF) : Prop where
  plain : ∀ c ∈ pre, isDelim c = false
  head : ∃ t, pre = 'm' :: t
  fresh : ∀ c, (U.lookup c).isSome → ¬ pre <+: c

variable {pre : CName} {U : DF} (len : Nat)

theorem base_ne_aux (hp : GoodPre pre U) {c n r1 : CName} (hc : (U.lookup c).isSome)
    (hf : Follow r1) : c ++ r1 ≠ pre ++ n := by
  intro h
  rcases List.append_eq_append_iff.1 h with ⟨d, h1, h2⟩ | ⟨d, h1, h2⟩
  · -- pre = c ++ d, r1 = d ++ n
    cases d with
    | nil => exact hp.fresh c hc ⟨[], by simp [h1]⟩
    | cons x d =>
      have hx : isDelim x = false := hp.plain x (by rw [h1]; simp)
      rcases hf with rfl | ⟨y, t, rfl, hy⟩
      · simp at h2
      · simp only [List.cons_append, List.cons.injEq] at h2
        rw [← h2.1] at hx
        rcases hy with rfl | rfl | rfl <;> exact absurd hx (by decide)
  · exact hp.fresh c hc ⟨d, h1.symm⟩

theorem base_ne_render {c r1 : CName} (hc : PlainName c) (hf : Follow r1) (op : AOp)
    (n0 n1 r2 : CName) : c ++ r1 ≠ op.render n0 n1 ++ r2 := by
  intro h
  obtain ⟨hpl, x, t, rfl, _⟩ := hc
  rcases render_head op n0 n1 r2 with ⟨t', h'⟩ | ⟨_, t', h'⟩
  · rw [h'] at h
    simp only [List.cons_append, List.cons.injEq] at h
    have := hpl x (by simp)
    rw [h.1] at this; exact absurd this (by decide)
  · rw [h'] at h
    obtain ⟨_, e⟩ := word_unique _ ['P', 'O', 'W', 'E', 'R'] r1 ('(' :: t') hpl
      (by decide) hf.delim (Or.inr ⟨'(', t', rfl, by decide⟩) h
    rcases hf with rfl | ⟨y, s, rfl, hy⟩
    · cases e
    · simp only [List.cons.injEq] at e
      rw [e.1] at hy
      exact absurd hy (by decide)

theorem num_ne_aux (hp : GoodPre pre U) (k : Nat) (r n : CName) : natName k ++ r ≠ pre ++ n := by
  intro h
  obtain ⟨x, t, hx, hd⟩ := natName_cons k
  obtain ⟨t', ht'⟩ := hp.head
  rw [hx, ht'] at h
  simp only [List.cons_append, List.cons.injEq] at h
  rw [h.1] at hd; exact absurd hd (by decide)

theorem num_ne_render (k : Nat) (r : CName) (op : AOp) (n0 n1 r2 : CName) :
    natName k ++ r ≠ op.render n0 n1 ++ r2 := by
  intro h
  obtain ⟨x, t, hx, hd⟩ := natName_cons k
  rw [hx] at h
  rcases render_head op n0 n1 r2 with ⟨t', h'⟩ | ⟨_, t', h'⟩
  · rw [h'] at h
    simp only [List.cons_append, List.cons.injEq] at h
    rw [h.1] at hd; exact absurd hd (by decide)
  · rw [h'] at h
    simp only [List.cons_append, List.cons.injEq] at h
    rw [h.1] at hd; exact absurd hd (by decide)

theorem aux_ne_render (hp : GoodPre pre U) (n : CName) (op : AOp) (n0 n1 r2 : CName) :
    pre ++ n ≠ op.render n0 n1 ++ r2 := by
  intro h
  obtain ⟨t, ht⟩ := hp.head
  rw [ht] at h
  rcases render_head op n0 n1 r2 with ⟨t', h'⟩ | ⟨_, t', h'⟩
  · rw [h'] at h
    simp only [List.cons_append, List.cons.injEq] at h
    exact absurd h.1 (by decide)
  · rw [h'] at h
    simp only [List.cons_append, List.cons.injEq] at h
    exact absurd h.1 (by decide)

theorem render_shape (op : AOp) (n0 n1 r : CName) :
    op.render n0 n1 ++ r =
      (if op = .pow then ['P', 'O', 'W', 'E', 'R', '('] else ['(']) ++
        (n0 ++ ((match op with
          | .add => [' ', '+', ' '] | .sub => [' ', '-', ' '] | .mul => [' ', '*', ' ']
          | .div => [' ', '/', ' '] | .pow => [',', ' ']) ++ (n1 ++ (')' :: r)))) := by
  cases op <;> simp [AOp.render]

/-- A printed name determines the values, whatever the order in which commutative
arguments were given. -/
theorem pr_inj (hp : GoodPre pre U) (hU : ∀ c, (U.lookup c).isSome → PlainName c) :
    ∀ (x y : AX) (r1 r2 : CName), x.Wf U → y.Wf U → Follow r1 → Follow r2 →
      x.pr pre ++ r1 = y.pr pre ++ r2 → x.eval U len = y.eval U len ∧ r1 = r2
  | .base c, y, r1, r2, hx, hy, f1, f2, h => by
      have hc := hU c hx
      cases y with
      | base c' =>
        obtain ⟨e1, e2⟩ := word_unique c c' r1 r2 hc.1 (hU c' hy).1 f1.delim f2.delim h
        subst e1
        exact ⟨rfl, e2⟩
      | num k =>
        exfalso
        obtain ⟨e1, _⟩ := word_unique c (natName k) r1 r2 hc.1 (natName_plain k) f1.delim f2.delim h
        obtain ⟨_, a, t, hat, hd⟩ := hc
        obtain ⟨b, t', hbt, hd'⟩ := natName_cons k
        rw [hat, hbt] at e1
        simp only [List.cons.injEq] at e1
        rw [e1.1, hd'] at hd; cases hd
      | aux a =>
        simp only [AX.pr, List.append_assoc] at h
        exact absurd h (base_ne_aux hp hx f1)
      | bin op a b =>
        obtain ⟨a', b', _, hpr, _⟩ := bin_view pre U len op a b
        rw [hpr] at h
        exact absurd h (base_ne_render hc f1 op _ _ _)
  | .num k, y, r1, r2, hx, hy, f1, f2, h => by
      cases y with
      | base c' =>
        exfalso
        have hc := hU c' hy
        obtain ⟨e1, _⟩ := word_unique (natName k) c' r1 r2 (natName_plain k) hc.1 f1.delim f2.delim h
        obtain ⟨_, a, t, hat, hd⟩ := hc
        obtain ⟨b, t', hbt, hd'⟩ := natName_cons k
        rw [hat, hbt] at e1
        simp only [List.cons.injEq] at e1
        rw [← e1.1, hd'] at hd; cases hd
      | num k' =>
        obtain ⟨e1, e2⟩ := word_unique (natName k) (natName k') r1 r2 (natName_plain k)
          (natName_plain k') f1.delim f2.delim h
        rw [natName_inj _ _ e1]
        exact ⟨rfl, e2⟩
      | aux a =>
        simp only [AX.pr, List.append_assoc] at h
        exact absurd h (num_ne_aux hp k _ _)
      | bin op a b =>
        obtain ⟨a', b', _, hpr, _⟩ := bin_view pre U len op a b
        rw [hpr] at h
        exact absurd h (num_ne_render k _ op _ _ _)
  | .aux a, y, r1, r2, hx, hy, f1, f2, h => by
      cases y with
      | base c' =>
        simp only [AX.pr, List.append_assoc] at h
        exact absurd h.symm (base_ne_aux hp hy f2)
      | num k' =>
        simp only [AX.pr, List.append_assoc] at h
        exact absurd h.symm (num_ne_aux hp k' _ _)
      | aux a' =>
        simp only [AX.pr, List.append_assoc, List.append_cancel_left_eq] at h
        exact pr_inj hp hU a a' r1 r2 hx hy f1 f2 h
      | bin op b c =>
        obtain ⟨a', b', _, hpr, _⟩ := bin_view pre U len op b c
        rw [hpr] at h
        simp only [AX.pr, List.append_assoc] at h
        exact absurd h (aux_ne_render hp _ op _ _ _)
  | .bin op a b, y, r1, r2, hx, hy, f1, f2, h => by
      obtain ⟨a', b', hab, hpr, hev⟩ := bin_view pre U len op a b
      rw [hpr] at h
      cases y with
      | base c' => exact absurd h.symm (base_ne_render (hU c' hy) f2 op _ _ _)
      | num k' => exact absurd h.symm (num_ne_render k' _ op _ _ _)
      | aux c =>
        simp only [AX.pr, List.append_assoc] at h
        exact absurd h.symm (aux_ne_render hp _ op _ _ _)
      | bin op2 c d =>
        obtain ⟨c', d', hcd, hpr2, hev2⟩ := bin_view pre U len op2 c d
        rw [hpr2] at h
        have wab : a'.Wf U ∧ b'.Wf U := by
          rcases hab with ⟨rfl, rfl⟩ | ⟨rfl, rfl⟩
          · exact hx
          · exact ⟨hx.2, hx.1⟩
        have wcd : c'.Wf U ∧ d'.Wf U := by
          rcases hcd with ⟨rfl, rfl⟩ | ⟨rfl, rfl⟩
          · exact hy
          · exact ⟨hy.2, hy.1⟩
        have ih : ∀ (z : AX) (q1 q2 : CName), z.Wf U → Follow q1 → Follow q2 →
            (a'.pr pre ++ q1 = z.pr pre ++ q2 → a'.eval U len = z.eval U len ∧ q1 = q2) ∧
            (b'.pr pre ++ q1 = z.pr pre ++ q2 → b'.eval U len = z.eval U len ∧ q1 = q2) := by
          intro z q1 q2 hz g1 g2
          have iha := pr_inj hp hU a z q1 q2 hx.1 hz g1 g2
          have ihb := pr_inj hp hU b z q1 q2 hx.2 hz g1 g2
          rcases hab with ⟨h1, h2⟩ | ⟨h1, h2⟩
          · rw [h1, h2]; exact ⟨iha, ihb⟩
          · rw [h1, h2]; exact ⟨ihb, iha⟩
        rw [render_shape, render_shape] at h
        have hop : (op = .pow) ↔ (op2 = .pow) := by
          constructor
          · intro he
            by_contra hne
            rw [if_pos he, if_neg hne] at h
            simp at h
          · intro he
            by_contra hne
            rw [if_neg hne, if_pos he] at h
            simp at h
        have h' := h
        simp only [hop] at h'
        have h2 := List.append_cancel_left h'
        have fpre : ∀ (o : AOp) (n r : CName), Follow ((match o with
          | .add => [' ', '+', ' '] | .sub => [' ', '-', ' '] | .mul => [' ', '*', ' ']
          | .div => [' ', '/', ' '] | .pow => [',', ' ']) ++ (n ++ (')' :: r))) := by
          intro o n r
          cases o <;> exact Or.inr ⟨_, _, rfl, by decide⟩
        obtain ⟨e1, h3⟩ := ((ih c' _ _ wcd.1 (fpre op _ _) (fpre op2 _ _)).1 h2)
        have hoo : op = op2 ∧ b'.pr pre ++ (')' :: r1) = d'.pr pre ++ (')' :: r2) := by
          cases op <;> cases op2 <;> simp at h3 ⊢ <;> exact h3
        obtain ⟨ho, h4⟩ := hoo
        obtain ⟨e2, h5⟩ := ((ih d' _ _ wcd.2 (Or.inr ⟨')', r1, rfl, by decide⟩)
          (Or.inr ⟨')', r2, rfl, by decide⟩)).2 h4)
        refine ⟨?_, by simpa using h5⟩
        rw [hev, hev2, ho, e1, e2]
termination_by x => sizeOf x
decreasing_by
  all_goals simp_wf
  all_goals omega

/-! ### The invariant of the DataFrame -/

/-- Every column is a user column or carries the value its name stands for. -/
structure AuxInv (pre : CName) (U : DF) (len : Nat) (df : DF) : Prop where
  keeps : ∀ c v, U.lookup c = some v → df.lookup c = some v
  known : ∀ c v, df.lookup c = some v → U.lookup c = some v ∨
    ∃ a : AX, a.Wf U ∧ c = pre ++ a.pr pre ∧ a.eval U len = some v

theorem parse_view {df : DF} (hi : AuxInv pre U len df) : ∀ (q : AReq) (n : CName) (cells : List Cell),
    parseAux df len q = some (n, cells) →
    q.value df len = some cells ∧ ∃ x : AX, x.Wf U ∧ x.pr pre = n ∧ x.eval U len = some cells
  | .col c, n, cells, h => by
      simp only [parseAux, Option.map_eq_some_iff, Prod.mk.injEq] at h
      obtain ⟨v, hv, rfl, rfl⟩ := h
      refine ⟨hv, ?_⟩
      rcases hi.known c v hv with h | ⟨a, wa, hc, ha⟩
      · exact ⟨.base c, by simp [AX.Wf, h], rfl, h⟩
      · exact ⟨.aux a, wa, hc.symm, ha⟩
  | .num k, n, cells, h => by
      simp only [parseAux, Option.some.injEq, Prod.mk.injEq] at h
      obtain ⟨rfl, rfl⟩ := h
      exact ⟨rfl, .num k, trivial, rfl, rfl⟩
  | .bin op a b, n, cells, h => by
      rw [parseAux] at h
      cases ha : parseAux df len a with
      | none => rw [ha] at h; simp at h
      | some p =>
        cases hb : parseAux df len b with
        | none => rw [ha, hb] at h; simp at h
        | some q =>
          obtain ⟨n0, c0⟩ := p
          obtain ⟨n1, c1⟩ := q
          obtain ⟨va, x, wx, px, ex⟩ := parse_view hi a n0 c0 ha
          obtain ⟨vb, y, wy, py, ey⟩ := parse_view hi b n1 c1 hb
          simp only [ha, hb] at h
          have hcomm : op.commutes = true → op.cells c1 c0 = op.cells c0 c1 := by
            intro hc
            have := comb_comm op hc (some c1) (some c0)
            simpa [comb] using this
          have hval : (AReq.bin op a b).value df len = some (op.cells c0 c1) := by
            simp only [AReq.value, va, vb]; rfl
          by_cases hs : (op.commutes && decide (n1 < n0)) = true
          · rw [if_pos hs] at h
            simp only [Option.some.injEq, Prod.mk.injEq] at h
            have hc : op.commutes = true := by
              have hs' := hs; rw [Bool.and_eq_true] at hs'; exact hs'.1
            refine ⟨by rw [hval, ← h.2, hcomm hc], .bin op x y, ⟨wx, wy⟩, ?_, ?_⟩
            · simp only [AX.pr, px, py]; rw [if_pos hs, h.1]
            · simp only [AX.eval, ex, ey, comb]; rw [← h.2, hcomm hc]
          · rw [if_neg hs] at h
            simp only [Option.some.injEq, Prod.mk.injEq] at h
            refine ⟨by rw [hval, ← h.2], .bin op x y, ⟨wx, wy⟩, ?_, ?_⟩
            · simp only [AX.pr, px, py]; rw [if_neg hs, h.1]
            · simp only [AX.eval, ex, ey, comb]; rw [← h.2]

theorem lookup_snoc {α : Type} (df : List (CName × α)) (n c : CName) (v : α) :
    (df ++ [(n, v)]).lookup c = match df.lookup c with
      | some w => some w
      | none => if c = n then some v else none := by
  induction df with
  | nil => 
    by_cases h : c = n
    · simp [List.lookup, h]
    · simp [List.lookup, h, beq_eq_false_iff_ne.2 h]
  | cons p df ih =>
    obtain ⟨d, w⟩ := p
    by_cases h : c = d
    · simp [List.lookup, h]
    · simp [List.lookup, beq_eq_false_iff_ne.2 h, ih]

theorem addAux_inv (hp : GoodPre pre U) (hU : ∀ c, (U.lookup c).isSome → PlainName c) {df : DF}
    (hi : AuxInv pre U len df) (q : AReq) (df' : DF) (n : CName)
    (h : addAux pre len df q = some (df', n)) :
    AuxInv pre U len df' ∧ df'.lookup n = q.value df len ∧
    (∀ c v, df.lookup c = some v → df'.lookup c = some v) := by
  unfold addAux at h
  cases hq : parseAux df len q with
  | none => rw [hq] at h; cases h
  | some p =>
    obtain ⟨m, cells⟩ := p
    rw [hq] at h
    simp only [Option.some.injEq, Prod.mk.injEq] at h
    obtain ⟨hdf, rfl⟩ := h
    obtain ⟨hv, x, wx, px, ex⟩ := parse_view len hi q m cells hq
    cases hl : df.lookup (pre ++ m) with
    | some w =>
      rw [hl] at hdf
      simp only [Option.isSome_some, if_true] at hdf
      subst hdf
      refine ⟨hi, ?_, fun c v h => h⟩
      rw [hl, hv]
      rcases hi.known _ _ hl with h | ⟨a, wa, hc, ha⟩
      · exact absurd ⟨m, rfl⟩ (hp.fresh _ (by rw [h]; rfl))
      · have := pr_inj len hp hU x a [] [] wx wa (Or.inl rfl) (Or.inl rfl)
          (by rw [px]; simpa using hc)
        rw [ex, ha] at this
        exact this.1.symm
    | none =>
      rw [hl] at hdf
      simp only [Option.isSome_none, Bool.false_eq_true, if_false] at hdf
      subst hdf
      have hkeep : ∀ c v, df.lookup c = some v → (df ++ [(pre ++ m, cells)]).lookup c = some v := by
        intro c v hc; rw [lookup_snoc, hc]
      refine ⟨⟨fun c v hc => hkeep c v (hi.keeps c v hc), ?_⟩, ?_, hkeep⟩
      · intro c v hc
        rw [lookup_snoc] at hc
        cases hd : df.lookup c with
        | some w =>
          rw [hd] at hc
          simp only [Option.some.injEq] at hc
          subst hc
          exact hi.known c w hd
        | none =>
          rw [hd] at hc
          by_cases hcn : c = pre ++ m
          · simp only [if_pos hcn, Option.some.injEq] at hc
            subst hc
            exact Or.inr ⟨x, wx, by rw [hcn, px], ex⟩
          · rw [if_neg hcn] at hc; cases hc
      · rw [lookup_snoc, hl, hv]; simp

/-! ### The unique prefix -/

theorem uniquePrefixLoop_spec (cols : List CName) : ∀ (fuel : Nat) (p : CName),
    maxLen cols < p.length + fuel →
    (∀ c ∈ cols, ¬ uniquePrefixLoop cols fuel p <+: c) ∧ ∃ k, uniquePrefixLoop cols fuel p = p ++ List.replicate k ':'
  | 0, p, h => by
      refine ⟨?_, 0, by simp [uniquePrefixLoop]⟩
      intro c hc hpc
      have h1 : p.length ≤ c.length := hpc.length_le
      have h2 : c.length ≤ maxLen cols := by
        unfold maxLen
        clear h hpc h1
        induction cols with
        | nil => cases hc
        | cons d cols ih =>
          simp only [List.map_cons, List.foldr_cons]
          rcases List.mem_cons.1 hc with rfl | hc
          · exact le_max_left _ _
          · exact (ih hc).trans (le_max_right _ _)
      omega
  | fuel + 1, p, h => by
      rw [uniquePrefixLoop]
      split
      · obtain ⟨h1, k, h2⟩ := uniquePrefixLoop_spec cols fuel (p ++ [':']) (by simp; omega)
        exact ⟨h1, k + 1, by rw [h2]; simp [List.replicate_succ]⟩
      · rename_i hany
        refine ⟨?_, 0, by simp⟩
        intro c hc hpc
        apply hany
        rw [List.any_eq_true]
        exact ⟨c, hc, by simpa using hpc⟩

theorem lookup_isSome_mem {α : Type} {df : List (CName × α)} {c : CName} (h : (df.lookup c).isSome) :
    c ∈ df.map Prod.fst := by
  induction df with
  | nil => simp [List.lookup] at h
  | cons p df ih =>
    obtain ⟨d, w⟩ := p
    by_cases hc : c = d
    · simp [hc]
    · simp only [List.lookup, beq_eq_false_iff_ne.2 hc] at h
      exact List.mem_cons_of_mem _ (ih h)

theorem uniquePrefix_good (U : DF) : GoodPre (uniquePrefix (U.map Prod.fst)) U := by
  obtain ⟨h1, k, h2⟩ := uniquePrefixLoop_spec (U.map Prod.fst) (maxLen (U.map Prod.fst) + 1) basePrefix
    (by omega)
  refine ⟨?_, ?_, ?_⟩
  · intro c hc
    rw [uniquePrefix, h2, List.mem_append] at hc
    rcases hc with hc | hc
    · have : ∀ c ∈ basePrefix, isDelim c = false := by decide
      exact this c hc
    · rw [List.mem_replicate] at hc
      rw [hc.2]; decide
  · refine ⟨basePrefix.tail ++ List.replicate k ':', ?_⟩
    rw [uniquePrefix, h2]; rfl
  · intro c hc
    exact h1 c (lookup_isSome_mem hc)

end Verif
