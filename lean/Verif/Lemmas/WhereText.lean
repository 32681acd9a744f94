import Verif.Spec.WhereText

namespace Verif

/-- A frame of the one-pass evaluator used to show that the grammar is unambiguous:
value of the finished `or` operands, value of the current `and` chain, pending
negation, and whether an operand is expected. -/
structure PFrame where
  o : Bool
  a : Bool
  neg : Bool
  want : Bool

def operand (v : Bool) (f : PFrame) : PFrame :=
  { f with a := f.a && (xor v f.neg), neg := false, want := false }

def pstep (ρ : Nat → Bool) : List PFrame → Tok → List PFrame
  | f :: st, .atom n => operand (ρ n) f :: st
  | f :: st, .not => { f with neg := !f.neg } :: st
  | f :: st, .lp => ⟨false, true, false, true⟩ :: f :: st
  | g :: f :: st, .rp => operand (g.o || g.a) f :: st
  | f :: st, .and => { f with want := true } :: st
  | f :: st, .or => { o := f.o || f.a, a := true, neg := false, want := true } :: st
  | st, _ => st

def prun (ρ : Nat → Bool) (st : List PFrame) (ts : Text) : List PFrame := ts.foldl (pstep ρ) st

variable (ρ : Nat → Bool)

mutual
theorem fac_run : ∀ {ts v}, IsFac ρ ts v → ∀ (f : PFrame) st,
    prun ρ (f :: st) ts = operand v f :: st
  | _, _, .atom n, f, st => by simp [prun, pstep]
  | _, _, .not (v := v) h, f, st => by
      have ih := fac_run h { f with neg := !f.neg } st
      simp only [prun, List.foldl_cons, pstep] at ih ⊢
      rw [ih]
      obtain ⟨o, a, n, w⟩ := f
      cases v <;> cases n <;> simp [operand]
  | _, _, .paren (ts := ts) (v := v) h, f, st => by
      obtain ⟨g, hg, hv⟩ := or_run h ⟨false, true, false, true⟩ (f :: st) rfl rfl
      simp only [prun, List.cons_append, List.foldl_cons, List.foldl_append, pstep] at hg ⊢
      rw [hg]
      simp only [List.foldl_nil, pstep, hv, Bool.false_or]
theorem and_run : ∀ {ts v}, IsAnd ρ ts v → ∀ (f : PFrame) st, f.neg = false →
    prun ρ (f :: st) ts = { o := f.o, a := f.a && v, neg := false, want := false } :: st
  | _, _, .fac h, f, st, hn => by
      rw [fac_run h]
      simp [operand, hn]
  | _, _, .and (ts := ts) (v := v) (w := w) h1 h2, f, st, hn => by
      have i1 := and_run h1 f st hn
      have i2 := fac_run h2 { o := f.o, a := f.a && v, neg := false, want := true } st
      simp only [prun, List.foldl_append, List.foldl_cons] at i1 i2 ⊢
      rw [i1]
      simp only [pstep]
      rw [i2]
      simp [operand, Bool.and_assoc]
theorem or_run : ∀ {ts v}, IsOr ρ ts v → ∀ (f : PFrame) st, f.neg = false → f.a = true →
    ∃ g : PFrame, prun ρ (f :: st) ts = g :: st ∧ (g.o || g.a) = (f.o || v)
  | _, _, .one h, f, st, hn, ha => by
      refine ⟨_, and_run h f st hn, ?_⟩
      simp [ha]
  | _, _, .or (ts := ts) (v := v) (w := w) h1 h2, f, st, hn, ha => by
      obtain ⟨g, hg, hv⟩ := or_run h1 f st hn ha
      refine ⟨{ o := g.o || g.a, a := true && w, neg := false, want := false }, ?_, ?_⟩
      · have i2 := and_run h2 { o := g.o || g.a, a := true, neg := false, want := true } st rfl
        simp only [prun, List.foldl_append, List.foldl_cons] at hg i2 ⊢
        rw [hg]
        simp only [pstep]
        rw [i2]
      · simp [hv, Bool.or_assoc]
end

/-- A text has at most one value. -/
theorem isOr_unique {ts : Text} {v w : Bool} (h1 : IsOr ρ ts v) (h2 : IsOr ρ ts w) : v = w := by
  obtain ⟨g, hg, hv⟩ := or_run ρ h1 ⟨false, true, false, true⟩ [] rfl rfl
  obtain ⟨g', hg', hv'⟩ := or_run ρ h2 ⟨false, true, false, true⟩ [] rfl rfl
  rw [hg] at hg'
  simp only [List.cons.injEq, and_true] at hg'
  subst hg'
  simpa using hv.symm.trans hv'

theorem stripWs_append (a b : Text) : stripWs (a ++ b) = stripWs a ++ stripWs b := by
  simp [stripWs]

theorem stripWs_paren (c : Text) : stripWs (paren c) = .lp :: stripWs c ++ [.rp] := by
  simp [paren, stripWs]

theorem isAnd_append : ∀ {us w}, IsAnd ρ us w → ∀ {ts v}, IsAnd ρ ts v →
    IsAnd ρ (ts ++ .and :: us) (v && w)
  | _, _, .fac h, ts, v, h1 => .and h1 h
  | _, _, .and (ts := us) (us := xs) (v := a) (w := b) h h2, ts, v, h1 => by
      have := IsAnd.and (isAnd_append h h1) h2
      simpa [List.append_assoc, Bool.and_assoc] using this

/-- Texts that are `and`-chains join to their conjunction. -/
theorem joinAnd_isAnd : ∀ {cs : List Text}, cs ≠ [] → ∀ {val : Text → Bool},
    (∀ c ∈ cs, IsAnd ρ (stripWs c) (val c)) → IsAnd ρ (stripWs (joinAnd cs)) (cs.all val)
  | [], h, _, _ => absurd rfl h
  | [c], _, val, h => by simpa [joinAnd] using h c (by simp)
  | c :: d :: cs, _, val, h => by
      have ih := joinAnd_isAnd (cs := d :: cs) (by simp) (val := val)
        (fun x hx => h x (by simp [List.mem_cons.1 hx]))
      have h1 := h c (by simp)
      have := isAnd_append ρ ih h1
      simp only [joinAnd, stripWs_append, List.all_cons] at this ⊢
      simpa [stripWs, List.append_assoc] using this

theorem isOr_no_or {ts : Text} {v : Bool} (h : IsOr ρ ts v) (hn : Tok.or ∉ ts) : IsAnd ρ ts v := by
  cases h with
  | one h => exact h
  | or h1 h2 => simp at hn

theorem hasSpacedOr_mem {c : Text} (h : Tok.or ∉ c) : hasSpacedOr c = false := by
  induction c with
  | nil => rfl
  | cons t ts ih =>
    simp only [List.mem_cons, not_or] at h
    simp only [hasSpacedOr, ih h.2, Bool.or_false]
    match ts, h with
    | [], _ => simp [List.isPrefixOf]
    | u :: us, h =>
      have : (Tok.or == u) = false := by
        rw [beq_eq_false_iff_ne]; intro e; exact h.2 (by simp [e])
      simp [List.isPrefixOf, this]

theorem all_eq_of_mem {α : Type} {a b : List α} (val : α → Bool) (h : ∀ x, x ∈ a ↔ x ∈ b) :
    a.all val = b.all val := by
  rw [Bool.eq_iff_iff, List.all_eq_true, List.all_eq_true]
  exact ⟨fun H x hx => H x ((h x).2 hx), fun H x hx => H x ((h x).1 hx)⟩

end Verif
