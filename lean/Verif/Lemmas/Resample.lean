import Verif.Model.Resample
import Verif.Lemmas.Jackknife
import Mathlib.Data.Multiset.Basic
import Mathlib.Algebra.BigOperators.Group.Multiset.Basic

/-!
# Lemmas for C40 and C41
-/

namespace Verif

section
variable {K : Type}

/-- Optional values combined by an operation: `none` is neutral. -/
structure OptM (op : K → K → K) where
  val : Option K

namespace OptM
variable {op : K → K → K}

def comb (op : K → K → K) : Option K → Option K → Option K
  | none, b => b
  | some a, none => some a
  | some a, some b => some (op a b)

@[ext] theorem ext' {a b : OptM op} (h : a.val = b.val) : a = b := by cases a; cases b; cases h; rfl

class Lawful (op : K → K → K) : Prop where
  assoc : ∀ a b c, op (op a b) c = op a (op b c)
  comm : ∀ a b, op a b = op b a
  idem : ∀ a, op a a = a

variable [Lawful op]

instance : Zero (OptM op) := ⟨⟨none⟩⟩
instance : Add (OptM op) := ⟨fun a b => ⟨comb op a.val b.val⟩⟩

theorem add_val (a b : OptM op) : (a + b).val = comb op a.val b.val := rfl
theorem zero_val : (0 : OptM op).val = none := rfl

instance : AddCommMonoid (OptM op) where
  add_assoc a b c := by
    apply ext'
    simp only [add_val]
    rcases a with ⟨_ | a⟩ <;> rcases b with ⟨_ | b⟩ <;> rcases c with ⟨_ | c⟩ <;> simp [comb, Lawful.assoc]
  zero_add a := by apply ext'; rfl
  add_zero a := by apply ext'; rcases a with ⟨_ | a⟩ <;> rfl
  add_comm a b := by
    apply ext'
    simp only [add_val]
    rcases a with ⟨_ | a⟩ <;> rcases b with ⟨_ | b⟩ <;> simp [comb]
    exact Lawful.comm _ _
  nsmul := nsmulRec

theorem idem (a : OptM op) : a + a = a := by
  apply ext'
  rcases a with ⟨_ | a⟩
  · rfl
  · show some (op a a) = some a
    exact congrArg some (Lawful.idem a)

theorem nsmul_pos (n : Nat) (h : 0 < n) (a : OptM op) : n • a = a := by
  induction n with
  | zero => cases h
  | succ n ih =>
    rw [succ_nsmul]
    rcases Nat.eq_zero_or_pos n with rfl | hn
    · simp
    · rw [ih hn, idem]

end OptM

variable [LinearOrder K]

instance : OptM.Lawful (Max.max : K → K → K) := ⟨max_assoc, max_comm, max_self⟩
instance : OptM.Lawful (Min.min : K → K → K) := ⟨min_assoc, min_comm, min_self⟩

theorem maxOpt_eq (vs : List K) : maxOpt vs = (vs.map fun v => (⟨some v⟩ : OptM (Max.max : K → K → K))).sum.val := by
  induction vs with
  | nil => rfl
  | cons v vs ih =>
    rw [List.map_cons, List.sum_cons, OptM.add_val, ← ih]
    unfold maxOpt
    rw [List.foldr_cons]
    cases (List.foldr (fun v acc => some (match acc with | none => v | some a => Max.max v a)) none vs) <;> rfl

theorem minOpt_eq (vs : List K) : minOpt vs = (vs.map fun v => (⟨some v⟩ : OptM (Min.min : K → K → K))).sum.val := by
  induction vs with
  | nil => rfl
  | cons v vs ih =>
    rw [List.map_cons, List.sum_cons, OptM.add_val, ← ih]
    unfold minOpt
    rw [List.foldr_cons]
    cases (List.foldr (fun v acc => some (match acc with | none => v | some a => Min.min v a)) none vs) <;> rfl

end

section
variable {U O C F K : Type} [DecidableEq U] [DecidableEq O] [Field K] [LinearOrder K]

/-- A leaf as a sum in a commutative monoid. -/
structure AsSum (L : BLeaf C F) (U O K : Type) [DecidableEq U] [DecidableEq O] [Field K] [LinearOrder K] where
  M : Type
  inst : AddCommMonoid M
  c : JRow Unit U O C F K → M
  enc : Option K → M
  dec : M → Option K
  enc_dec : ∀ m, enc (dec m) = m
  enc_none : enc none = 0
  agg_eq : ∀ rows, L.agg rows = dec ((rows.map fun r => if r.pass L.flt then c r else 0).sum)
  pre_eq : ∀ vs, L.kind.pre vs = dec ((vs.map enc).sum)
  scale_eq : ∀ (n : Nat) (v : Option K), 0 < n → enc (match L.kind with
      | .sum | .count => v.map fun x => x * (n : K)
      | .max | .min => v) = n • enc v

theorem sum_filterMap {M ρ : Type} [AddCommMonoid M] (p : ρ → Bool) (f : ρ → Option K) (g : K → M) (rows : List ρ) :
    (((rows.filter p).filterMap f).map g).sum
      = (rows.map fun r => if p r then ((f r).map g).getD 0 else 0).sum := by
  induction rows with
  | nil => rfl
  | cons r rows ih =>
    rw [List.filter_cons, List.map_cons, List.sum_cons, ← ih]
    by_cases h : p r = true
    · rw [if_pos h, if_pos h, List.filterMap_cons]
      cases f r with
      | none => simp
      | some x => simp
    · rw [if_neg h, if_neg h, zero_add]

theorem sum_filterMap_id {M : Type} [AddCommMonoid M] (g : K → M) (vs : List (Option K)) :
    ((vs.filterMap id).map g).sum = (vs.map fun v => (v.map g).getD 0).sum := by
  have := sum_filterMap (fun _ => true) (fun v : Option K => v) g vs
  simpa using this

/-- Every leaf is a sum in a commutative monoid. -/
theorem asSum (L : BLeaf C F) : Nonempty (AsSum L U O K) := by
  obtain ⟨k, col, flt⟩ := L
  cases k with
  | sum =>
    refine ⟨⟨K, inferInstance, fun r => ((r.col col).map id).getD 0, fun v => (v.map id).getD 0, some, fun m => rfl, rfl,
      ?_, ?_, ?_⟩⟩
    · intro rows
      have := sum_filterMap (fun r : JRow Unit U O C F K => r.pass flt) (fun r => r.col col) id rows
      simp only [List.map_id] at this
      simp only [BLeaf.agg]
      rw [this]
    · intro vs
      have := sum_filterMap_id (id : K → K) vs
      simp only [List.map_id] at this
      simp only [BKind.pre]
      rw [this]
    · intro n v _
      cases v with
      | none => simp
      | some x => simp [mul_comm]
  | count =>
    refine ⟨⟨K, inferInstance, fun r => ((r.col col).map fun _ => (1 : K)).getD 0, fun v => (v.map id).getD 0, some,
      fun m => rfl, rfl, ?_, ?_, ?_⟩⟩
    · intro rows
      have := sum_filterMap (fun r : JRow Unit U O C F K => r.pass flt) (fun r => r.col col) (fun _ => (1 : K)) rows
      simp only [BLeaf.agg]
      rw [← this]
      simp
    · intro vs
      have := sum_filterMap_id (id : K → K) vs
      simp only [List.map_id] at this
      simp only [BKind.pre]
      rw [this]
    · intro n v _
      cases v with
      | none => simp
      | some x => simp [mul_comm]
  | max =>
    refine ⟨⟨OptM (Max.max : K → K → K), inferInstance,
      fun r => ((r.col col).map fun v => (⟨some v⟩ : OptM (Max.max : K → K → K))).getD 0, fun v => ⟨v⟩, OptM.val,
      fun m => rfl, rfl, ?_, ?_, ?_⟩⟩
    · intro rows
      have := sum_filterMap (fun r : JRow Unit U O C F K => r.pass flt) (fun r => r.col col)
        (fun v => (⟨some v⟩ : OptM (Max.max : K → K → K))) rows
      simp only [BLeaf.agg]
      rw [maxOpt_eq, this]
    · intro vs
      simp only [BKind.pre]
      rw [maxOpt_eq, sum_filterMap_id (fun v => (⟨some v⟩ : OptM (Max.max : K → K → K)))]
      congr 3
      funext v
      cases v <;> rfl
    · intro n v h
      exact (OptM.nsmul_pos n h _).symm
  | min =>
    refine ⟨⟨OptM (Min.min : K → K → K), inferInstance,
      fun r => ((r.col col).map fun v => (⟨some v⟩ : OptM (Min.min : K → K → K))).getD 0, fun v => ⟨v⟩, OptM.val,
      fun m => rfl, rfl, ?_, ?_, ?_⟩⟩
    · intro rows
      have := sum_filterMap (fun r : JRow Unit U O C F K => r.pass flt) (fun r => r.col col)
        (fun v => (⟨some v⟩ : OptM (Min.min : K → K → K))) rows
      simp only [BLeaf.agg]
      rw [minOpt_eq, this]
    · intro vs
      simp only [BKind.pre]
      rw [minOpt_eq, sum_filterMap_id (fun v => (⟨some v⟩ : OptM (Min.min : K → K → K)))]
      congr 3
      funext v
      cases v <;> rfl
    · intro n v h
      exact (OptM.nsmul_pos n h _).symm

end

end Verif
