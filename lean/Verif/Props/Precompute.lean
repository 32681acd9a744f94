import Verif.Model.Precompute
import Verif.Spec.Precompute
import Verif.Props.Expand

/-!
# C46: which trees take the fast path
-/

namespace Verif

/-- Leaves `is_metric_precomputable` accepts. -/
def SLeaf.ok (jk : Bool) (k : SLeaf) : Prop := k.fromUnits jk ∨ k.equiv ≠ none

theorem equiv_leaves_ok (k0 : SLeaf) (e : ET) (he : k0.equiv = some e) (k : SLeaf) (hk : k ∈ e.leaves) : k.ok true := by
  have hne : ∀ k : SLeaf, k.rank ≠ 0 → k.ok true := fun k h => Or.inr (fun h' => h ((equiv_none k).1 h'))
  cases k0 with
  | sum v => cases he
  | count v d => cases he
  | max v => cases he
  | min v => cases he
  | other i => cases he
  | dot v w n =>
    cases n <;> cases he <;> simp only [ET.leaves, List.cons_append, List.nil_append, List.mem_cons, List.not_mem_nil,
      or_false] at hk
    · subst hk; exact Or.inl trivial
    · rcases hk with rfl | rfl
      · exact Or.inl trivial
      · exact Or.inl rfl
  | mean v w =>
    cases w <;> cases he <;> simp only [ET.leaves, List.cons_append, List.nil_append, List.mem_cons, List.not_mem_nil,
      or_false] at hk <;> rcases hk with rfl | rfl
    · exact Or.inl trivial
    · exact Or.inl rfl
    · exact hne _ (by simp [SLeaf.rank])
    · exact Or.inl trivial
  | variance v u w =>
    cases w <;> cases u <;> cases he <;> simp [ET.leaves, sqrtSq] at hk
    · subst hk; exact hne _ (by simp [SLeaf.rank])
    · subst hk; exact hne _ (by simp [SLeaf.rank])
    · rcases hk with rfl | rfl | rfl
      · exact hne _ (by simp [SLeaf.rank])
      · exact hne _ (by simp [SLeaf.rank])
      · exact Or.inl trivial
    · rcases hk with rfl | rfl | rfl
      · exact hne _ (by simp [SLeaf.rank])
      · exact hne _ (by simp [SLeaf.rank])
      · exact Or.inl trivial
  | sd v u w =>
    cases he; simp [ET.leaves] at hk; subst hk; exact hne _ (by simp [SLeaf.rank])
  | cv v u =>
    cases he; simp [ET.leaves] at hk; rcases hk with rfl | rfl <;> exact hne _ (by simp [SLeaf.rank])
  | corr v w wt =>
    cases he; simp [ET.leaves] at hk; rcases hk with rfl | rfl | rfl <;> exact hne _ (by simp [SLeaf.rank])
  | cov v w bias ddof wt fw =>
    cases he
    unfold covEquiv at hk
    generalize covDdof bias ddof = d at hk
    cases wt <;> cases fw <;> simp only at hk <;> split at hk <;>
      simp only [sqrtSq, ET.leaves, List.cons_append, List.nil_append, List.mem_cons,
        List.not_mem_nil, or_false, List.append_nil] at hk <;>
      (rcases hk with hk | hk | hk | hk | hk | hk | hk <;> try subst hk) <;>
      first
        | exact Or.inl trivial
        | exact Or.inl rfl
        | exact hne _ (by simp [SLeaf.rank])

theorem arith_below (opOK : Nat → Bool) (rec : ET → Bool) : ∀ e : ET, e.arith →
    ∀ m ∈ e.subs, precompOne opOK false rec m = true ∨ ∃ k n w, m = .leaf k n w ∧ k ∈ e.leaves
  | .const q, _, m, hm => by simp [ET.subs] at hm
  | .leaf k n w, _, m, hm => by
      simp only [ET.subs, List.mem_singleton] at hm
      exact Or.inr ⟨k, n, w, hm, by simp [ET.leaves]⟩
  | .comp op l r n w, h, m, hm => by
      simp only [ET.subs, List.mem_cons, List.mem_append] at hm
      rcases hm with rfl | hm | hm
      · exact Or.inl rfl
      · rcases arith_below opOK rec l h.1 m hm with h1 | ⟨k, n, w, h1, h2⟩
        · exact Or.inl h1
        · exact Or.inr ⟨k, n, w, h1, by simp [ET.leaves, h2]⟩
      · rcases arith_below opOK rec r h.2 m hm with h1 | ⟨k, n, w, h1, h2⟩
        · exact Or.inl h1
        · exact Or.inr ⟨k, n, w, h1, by simp [ET.leaves, h2]⟩
  | .node t cs n w, h, m, hm => by simp [ET.arith] at h

theorem below_subs (e : ET) (m : ET) (h : m ∈ e.proper) : m ∈ e.subs := by
  cases e with
  | const q => exact h
  | leaf k n w => simp [ET.proper] at h
  | comp op l r n w => exact List.mem_cons_of_mem _ h
  | node t cs n w => exact List.mem_cons_of_mem _ h

theorem precompOne_leaf (opOK : Nat → Bool) (jk : Bool) (rec : ET → Bool) (k : SLeaf) (n : Option String) (w : List Nat)
    (hrec : ∀ e, k.equiv = some e → rec e = true) :
    precompOne opOK jk rec (.leaf k n w) = true ↔ k.ok jk := by
  unfold SLeaf.ok
  cases k with
  | sum v => simp [precompOne, SLeaf.fromUnits]
  | count v d => cases d <;> simp [precompOne, SLeaf.fromUnits, SLeaf.equiv]
  | max v => cases jk <;> simp [precompOne, SLeaf.fromUnits, SLeaf.equiv]
  | min v => cases jk <;> simp [precompOne, SLeaf.fromUnits, SLeaf.equiv]
  | other i => simp [precompOne, SLeaf.fromUnits, SLeaf.equiv]
  | dot v w' nn =>
    cases he : SLeaf.equiv (.dot v w' nn) with
    | none => cases nn <;> simp [SLeaf.equiv] at he
    | some e => simp [precompOne, he, hrec e he]
  | mean v w' =>
    cases he : SLeaf.equiv (.mean v w') with
    | none => cases w' <;> simp [SLeaf.equiv] at he
    | some e => simp [precompOne, he, hrec e he]
  | variance v u w' =>
    cases he : SLeaf.equiv (.variance v u w') with
    | none => cases w' <;> simp [SLeaf.equiv] at he
    | some e => simp [precompOne, he, hrec e he]
  | sd v u w' =>
    cases he : SLeaf.equiv (.sd v u w') with
    | none => simp [SLeaf.equiv] at he
    | some e => simp [precompOne, he, hrec e he]
  | cv v u =>
    cases he : SLeaf.equiv (.cv v u) with
    | none => simp [SLeaf.equiv] at he
    | some e => simp [precompOne, he, hrec e he]
  | corr v w' wt =>
    cases he : SLeaf.equiv (.corr v w' wt) with
    | none => simp [SLeaf.equiv] at he
    | some e => simp [precompOne, he, hrec e he]
  | cov v w' b d wt fw =>
    cases he : SLeaf.equiv (.cov v w' b d wt fw) with
    | none => simp [SLeaf.equiv] at he
    | some e => simp [precompOne, he, hrec e he]

/-- An equivalent is always accepted, given recursion depth beyond the rank. -/
theorem equiv_accepted (opOK : Nat → Bool) (n : Nat) : ∀ (k : SLeaf) (e : ET), k.equiv = some e → k.rank ≤ n →
    precompF opOK n false e = true := by
  induction n with
  | zero =>
    intro k e he h
    have : k.equiv = none := (equiv_none k).2 (by omega)
    rw [this] at he; cases he
  | succ n ih =>
    intro k e he h
    rw [precompF, List.all_eq_true]
    intro m hm
    rcases arith_below opOK (precompF opOK n false) e (arith_equiv k e he) m (below_subs e m hm) with h1 | ⟨k', n', w', rfl, hk'⟩
    · exact h1
    · rw [precompOne_leaf]
      · have := equiv_leaves_ok k e he k' hk'
        rcases this with h2 | h2
        · left
          revert h2
          cases k' <;> simp [SLeaf.fromUnits]
        · exact Or.inr h2
      · intro e' he'
        have := (leaves_equiv k e he k' hk').1
        exact ih k' e' he' (by omega)

/-- **C46** The recursion is bounded: any depth beyond 7 gives the same answer. -/
theorem C46_fuel (opOK : Nat → Bool) (jk : Bool) (t : ET) (n : Nat) (h : 7 ≤ n) :
    precompF opOK n jk t = precomputable opOK jk t := by
  have key : ∀ a b, 6 ≤ a → 6 ≤ b → ∀ m : ET,
      precompOne opOK jk (precompF opOK a false) m = true → precompOne opOK jk (precompF opOK b false) m = true := by
    intro a b ha hb m hm
    cases m with
    | leaf k nm w =>
      rw [precompOne_leaf _ _ _ _ _ _ (fun e he => equiv_accepted opOK b k e he (by have := rank_le k; omega))]
      rwa [precompOne_leaf _ _ _ _ _ _ (fun e he => equiv_accepted opOK a k e he (by have := rank_le k; omega))] at hm
    | const q => rfl
    | comp op l r nm w => rfl
    | node tg cs nm w => exact hm
  obtain ⟨a, rfl⟩ : ∃ a, n = a + 1 := ⟨n - 1, by omega⟩
  rw [precomputable, precompF, precompF, Bool.eq_iff_iff, List.all_eq_true, List.all_eq_true]
  exact ⟨fun hh m hm => key a 6 (by omega) (by omega) m (hh m hm), fun hh m hm => key 6 a (by omega) (by omega) m (hh m hm)⟩

mutual
theorem subs_iff (opOK : Nat → Bool) (jk : Bool) : ∀ t : ET,
    t.subs.all (precompOne opOK jk (precompF opOK 6 false)) = true ↔ t.opsOK opOK ∧ ∀ k ∈ t.leaves, k.ok jk
  | .const q => by simp [ET.subs, ET.opsOK, ET.leaves]
  | .leaf k n w => by
      have := precompOne_leaf opOK jk (precompF opOK 6 false) k n w
        (fun e he => equiv_accepted opOK 6 k e he (rank_le k))
      simp [ET.subs, ET.opsOK, ET.leaves, this]
  | .comp op l r n w => by
      have h1 := subs_iff opOK jk l
      have h2 := subs_iff opOK jk r
      simp only [ET.subs, List.all_cons, List.all_append, Bool.and_eq_true, h1, h2, ET.opsOK, ET.leaves, List.mem_append,
        precompOne]
      constructor
      · rintro ⟨-, ⟨a, b⟩, c, d⟩
        exact ⟨⟨a, c⟩, fun k hk => hk.elim (b k) (d k)⟩
      · rintro ⟨⟨a, c⟩, h⟩
        exact ⟨trivial, ⟨a, fun k hk => h k (Or.inl hk)⟩, c, fun k hk => h k (Or.inr hk)⟩
  | .node t cs n w => by
      have h1 := subsL_iff opOK jk cs
      simp only [ET.subs, List.all_cons, Bool.and_eq_true, h1, ET.opsOK, ET.leaves, precompOne]
      have : (!cs.isEmpty) = true ↔ cs ≠ [] := by cases cs <;> simp
      rw [this]
      tauto
theorem subsL_iff (opOK : Nat → Bool) (jk : Bool) : ∀ cs : List ET,
    (ET.subsL cs).all (precompOne opOK jk (precompF opOK 6 false)) = true ↔ ET.opsOKL opOK cs ∧ ∀ k ∈ ET.leavesL cs, k.ok jk
  | [] => by simp [ET.subsL, ET.opsOKL, ET.leavesL]
  | c :: cs => by
      have h1 := subs_iff opOK jk c
      have h2 := subsL_iff opOK jk cs
      simp only [ET.subsL, List.all_append, Bool.and_eq_true, h1, h2, ET.opsOKL, ET.leavesL, List.mem_append]
      constructor
      · rintro ⟨⟨a, b⟩, c, d⟩
        exact ⟨⟨a, c⟩, fun k hk => hk.elim (b k) (d k)⟩
      · rintro ⟨⟨a, c⟩, h⟩
        exact ⟨⟨a, fun k hk => h k (Or.inl hk)⟩, c, fun k hk => h k (Or.inr hk)⟩
end

mutual
theorem leaves_step_keep : ∀ (t : ET) (k : SLeaf), k ∈ t.leaves → k.equiv = none → k ∈ t.step.leaves
  | .const q, k, h, _ => by simp [ET.leaves] at h
  | .leaf k0 n w, k, h, he => by
      simp only [ET.leaves, List.mem_singleton] at h
      subst h
      rw [ET.step, he]
      simp [ET.leaves]
  | .comp op l r n w, k, h, he => by
      simp only [ET.step, ET.leaves, List.mem_append] at h ⊢
      exact h.imp (fun h => leaves_step_keep l k h he) (fun h => leaves_step_keep r k h he)
  | .node t cs n w, k, h, he => by
      simp only [ET.step, ET.leaves] at h ⊢
      exact leaves_stepL_keep cs k h he
theorem leaves_stepL_keep : ∀ (cs : List ET) (k : SLeaf), k ∈ ET.leavesL cs → k.equiv = none → k ∈ ET.leavesL (ET.stepL cs)
  | [], k, h, _ => by simp [ET.leavesL] at h
  | c :: cs, k, h, he => by
      simp only [ET.stepL, ET.leavesL, List.mem_append] at h ⊢
      exact h.imp (fun h => leaves_step_keep c k h he) (fun h => leaves_stepL_keep cs k h he)
end

theorem ok_mono (jk : Bool) (k : SLeaf) (h : k.ok true) : k.ok jk := by
  rcases h with h | h
  · left
    revert h
    cases k <;> simp [SLeaf.fromUnits]
  · exact Or.inr h

/-- The leaves of the expansion can all be computed from unit-level aggregates exactly if the leaves of the tree are all
accepted. -/
theorem expansion_iff (jk : Bool) (t : ET) (n : Nat) (res : ET) (h : Expands t n res) :
    (∀ k ∈ t.leaves, k.ok jk) ↔ ∀ k ∈ res.leaves, k.fromUnits jk := by
  constructor
  · intro h0
    have hinv : ∀ t : ET, (∀ k ∈ t.leaves, k.ok jk) → ∀ k ∈ t.step.leaves, k.ok jk := by
      intro t ht k hk
      rcases leaves_step t k hk with ⟨h1, _⟩ | ⟨k0, _, e, he, hke⟩
      · exact ht k h1
      · exact ok_mono jk k (equiv_leaves_ok k0 e he k hke)
    obtain ⟨h1, h2⟩ := loop_inv _ hinv h h0
    intro k hk
    exact (h1 k hk).resolve_right (fun hne => hne ((step_fixed res).1 h2 k hk))
  · intro h1 k hk
    by_contra hbad
    unfold SLeaf.ok at hbad
    rw [not_or, not_not] at hbad
    have hinv : ∀ t : ET, k ∈ t.leaves → k ∈ t.step.leaves := fun t ht => leaves_step_keep t k ht hbad.2
    exact hbad.1 (h1 k (loop_inv _ hinv h hk).1)

/-- **C46** A Jackknife (`jk = true`) or Bootstrap over `cs` takes the fast path exactly if the operations below it all
allow it and every leaf of the full expansion of its children is one that can be computed from unit-level aggregates:
a sum, a count that is not distinct, or (Bootstrap only) a maximum or minimum. -/
theorem C46_iff (opOK : Nat → Bool) (jk : Bool) (tag : Nat) (cs : List ET) (name : Option String) (wh : List Nat)
    (n : Nat) (res : ET) (h : Expands (.node tag cs name wh) n res) :
    precomputable opOK jk (.node tag cs name wh) = true
      ↔ ET.opsOKL opOK cs ∧ ∀ k ∈ res.leaves, k.fromUnits jk := by
  rw [← expansion_iff jk _ n res h, precomputable, precompF]
  show (ET.subsL cs).all _ = true ↔ _
  rw [subsL_iff]
  rfl

/-- **C46** Acceptance by a Jackknife implies acceptance by a Bootstrap. -/
theorem C46_jk_bs (opOK : Nat → Bool) (tag : Nat) (cs : List ET) (name : Option String) (wh : List Nat)
    (h : precomputable opOK true (.node tag cs name wh) = true) :
    precomputable opOK false (.node tag cs name wh) = true := by
  obtain ⟨n, res, _, he⟩ := C17_terminates (.node tag cs name wh)
  rw [C46_iff opOK _ tag cs name wh n res he] at h ⊢
  refine ⟨h.1, fun k hk => ?_⟩
  have := h.2 k hk
  revert this
  cases k <;> simp [SLeaf.fromUnits]

/-! Concrete cases: `Jackknife(unit, CV(x))` is accepted, `Jackknife(unit, Max(x))` is not, but `Bootstrap(unit, Max(x))`
is; a distinct count never is. -/

example : precomputable (fun _ => true) true (.node 0 [.leaf (.cv (.base "x") true) none []] none []) = true := by
  decide +kernel
example : precomputable (fun _ => true) true (.node 0 [.leaf (.max (.base "x")) none []] none []) = false ∧
    precomputable (fun _ => true) false (.node 0 [.leaf (.max (.base "x")) none []] none []) = true := by
  constructor <;> decide +kernel
example : precomputable (fun _ => true) false
    (.node 0 [ediv (lf (.sum (.base "x"))) (lf (.count (.base "x") true))] none []) = false := by decide +kernel
example : ∃ n res, Expands (.node 0 [.leaf (.cv (.base "x") true) none []] none []) n res ∧
    ∀ k ∈ res.leaves, k.fromUnits true := by
  obtain ⟨n, res, _, he⟩ := C17_terminates (.node 0 [.leaf (.cv (.base "x") true) none []] none [])
  exact ⟨n, res, he, ((C46_iff (fun _ => true) true 0 _ none [] n res he).1 (by decide +kernel)).2⟩

end Verif
