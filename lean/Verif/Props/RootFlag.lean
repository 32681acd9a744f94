import Verif.Model.RootFlag

/-!
# C87: SQL does not depend on the SQL generated before
-/

namespace Verif

/-! ## Specification -/

mutual

/-- All leaves can be computed in SQL. -/
def STree.leavesOk : STree → Bool
  | .leaf _ sup => sup
  | .op _ cs => STree.leavesOkList cs
  | .ci _ c => c.leavesOk

/-- All leaves of all trees can be computed in SQL. -/
def STree.leavesOkList : List STree → Bool
  | [] => true
  | t :: ts => t.leavesOk && STree.leavesOkList ts

end

mutual

/-- The columns the result should have: a Jackknife or Bootstrap with a confidence level gives the estimate and two bounds per column,
one without gives the estimate and the standard error. -/
def STree.rightCols (attr : ℕ → CiAttr) : STree → List ColHead
  | .leaf n _ => [⟨n, []⟩]
  | .op _ cs => STree.rightColsList attr cs
  | .ci i c => (c.rightCols attr).flatMap fun h => if (attr i).conf then
      [h, ⟨h.name, h.tags ++ [.lower]⟩, ⟨h.name, h.tags ++ [.upper]⟩] else [h, ⟨h.name, h.tags ++ [.se]⟩]

/-- The columns of all trees. -/
def STree.rightColsList (attr : ℕ → CiAttr) : List STree → List ColHead
  | [] => []
  | t :: ts => t.rightCols attr ++ STree.rightColsList attr ts

end

mutual

/-- The node `i` is in the tree. -/
def STree.has (i : ℕ) : STree → Prop
  | .leaf _ _ => False
  | .op _ cs => STree.hasList i cs
  | .ci j c => i = j ∨ c.has i

/-- The node `i` is in one of the trees. -/
def STree.hasList (i : ℕ) : List STree → Prop
  | [] => False
  | t :: ts => t.has i ∨ STree.hasList i ts

end

/-- No Jackknife or Bootstrap with a confidence level. -/
def STree.plain (attr : ℕ → CiAttr) (t : STree) : Prop := ∀ i, t.has i → (attr i).conf = false

/-- No Jackknife or Bootstrap that has a confidence level and is not itself the metric that is asked. -/
def STree.plainInside (attr : ℕ → CiAttr) : STree → Prop
  | .ci _ c => c.plain attr
  | t => t.plain attr

/-- The Jackknifes and Bootstraps with a confidence level have no filter and cannot be precomputed. -/
def STree.tidy (attr : ℕ → CiAttr) (t : STree) : Prop := ∀ i, t.has i → (attr i).conf = true → (attr i).filt = false ∧ (attr i).pre = false

/-- The metric that is asked. -/
def SqlCall.tree : SqlCall → STree
  | .toSql t => t
  | .compute _ _ t => t

/-! ## Columns -/

theorem boundCols_cols (hs : List ColHead) : boundCols (ciSqlCols true hs) = ciPyCols true hs := by
  induction hs with
  | nil => rfl
  | cons h t ih =>
    change boundCols (h :: h.tag .se :: h.tag .dof :: ciSqlCols true t) = h :: h.tag .lower :: h.tag .upper :: ciPyCols true t
    rw [boundCols, ih]

theorem cols_noconf (hs : List ColHead) : ciSqlCols false hs = ciPyCols false hs := rfl

/-! ## Flags -/

/-- The flags agree on all objects with a confidence level. -/
def FlagsAgree (attr : ℕ → CiAttr) (σ τ : RootFlags) : Prop := ∀ i, (attr i).conf = true → σ i = τ i

theorem FlagsAgree.refl (attr : ℕ → CiAttr) (σ : RootFlags) : FlagsAgree attr σ σ := fun _ _ => rfl

theorem FlagsAgree.symm {attr : ℕ → CiAttr} {σ τ : RootFlags} (h : FlagsAgree attr σ τ) : FlagsAgree attr τ σ := fun i hi => (h i hi).symm

theorem FlagsAgree.trans {attr : ℕ → CiAttr} {σ τ υ : RootFlags} (h : FlagsAgree attr σ τ) (h' : FlagsAgree attr τ υ) : FlagsAgree attr σ υ :=
  fun i hi => (h i hi).trans (h' i hi)

theorem FlagsAgree.put {attr : ℕ → CiAttr} {σ τ : RootFlags} (h : FlagsAgree attr σ τ) (i : ℕ) (b : Bool) : FlagsAgree attr (σ.put i b) (τ.put i b) := by
  intro j hj
  unfold RootFlags.put
  by_cases hji : j = i
  · simp [hji]
  · simp [hji, h j hj]

theorem put_agree {attr : ℕ → CiAttr} {σ : RootFlags} {i : ℕ} (h : (attr i).conf = false) (b : Bool) : FlagsAgree attr (σ.put i b) σ := by
  intro j hj
  unfold RootFlags.put
  rw [if_neg]
  rintro rfl
  rw [h] at hj
  exact Bool.noConfusion hj

theorem put_put (σ : RootFlags) (i : ℕ) (b c : Bool) : (σ.put i b).put i c = σ.put i c := by
  funext j
  unfold RootFlags.put
  by_cases h : j = i <;> simp [h]

/-- Two runs have the same outcome and leave flags that agree. -/
def RunAgree {α : Type} (attr : ℕ → CiAttr) (a b : Option α × RootFlags) : Prop := a.1 = b.1 ∧ FlagsAgree attr a.2 b.2

section
variable (attr : ℕ → CiAttr)

mutual

theorem genSql_agree (t : STree) (σ τ : RootFlags) (h : FlagsAgree attr σ τ) : RunAgree attr (genSql attr t σ) (genSql attr t τ) := by
  match t with
  | .leaf n sup => exact ⟨rfl, h⟩
  | .op sup cs =>
    unfold genSql
    split
    · exact genSqlList_agree cs σ τ h
    · exact ⟨rfl, h⟩
  | .ci i c =>
    have hg : ((attr i).conf && !σ i) = ((attr i).conf && !τ i) := by
      cases hc : (attr i).conf
      · rfl
      · rw [h i hc]
    have ih := genSql_agree c (σ.put i false) (τ.put i false) (h.put i false)
    unfold genSql
    rw [hg]
    split
    · exact ⟨rfl, h.put i false⟩
    · obtain ⟨h1, h2⟩ := ih
      rcases hs : genSql attr c (σ.put i false) with ⟨o, σ'⟩
      rcases ht : genSql attr c (τ.put i false) with ⟨o', τ'⟩
      rw [hs, ht] at h1 h2
      dsimp only at h1 h2
      subst h1
      cases o with
      | none => exact ⟨rfl, h.put i false⟩
      | some hs => exact ⟨rfl, h2⟩

theorem genSqlList_agree (ts : List STree) (σ τ : RootFlags) (h : FlagsAgree attr σ τ) :
    RunAgree attr (genSqlList attr ts σ) (genSqlList attr ts τ) := by
  match ts with
  | [] => exact ⟨rfl, h⟩
  | t :: ts =>
    obtain ⟨h1, h2⟩ := genSql_agree t σ τ h
    unfold genSqlList
    rcases hs : genSql attr t σ with ⟨o, σ'⟩
    rcases ht : genSql attr t τ with ⟨o', τ'⟩
    rw [hs, ht] at h1 h2
    dsimp only at h1 h2
    subst h1
    cases o with
    | none => exact ⟨rfl, h2⟩
    | some hd =>
      dsimp only
      obtain ⟨h3, h4⟩ := genSqlList_agree ts σ' τ' h2
      rcases hs' : genSqlList attr ts σ' with ⟨o, σ''⟩
      rcases ht' : genSqlList attr ts τ' with ⟨o', τ''⟩
      rw [hs', ht'] at h3 h4
      dsimp only at h3 h4
      subst h3
      cases o <;> exact ⟨rfl, h4⟩

end

theorem toSql_agree (t : STree) (σ τ : RootFlags) (h : FlagsAgree attr σ τ) : RunAgree attr (toSqlFlags attr t σ) (toSqlFlags attr t τ) := by
  match t with
  | .leaf n sup => exact genSql_agree attr _ σ τ h
  | .op sup cs => exact genSql_agree attr _ σ τ h
  | .ci i c =>
    have := genSql_agree attr (.ci i c) _ _ (h.put i true)
    simp only [toSqlFlags]
    cases (attr i).filt || (attr i).pre
    · exact this
    · exact ⟨this.1, h.put i true⟩

theorem repeat_agree {α : Type} (f : RootFlags → Option α × RootFlags) (hf : ∀ σ τ, FlagsAgree attr σ τ → RunAgree attr (f σ) (f τ)) (n : ℕ) :
    ∀ σ τ, FlagsAgree attr σ τ → RunAgree attr (repeatRun f n σ) (repeatRun f n τ) := by
  induction n with
  | zero => exact fun σ τ h => ⟨rfl, h⟩
  | succ n ih =>
    intro σ τ h
    obtain ⟨h1, h2⟩ := hf σ τ h
    unfold repeatRun
    rcases hs : f σ with ⟨o, σ'⟩
    rcases ht : f τ with ⟨o', τ'⟩
    rw [hs, ht] at h1 h2
    dsimp only at h1 h2
    subst h1
    cases o with
    | none => exact ⟨rfl, h2⟩
    | some a => exact ih σ' τ' h2

mutual

theorem computeSql_agree (n : ℕ) (mixed : Bool) (t : STree) (σ τ : RootFlags) (h : FlagsAgree attr σ τ) :
    RunAgree attr (computeSql attr n mixed t σ) (computeSql attr n mixed t τ) := by
  match t with
  | .leaf m sup => exact ⟨rfl, h⟩
  | .op sup cs =>
    unfold computeSql
    split
    · exact computeSqlList_agree n mixed cs σ τ h
    · obtain ⟨h1, h2⟩ := toSql_agree attr (.op sup cs) σ τ h
      rcases hs : toSqlFlags attr (.op sup cs) σ with ⟨o, σ'⟩
      rcases ht : toSqlFlags attr (.op sup cs) τ with ⟨o', τ'⟩
      rw [hs, ht] at h1 h2
      dsimp only at h1 h2
      subst h1
      cases o with
      | none => exact computeSqlList_agree n mixed cs σ' τ' h2
      | some a => exact ⟨rfl, h2⟩
  | .ci i c =>
    have ihc : ∀ σ τ, FlagsAgree attr σ τ → RunAgree attr (computeSql attr n mixed c σ) (computeSql attr n mixed c τ) :=
      fun σ τ h => computeSql_agree n mixed c σ τ h
    unfold computeSql
    have hroot : RunAgree attr (if mixed then (none, σ) else toSqlFlags attr (.ci i c) σ) (if mixed then (none, τ) else toSqlFlags attr (.ci i c) τ) := by
      split
      · exact ⟨rfl, h⟩
      · exact toSql_agree attr (.ci i c) σ τ h
    obtain ⟨h1, h2⟩ := hroot
    rcases hs : (if mixed then (none, σ) else toSqlFlags attr (.ci i c) σ) with ⟨o, σ'⟩
    rcases ht : (if mixed then (none, τ) else toSqlFlags attr (.ci i c) τ) with ⟨o', τ'⟩
    rw [hs, ht] at h1 h2
    dsimp only at h1 h2
    subst h1
    cases o with
    | some a => exact ⟨rfl, h2⟩
    | none =>
      dsimp only
      obtain ⟨h3, h4⟩ := repeat_agree attr _ ihc n σ' τ' h2
      rcases hs' : repeatRun (fun s => computeSql attr n mixed c s) n σ' with ⟨o, σ''⟩
      rcases ht' : repeatRun (fun s => computeSql attr n mixed c s) n τ' with ⟨o', τ''⟩
      rw [hs', ht'] at h3 h4
      dsimp only at h3 h4
      subst h3
      cases o with
      | none => exact ⟨rfl, h4⟩
      | some u =>
        dsimp only
        obtain ⟨h5, h6⟩ := ihc σ'' τ'' h4
        rcases hs₃ : computeSql attr n mixed c σ'' with ⟨o, σ₃⟩
        rcases ht₃ : computeSql attr n mixed c τ'' with ⟨o', τ₃⟩
        rw [hs₃, ht₃] at h5 h6
        dsimp only at h5 h6
        subst h5
        cases o <;> exact ⟨rfl, h6⟩

theorem computeSqlList_agree (n : ℕ) (mixed : Bool) (ts : List STree) (σ τ : RootFlags) (h : FlagsAgree attr σ τ) :
    RunAgree attr (computeSqlList attr n mixed ts σ) (computeSqlList attr n mixed ts τ) := by
  match ts with
  | [] => exact ⟨rfl, h⟩
  | t :: ts =>
    obtain ⟨h1, h2⟩ := computeSql_agree n mixed t σ τ h
    unfold computeSqlList
    rcases hs : computeSql attr n mixed t σ with ⟨o, σ'⟩
    rcases ht : computeSql attr n mixed t τ with ⟨o', τ'⟩
    rw [hs, ht] at h1 h2
    dsimp only at h1 h2
    subst h1
    cases o with
    | none => exact ⟨rfl, h2⟩
    | some hd =>
      dsimp only
      obtain ⟨h3, h4⟩ := computeSqlList_agree n mixed ts σ' τ' h2
      rcases hs' : computeSqlList attr n mixed ts σ' with ⟨o, σ''⟩
      rcases ht' : computeSqlList attr n mixed ts τ' with ⟨o', τ''⟩
      rw [hs', ht'] at h3 h4
      dsimp only at h3 h4
      subst h3
      cases o <;> exact ⟨rfl, h4⟩

end


/-! ## Trees -/

theorem has_child {i j : ℕ} {c : STree} (h : c.has j) : (STree.ci i c).has j := by
  unfold STree.has
  exact Or.inr h

theorem has_self (i : ℕ) (c : STree) : (STree.ci i c).has i := by
  unfold STree.has
  exact Or.inl rfl

/-- No Jackknife or Bootstrap with a confidence level in any of the trees. -/
def plainList (ts : List STree) : Prop := ∀ i, STree.hasList i ts → (attr i).conf = false

/-- All trees are tidy. -/
def tidyList (ts : List STree) : Prop := ∀ i, STree.hasList i ts → (attr i).conf = true → (attr i).filt = false ∧ (attr i).pre = false

theorem plain_cons {t : STree} {ts : List STree} : plainList attr (t :: ts) ↔ t.plain attr ∧ plainList attr ts := by
  constructor
  · intro h
    exact ⟨fun i hi => h i (by unfold STree.hasList; exact Or.inl hi), fun i hi => h i (by unfold STree.hasList; exact Or.inr hi)⟩
  · rintro ⟨h1, h2⟩ i hi
    unfold STree.hasList at hi
    exact hi.elim (h1 i) (h2 i)

theorem plain_op {sup : Bool} {cs : List STree} : (STree.op sup cs).plain attr ↔ plainList attr cs := by
  unfold STree.plain plainList
  simp only [STree.has]

theorem plain_ci {i : ℕ} {c : STree} : (STree.ci i c).plain attr ↔ (attr i).conf = false ∧ c.plain attr := by
  constructor
  · intro h
    exact ⟨h i (has_self i c), fun j hj => h j (has_child hj)⟩
  · rintro ⟨h1, h2⟩ j hj
    unfold STree.has at hj
    rcases hj with rfl | hj
    · exact h1
    · exact h2 j hj

theorem tidy_cons {t : STree} {ts : List STree} (h : tidyList attr (t :: ts)) : t.tidy attr ∧ tidyList attr ts :=
  ⟨fun i hi => h i (by unfold STree.hasList; exact Or.inl hi), fun i hi => h i (by unfold STree.hasList; exact Or.inr hi)⟩

theorem tidy_op {sup : Bool} {cs : List STree} (h : (STree.op sup cs).tidy attr) : tidyList attr cs :=
  fun i hi => h i (by unfold STree.has; exact hi)

theorem tidy_child {i : ℕ} {c : STree} (h : (STree.ci i c).tidy attr) : c.tidy attr := fun j hj => h j (has_child hj)

mutual

/-- All classes in the tree can generate SQL. -/
def STree.allSup : STree → Bool
  | .leaf _ sup => sup
  | .op sup cs => sup && STree.allSupList cs
  | .ci _ c => c.allSup

/-- All classes in all trees can generate SQL. -/
def STree.allSupList : List STree → Bool
  | [] => true
  | t :: ts => t.allSup && STree.allSupList ts

end

mutual

theorem leavesOk_of_allSup (t : STree) (h : t.allSup = true) : t.leavesOk = true := by
  match t with
  | .leaf n sup => exact h
  | .op sup cs =>
    unfold STree.allSup at h
    unfold STree.leavesOk
    rw [Bool.and_eq_true] at h
    exact leavesOkList_of_allSup cs h.2
  | .ci i c =>
    unfold STree.allSup at h
    unfold STree.leavesOk
    exact leavesOk_of_allSup c h

theorem leavesOkList_of_allSup (ts : List STree) (h : STree.allSupList ts = true) : STree.leavesOkList ts = true := by
  match ts with
  | [] => rfl
  | t :: ts =>
    unfold STree.allSupList at h
    unfold STree.leavesOkList
    rw [Bool.and_eq_true] at h ⊢
    exact ⟨leavesOk_of_allSup t h.1, leavesOkList_of_allSup ts h.2⟩

end

/-! ## Flags of objects with a confidence level that generating leaves alone -/

/-- No object with a confidence level is marked. -/
def FlagsClean (σ : RootFlags) : Prop := ∀ i, (attr i).conf = true → σ i = false

theorem clean_put {σ : RootFlags} (h : FlagsClean attr σ) (i : ℕ) : FlagsClean attr (σ.put i false) := by
  intro j hj
  unfold RootFlags.put
  split
  · rfl
  · exact h j hj

theorem clean_of_agree {σ τ : RootFlags} (h : FlagsClean attr σ) (h' : FlagsAgree attr σ τ) : FlagsClean attr τ :=
  fun i hi => (h' i hi).symm.trans (h i hi)

mutual

theorem genSql_clean (t : STree) (σ : RootFlags) (h : FlagsClean attr σ) : FlagsClean attr (genSql attr t σ).2 := by
  match t with
  | .leaf n sup => exact h
  | .op sup cs =>
    unfold genSql
    split
    · exact genSqlList_clean cs σ h
    · exact h
  | .ci i c =>
    have ih := genSql_clean c (σ.put i false) (clean_put attr h i)
    unfold genSql
    split
    · exact clean_put attr h i
    · rcases hs : genSql attr c (σ.put i false) with ⟨o, σ'⟩
      rw [hs] at ih
      cases o with
      | none => exact clean_put attr h i
      | some hs => exact ih

theorem genSqlList_clean (ts : List STree) (σ : RootFlags) (h : FlagsClean attr σ) : FlagsClean attr (genSqlList attr ts σ).2 := by
  match ts with
  | [] => exact h
  | t :: ts =>
    have h1 := genSql_clean t σ h
    unfold genSqlList
    rcases hs : genSql attr t σ with ⟨o, σ'⟩
    rw [hs] at h1
    cases o with
    | none => exact h1
    | some hd =>
      dsimp only
      have h2 := genSqlList_clean ts σ' h1
      rcases hs' : genSqlList attr ts σ' with ⟨o, σ''⟩
      rw [hs'] at h2
      cases o <;> exact h2

end

mutual

theorem genSql_plain_flags (t : STree) (hp : t.plain attr) (σ : RootFlags) : FlagsAgree attr (genSql attr t σ).2 σ := by
  match t with
  | .leaf n sup => exact FlagsAgree.refl _ _
  | .op sup cs =>
    unfold genSql
    split
    · exact genSqlList_plain_flags cs ((plain_op attr).1 hp) σ
    · exact FlagsAgree.refl _ _
  | .ci i c =>
    rw [plain_ci] at hp
    have ih := genSql_plain_flags c hp.2 (σ.put i false)
    have hput := put_agree (σ := σ) hp.1 false
    unfold genSql
    split
    · exact hput
    · rcases hs : genSql attr c (σ.put i false) with ⟨o, σ'⟩
      rw [hs] at ih
      cases o with
      | none => exact hput
      | some hs => exact ih.trans hput

theorem genSqlList_plain_flags (ts : List STree) (hp : plainList attr ts) (σ : RootFlags) : FlagsAgree attr (genSqlList attr ts σ).2 σ := by
  match ts with
  | [] => exact FlagsAgree.refl _ _
  | t :: ts =>
    rw [plain_cons] at hp
    have h1 := genSql_plain_flags t hp.1 σ
    unfold genSqlList
    rcases hs : genSql attr t σ with ⟨o, σ'⟩
    rw [hs] at h1
    cases o with
    | none => exact h1
    | some hd =>
      dsimp only
      have h2 := (genSqlList_plain_flags ts hp.2 σ').trans h1
      rcases hs' : genSqlList attr ts σ' with ⟨o, σ''⟩
      rw [hs'] at h2
      cases o <;> exact h2

end

/-! ## What is generated -/

mutual

theorem genSql_plain (t : STree) (hp : t.plain attr) (σ : RootFlags) :
    (genSql attr t σ).1 = if t.allSup then some (t.rightCols attr) else none := by
  match t with
  | .leaf n sup => rfl
  | .op sup cs =>
    have ih := genSqlList_plain cs ((plain_op attr).1 hp) σ
    unfold genSql STree.allSup STree.rightCols
    cases sup with
    | true => simpa using ih
    | false => simp
  | .ci i c =>
    rw [plain_ci] at hp
    have ih := genSql_plain c hp.2 (σ.put i false)
    unfold genSql STree.allSup STree.rightCols
    rw [hp.1]
    simp only [Bool.false_and, Bool.false_eq_true, if_false]
    rcases hs : genSql attr c (σ.put i false) with ⟨o, σ'⟩
    rw [hs] at ih
    dsimp only at ih
    subst ih
    cases c.allSup with
    | false => rfl
    | true => rfl

theorem genSqlList_plain (ts : List STree) (hp : plainList attr ts) (σ : RootFlags) :
    (genSqlList attr ts σ).1 = if STree.allSupList ts then some (STree.rightColsList attr ts) else none := by
  match ts with
  | [] => rfl
  | t :: ts =>
    rw [plain_cons] at hp
    have h1 := genSql_plain t hp.1 σ
    unfold genSqlList STree.allSupList STree.rightColsList
    rcases hs : genSql attr t σ with ⟨o, σ'⟩
    rw [hs] at h1
    dsimp only at h1
    subst h1
    cases t.allSup with
    | false => rfl
    | true =>
      simp only [if_true, Bool.true_and]
      have h2 := genSqlList_plain ts hp.2 σ'
      rcases hs' : genSqlList attr ts σ' with ⟨o, σ''⟩
      rw [hs'] at h2
      dsimp only at h2
      subst h2
      cases STree.allSupList ts <;> rfl

end

mutual

/-- A query that is generated while no object is marked is right. -/
theorem genSql_clean_right (t : STree) (σ : RootFlags) (hσ : FlagsClean attr σ) (cols : List ColHead) (h : (genSql attr t σ).1 = some cols) :
    t.leavesOk = true ∧ cols = t.rightCols attr := by
  match t with
  | .leaf n sup =>
    cases sup with
    | true => injection h with h; exact ⟨rfl, h.symm⟩
    | false => cases h
  | .op sup cs =>
    unfold genSql at h
    cases sup with
    | false => cases h
    | true =>
      have := genSqlList_clean_right cs σ hσ cols h
      unfold STree.leavesOk STree.rightCols
      exact this
  | .ci i c =>
    have ih := genSql_clean_right c (σ.put i false) (clean_put attr hσ i)
    unfold genSql at h
    cases hc : (attr i).conf with
    | true => simp [hc, hσ i hc] at h
    | false =>
      rw [hc] at h
      simp only [Bool.false_and, Bool.false_eq_true, if_false] at h
      rcases hg : genSql attr c (σ.put i false) with ⟨o, σ'⟩
      rw [hg] at h ih
      cases o with
      | none => cases h
      | some hs =>
        injection h with h
        obtain ⟨h1, h2⟩ := ih hs rfl
        unfold STree.leavesOk STree.rightCols
        rw [hc, ← h, h2]
        exact ⟨h1, rfl⟩

theorem genSqlList_clean_right (ts : List STree) (σ : RootFlags) (hσ : FlagsClean attr σ) (cols : List ColHead)
    (h : (genSqlList attr ts σ).1 = some cols) : STree.leavesOkList ts = true ∧ cols = STree.rightColsList attr ts := by
  match ts with
  | [] =>
    injection h with h
    exact ⟨rfl, h.symm⟩
  | t :: ts =>
    unfold genSqlList at h
    have h1 := genSql_clean_right t σ hσ
    have hcl := genSql_clean attr t σ hσ
    rcases hs : genSql attr t σ with ⟨o, σ'⟩
    rw [hs] at h h1 hcl
    cases o with
    | none => cases h
    | some hd =>
      dsimp only at h
      have h2 := genSqlList_clean_right ts σ' hcl
      rcases hs' : genSqlList attr ts σ' with ⟨o, σ''⟩
      rw [hs'] at h h2
      cases o with
      | none => cases h
      | some tl =>
        injection h with h
        obtain ⟨a1, a2⟩ := h1 hd rfl
        obtain ⟨b1, b2⟩ := h2 tl rfl
        unfold STree.leavesOkList STree.rightColsList
        rw [a1, b1, ← h, a2, b2]
        exact ⟨rfl, rfl⟩

end


theorem toSql_ci (i : ℕ) (c : STree) (σ : RootFlags) :
    (toSqlFlags attr (.ci i c) σ).1 = (genSql attr c (σ.put i false)).1.map (ciSqlCols (attr i).conf) := by
  have hg : (genSql attr (.ci i c) (σ.put i true)).1 = (genSql attr c (σ.put i false)).1.map (ciSqlCols (attr i).conf) := by
    have hi : (σ.put i true) i = true := by simp [RootFlags.put]
    rcases hs : genSql attr c (σ.put i false) with ⟨o, σ'⟩
    unfold genSql
    rw [hi, put_put, hs]
    simp only [Bool.not_true, Bool.and_false, Bool.false_eq_true, if_false]
    cases o <;> rfl
  simp only [toSqlFlags]
  cases (attr i).filt || (attr i).pre <;> exact hg

theorem toSql_clean (t : STree) (ht : t.tidy attr) (σ : RootFlags) (h : FlagsClean attr σ) : FlagsClean attr (toSqlFlags attr t σ).2 := by
  match t with
  | .leaf n sup => exact genSql_clean attr _ σ h
  | .op sup cs => exact genSql_clean attr _ σ h
  | .ci i c =>
    cases hc : (attr i).conf with
    | true =>
      obtain ⟨h1, h2⟩ := ht i (has_self i c) hc
      have hi : (σ.put i true) i = true := by simp [RootFlags.put]
      simp only [toSqlFlags, h1, h2, Bool.or_self, Bool.false_eq_true, if_false]
      unfold genSql
      rw [hi, put_put]
      simp only [Bool.not_true, Bool.and_false, Bool.false_eq_true, if_false]
      have := genSql_clean attr c (σ.put i false) (clean_put attr h i)
      rcases hs : genSql attr c (σ.put i false) with ⟨o, σ'⟩
      rw [hs] at this
      cases o with
      | none => exact clean_put attr h i
      | some hs => exact this
    | false =>
      have hput : FlagsClean attr (σ.put i true) := clean_of_agree attr h (put_agree hc true).symm
      simp only [toSqlFlags]
      cases (attr i).filt || (attr i).pre
      · exact genSql_clean attr _ _ hput
      · exact hput

/-! ## The result of compute_on_sql -/

theorem repeat_inv {α : Type} (I : RootFlags → Prop) (f : RootFlags → Option α × RootFlags) (r : Option α)
    (hf : ∀ σ, I σ → (f σ).1 = r ∧ I (f σ).2) (n : ℕ) :
    ∀ σ, I σ → I (repeatRun f n σ).2 ∧ ((repeatRun f n σ).1 = none → r = none) := by
  induction n with
  | zero => exact fun σ h => ⟨h, fun h' => nomatch h'⟩
  | succ n ih =>
    intro σ h
    obtain ⟨h1, h2⟩ := hf σ h
    unfold repeatRun
    rcases hs : f σ with ⟨o, σ'⟩
    rw [hs] at h1 h2
    dsimp only at h1 h2
    cases o with
    | none => exact ⟨h2, fun _ => h1.symm⟩
    | some a => exact ih σ' h2

/-- The part of a Jackknife or Bootstrap that is computed in Python. -/
theorem ci_python {I : RootFlags → Prop} (n : ℕ) (mixed : Bool) (i : ℕ) (c : STree) (r : Option (List ColHead))
    (hf : ∀ σ, I σ → (computeSql attr n mixed c σ).1 = r ∧ I (computeSql attr n mixed c σ).2) (σ σ' : RootFlags) (h : I σ')
    (hno : (if mixed then (none, σ) else toSqlFlags attr (.ci i c) σ) = (none, σ')) :
    (computeSql attr n mixed (.ci i c) σ).1 = r.map (ciPyCols (attr i).conf) ∧ I (computeSql attr n mixed (.ci i c) σ).2 := by
  obtain ⟨h1, h2⟩ := repeat_inv I (fun s => computeSql attr n mixed c s) r hf n σ' h
  unfold computeSql
  rw [hno]
  dsimp only
  rcases hs : repeatRun (fun s => computeSql attr n mixed c s) n σ' with ⟨o, σ''⟩
  rw [hs] at h1 h2
  cases o with
  | none => exact ⟨by rw [h2 rfl]; rfl, h1⟩
  | some u =>
    dsimp only
    obtain ⟨h3, h4⟩ := hf σ'' h1
    rcases ht : computeSql attr n mixed c σ'' with ⟨o, σ₃⟩
    rw [ht] at h3 h4
    dsimp only at h3 h4
    subst h3
    cases o <;> exact ⟨rfl, h4⟩

theorem ci_map (i : ℕ) (c : STree) (b : Bool) :
    (if b then some (c.rightCols attr) else none).map (ciPyCols (attr i).conf) = if b then some ((STree.ci i c).rightCols attr) else none := by
  cases b with
  | true => simp only [if_true, Option.map_some]; rw [STree.rightCols]; rfl
  | false => rfl

mutual

theorem compute_tidy (n : ℕ) (mixed : Bool) (t : STree) (ht : t.tidy attr) (σ : RootFlags) (hσ : FlagsClean attr σ) :
    (computeSql attr n mixed t σ).1 = (if t.leavesOk then some (t.rightCols attr) else none) ∧
      FlagsClean attr (computeSql attr n mixed t σ).2 := by
  match t with
  | .leaf m sup => exact ⟨rfl, hσ⟩
  | .op sup cs =>
    have ih := fun σ hσ => computeSqlList_tidy n mixed cs (tidy_op attr ht) σ hσ
    unfold computeSql STree.leavesOk STree.rightCols
    split
    · exact ih σ hσ
    · have hcl := toSql_clean attr _ ht σ hσ
      have hr := genSql_clean_right attr (.op sup cs) σ hσ
      have he : toSqlFlags attr (.op sup cs) σ = genSql attr (.op sup cs) σ := rfl
      rw [he] at hcl ⊢
      rcases hs : genSql attr (.op sup cs) σ with ⟨o, σ'⟩
      rw [hs] at hcl hr
      cases o with
      | none => exact ih σ' hcl
      | some h =>
        obtain ⟨h1, h2⟩ := hr h rfl
        unfold STree.leavesOk at h1
        unfold STree.rightCols at h2
        rw [h1, h2]
        exact ⟨rfl, hcl⟩
  | .ci i c =>
    have ih := fun σ hσ => compute_tidy n mixed c (tidy_child attr ht) σ hσ
    have hcl := toSql_clean attr _ ht σ hσ
    have hfst := toSql_ci attr i c σ
    have hr := genSql_clean_right attr c (σ.put i false) (clean_put attr hσ i)
    cases hm : (if mixed then (none, σ) else toSqlFlags attr (.ci i c) σ) with
    | mk o σ' =>
      have hσ' : FlagsClean attr σ' := by
        cases mixed with
        | true => injection hm with _ hm; rw [← hm]; exact hσ
        | false =>
          simp only [Bool.false_eq_true, if_false] at hm
          rw [hm] at hcl
          exact hcl
      cases o with
      | none =>
        have := ci_python attr (I := FlagsClean attr) n mixed i c _ ih σ σ' hσ' hm
        rw [ci_map] at this
        unfold STree.leavesOk
        exact this
      | some h =>
        unfold computeSql
        rw [hm]
        cases mixed with
        | true => cases hm
        | false =>
          simp only [Bool.false_eq_true, if_false] at hm
          rw [hm] at hfst
          dsimp only at hfst
          cases hg : (genSql attr c (σ.put i false)).1 with
          | none => rw [hg] at hfst; cases hfst
          | some hs =>
            rw [hg] at hfst
            injection hfst with hfst
            obtain ⟨h1, h2⟩ := hr hs hg
            refine ⟨?_, hσ'⟩
            unfold STree.leavesOk STree.rightCols
            rw [h1, hfst, ← h2]
            cases (attr i).conf with
            | true => simp only [if_true]; rw [boundCols_cols]; rfl
            | false => rfl

theorem computeSqlList_tidy (n : ℕ) (mixed : Bool) (ts : List STree) (ht : tidyList attr ts) (σ : RootFlags) (hσ : FlagsClean attr σ) :
    (computeSqlList attr n mixed ts σ).1 = (if STree.leavesOkList ts then some (STree.rightColsList attr ts) else none) ∧
      FlagsClean attr (computeSqlList attr n mixed ts σ).2 := by
  match ts with
  | [] => exact ⟨rfl, hσ⟩
  | t :: ts =>
    obtain ⟨ht1, ht2⟩ := tidy_cons attr ht
    obtain ⟨h1, h2⟩ := compute_tidy n mixed t ht1 σ hσ
    unfold computeSqlList STree.leavesOkList STree.rightColsList
    rcases hs : computeSql attr n mixed t σ with ⟨o, σ'⟩
    rw [hs] at h1 h2
    dsimp only at h1 h2
    subst h1
    cases t.leavesOk with
    | false => exact ⟨rfl, h2⟩
    | true =>
      simp only [if_true, Bool.true_and]
      obtain ⟨h3, h4⟩ := computeSqlList_tidy n mixed ts ht2 σ' h2
      rcases hs' : computeSqlList attr n mixed ts σ' with ⟨o, σ''⟩
      rw [hs'] at h3 h4
      dsimp only at h3 h4
      subst h3
      cases STree.leavesOkList ts <;> exact ⟨rfl, h4⟩

end

mutual

theorem compute_plain (n : ℕ) (mixed : Bool) (t : STree) (ht : t.plain attr) (σ : RootFlags) :
    (computeSql attr n mixed t σ).1 = (if t.leavesOk then some (t.rightCols attr) else none) ∧
      FlagsAgree attr (computeSql attr n mixed t σ).2 σ := by
  match t with
  | .leaf m sup => exact ⟨rfl, FlagsAgree.refl _ _⟩
  | .op sup cs =>
    have ih := fun σ => computeSqlList_plain n mixed cs ((plain_op attr).1 ht) σ
    have hg := genSql_plain attr _ ht σ
    have hfl := genSql_plain_flags attr _ ht σ
    unfold computeSql
    split
    · have := ih σ
      unfold STree.leavesOk STree.rightCols
      exact this
    · have he : toSqlFlags attr (.op sup cs) σ = genSql attr (.op sup cs) σ := rfl
      rw [he]
      rcases hs : genSql attr (.op sup cs) σ with ⟨o, σ'⟩
      rw [hs] at hg hfl
      dsimp only at hg hfl
      cases o with
      | none =>
        have := ih σ'
        unfold STree.leavesOk STree.rightCols
        exact ⟨this.1, this.2.trans hfl⟩
      | some h =>
        cases hal : (STree.op sup cs).allSup with
        | false => rw [hal] at hg; cases hg
        | true =>
          rw [hal] at hg
          rw [leavesOk_of_allSup _ hal, hg]
          exact ⟨rfl, hfl⟩
  | .ci i c =>
    have hp := (plain_ci attr).1 ht
    have ih := fun σ => compute_plain n mixed c hp.2 σ
    have hput : ∀ b, FlagsAgree attr (σ.put i b) σ := put_agree hp.1
    have hfst := toSql_ci attr i c σ
    rw [genSql_plain attr c hp.2] at hfst
    have hfl : FlagsAgree attr (toSqlFlags attr (.ci i c) σ).2 σ := by
      simp only [toSqlFlags]
      cases (attr i).filt || (attr i).pre
      · exact (genSql_plain_flags attr _ ht _).trans (hput true)
      · exact hput true
    cases hm : (if mixed then (none, σ) else toSqlFlags attr (.ci i c) σ) with
    | mk o σ' =>
      have hσ' : FlagsAgree attr σ' σ := by
        cases mixed with
        | true => injection hm with _ hm; rw [← hm]; exact FlagsAgree.refl _ _
        | false =>
          simp only [Bool.false_eq_true, if_false] at hm
          rw [hm] at hfl
          exact hfl
      cases o with
      | none =>
        have := ci_python attr (I := fun τ => FlagsAgree attr τ σ) n mixed i c _ (fun τ hτ => ⟨(ih τ).1, (ih τ).2.trans hτ⟩) σ σ' hσ' hm
        rw [ci_map] at this
        unfold STree.leavesOk
        exact this
      | some h =>
        unfold computeSql
        rw [hm]
        cases mixed with
        | true => cases hm
        | false =>
          simp only [Bool.false_eq_true, if_false] at hm
          rw [hm] at hfst
          dsimp only at hfst
          cases hal : c.allSup with
          | false => rw [hal] at hfst; cases hfst
          | true =>
            rw [hal] at hfst
            injection hfst with hfst
            refine ⟨?_, hσ'⟩
            unfold STree.leavesOk STree.rightCols
            rw [leavesOk_of_allSup c hal, hfst, hp.1]
            rfl

theorem computeSqlList_plain (n : ℕ) (mixed : Bool) (ts : List STree) (ht : plainList attr ts) (σ : RootFlags) :
    (computeSqlList attr n mixed ts σ).1 = (if STree.leavesOkList ts then some (STree.rightColsList attr ts) else none) ∧
      FlagsAgree attr (computeSqlList attr n mixed ts σ).2 σ := by
  match ts with
  | [] => exact ⟨rfl, FlagsAgree.refl _ _⟩
  | t :: ts =>
    rw [plain_cons] at ht
    obtain ⟨h1, h2⟩ := compute_plain n mixed t ht.1 σ
    unfold computeSqlList STree.leavesOkList STree.rightColsList
    rcases hs : computeSql attr n mixed t σ with ⟨o, σ'⟩
    rw [hs] at h1 h2
    dsimp only at h1 h2
    subst h1
    cases t.leavesOk with
    | false => exact ⟨rfl, h2⟩
    | true =>
      simp only [if_true, Bool.true_and]
      obtain ⟨h3, h4⟩ := computeSqlList_plain n mixed ts ht.2 σ'
      rcases hs' : computeSqlList attr n mixed ts σ' with ⟨o, σ''⟩
      rw [hs'] at h3 h4
      dsimp only at h3 h4
      subst h3
      cases STree.leavesOkList ts <;> exact ⟨rfl, h4.trans h2⟩

end


/-! ## Theorems -/

theorem call_clean (c : SqlCall) (hc : c.tree.tidy attr) (σ : RootFlags) (h : FlagsClean attr σ) : FlagsClean attr (c.run attr σ).2 := by
  cases c with
  | toSql t => exact toSql_clean attr t hc σ h
  | compute n mixed t => exact (compute_tidy attr n mixed t hc σ h).2

theorem flagsAfter_clean (calls : List SqlCall) (hc : ∀ c ∈ calls, c.tree.tidy attr) : FlagsClean attr (flagsAfter attr calls) := by
  suffices ∀ σ, FlagsClean attr σ → FlagsClean attr (calls.foldl (fun σ c => (c.run attr σ).2) σ) from
    this _ (fun _ _ => rfl)
  induction calls with
  | nil => exact fun σ h => h
  | cons c t ih => exact fun σ h => ih (fun c' hc' => hc c' (List.mem_cons_of_mem _ hc')) _ (call_clean attr c (hc c List.mem_cons_self) σ h)

/-- **C87**: a call of `to_sql` or `compute_on_sql` has the outcome that it has on new objects, whatever has been asked before of
metrics, or of metrics that share parts with them, as long as the Jackknifes and Bootstraps with a confidence level that were asked
before, or that were in a metric asked before, have no filter and cannot be precomputed. Nothing is assumed of the call itself. -/
theorem C87_history_partial (calls : List SqlCall) (hc : ∀ c ∈ calls, c.tree.tidy attr) (call : SqlCall) :
    (call.run attr (flagsAfter attr calls)).1 = (call.run attr RootFlags.fresh).1 := by
  have h : FlagsAgree attr (flagsAfter attr calls) RootFlags.fresh := fun i hi => flagsAfter_clean attr calls hc i hi
  cases call with
  | toSql t => exact (toSql_agree attr t _ _ h).1
  | compute n mixed t => exact (computeSql_agree attr n mixed t _ _ h).1

/-- **C87** for a metric in which only the root may have a confidence level: after any history at all, `compute_on_sql` gives the right
columns, or raises NotImplementedError exactly if a leaf has no SQL. -/
theorem C87_root_partial (calls : List SqlCall) (n : ℕ) (mixed : Bool) (t : STree) (ht : t.plainInside attr) :
    (computeSql attr n mixed t (flagsAfter attr calls)).1 = if t.leavesOk then some (t.rightCols attr) else none := by
  generalize flagsAfter attr calls = σ
  match t with
  | .leaf m sup => exact (compute_plain attr n mixed _ ht σ).1
  | .op sup cs => exact (compute_plain attr n mixed _ ht σ).1
  | .ci i c =>
    have hp : c.plain attr := ht
    have ih := fun σ => compute_plain attr n mixed c hp σ
    have hfst := toSql_ci attr i c σ
    rw [genSql_plain attr c hp] at hfst
    cases hm : (if mixed then (none, σ) else toSqlFlags attr (.ci i c) σ) with
    | mk o σ' =>
      cases o with
      | none =>
        have := ci_python attr (I := fun _ => True) n mixed i c _ (fun τ _ => ⟨(ih τ).1, trivial⟩) σ σ' trivial hm
        rw [ci_map] at this
        unfold STree.leavesOk
        exact this.1
      | some h =>
        unfold computeSql
        rw [hm]
        cases mixed with
        | true => cases hm
        | false =>
          simp only [Bool.false_eq_true, if_false] at hm
          rw [hm] at hfst
          dsimp only at hfst
          cases hal : c.allSup with
          | false => rw [hal] at hfst; cases hfst
          | true =>
            rw [hal] at hfst
            injection hfst with hfst
            unfold STree.leavesOk STree.rightCols
            rw [leavesOk_of_allSup c hal, hfst]
            cases (attr i).conf with
            | true => simp only [if_true]; rw [boundCols_cols]; rfl
            | false => rfl

/-- After a history without such metrics, `compute_on_sql` of a metric without such parts gives the right columns, wherever in the
metric the confidence levels are. -/
theorem C87_right_partial (calls : List SqlCall) (hc : ∀ c ∈ calls, c.tree.tidy attr) (n : ℕ) (mixed : Bool) (t : STree) (ht : t.tidy attr) :
    (computeSql attr n mixed t (flagsAfter attr calls)).1 = if t.leavesOk then some (t.rightCols attr) else none :=
  (compute_tidy attr n mixed t ht _ (flagsAfter_clean attr calls hc)).1

/-! ## Violation -/

theorem genSqlList_append (l₁ l₂ : List STree) (σ : RootFlags) (h₁ : List ColHead) (hl : (genSqlList attr l₁ σ).1 = some h₁) :
    genSqlList attr (l₁ ++ l₂) σ = ((genSqlList attr l₂ (genSqlList attr l₁ σ).2).1.map (h₁ ++ ·), (genSqlList attr l₂ (genSqlList attr l₁ σ).2).2) := by
  induction l₁ generalizing σ h₁ with
  | nil =>
    injection hl with hl
    subst hl
    rcases hs : genSqlList attr l₂ σ with ⟨o, σ'⟩
    simp only [List.nil_append, genSqlList, hs]
    cases o <;> rfl
  | cons t ts ih =>
    rw [genSqlList] at hl
    rw [List.cons_append, genSqlList, genSqlList]
    rcases hs : genSql attr t σ with ⟨o, σ'⟩
    rw [hs] at hl
    cases o with
    | none => cases hl
    | some h =>
      dsimp only at hl ⊢
      rcases ht : genSqlList attr ts σ' with ⟨o, σ''⟩
      rw [ht] at hl
      cases o with
      | none => cases hl
      | some hs' =>
        injection hl with hl
        have := ih σ' hs' (by rw [ht])
        rw [this, ht]
        dsimp only
        subst hl
        rcases genSqlList attr l₂ σ'' with ⟨o, σ₃⟩
        cases o
        · rfl
        · simp

theorem computeSqlList_append (n : ℕ) (mixed : Bool) (l₁ l₂ : List STree) (σ : RootFlags) (h₁ : List ColHead)
    (hl : (computeSqlList attr n mixed l₁ σ).1 = some h₁) :
    computeSqlList attr n mixed (l₁ ++ l₂) σ =
      ((computeSqlList attr n mixed l₂ (computeSqlList attr n mixed l₁ σ).2).1.map (h₁ ++ ·),
        (computeSqlList attr n mixed l₂ (computeSqlList attr n mixed l₁ σ).2).2) := by
  induction l₁ generalizing σ h₁ with
  | nil =>
    injection hl with hl
    subst hl
    rcases hs : computeSqlList attr n mixed l₂ σ with ⟨o, σ'⟩
    simp only [List.nil_append, computeSqlList, hs]
    cases o <;> rfl
  | cons t ts ih =>
    rw [computeSqlList] at hl
    rw [List.cons_append, computeSqlList, computeSqlList]
    rcases hs : computeSql attr n mixed t σ with ⟨o, σ'⟩
    rw [hs] at hl
    cases o with
    | none => cases hl
    | some h =>
      dsimp only at hl ⊢
      rcases ht : computeSqlList attr n mixed ts σ' with ⟨o, σ''⟩
      rw [ht] at hl
      cases o with
      | none => cases hl
      | some hs' =>
        injection hl with hl
        have := ih σ' hs' (by rw [ht])
        rw [this, ht]
        dsimp only
        subst hl
        rcases computeSqlList attr n mixed l₂ σ'' with ⟨o, σ₃⟩
        cases o
        · rfl
        · simp


theorem rightColsList_append (l₁ l₂ : List STree) :
    STree.rightColsList attr (l₁ ++ l₂) = STree.rightColsList attr l₁ ++ STree.rightColsList attr l₂ := by
  induction l₁ with
  | nil => rfl
  | cons t ts ih => rw [List.cons_append, STree.rightColsList, STree.rightColsList, ih, List.append_assoc]

section
variable {attr} {i : ℕ} {c : STree} {l₁ l₂ : List STree} (hconf : (attr i).conf = true) (hleak : ((attr i).filt || (attr i).pre) = true)
  (hc : c.plain attr) (h₁ : plainList attr l₁) (h₂ : plainList attr l₂) (sc : c.allSup = true) (s₁ : STree.allSupList l₁ = true)
  (s₂ : STree.allSupList l₂ = true) (n : ℕ) (σ : RootFlags)

include hconf hc h₁ h₂ sc s₁ s₂ in
theorem alternate_marked (hi : σ i = true) :
    (computeSql attr n false (.op true (l₁ ++ .ci i c :: l₂)) σ).1 =
        some (STree.rightColsList attr l₁ ++ ciSqlCols true (c.rightCols attr) ++ STree.rightColsList attr l₂) ∧
      (computeSql attr n false (.op true (l₁ ++ .ci i c :: l₂)) σ).2 i = false := by
  have e1 := genSqlList_plain attr l₁ h₁ σ
  rw [s₁, if_pos rfl] at e1
  have f1 := genSqlList_plain_flags attr l₁ h₁ σ i hconf
  have happ := genSqlList_append attr l₁ (.ci i c :: l₂) σ _ e1
  generalize (genSqlList attr l₁ σ).2 = σ₁ at happ f1
  have e2 := genSql_plain attr c hc (σ₁.put i false)
  have f2 := genSql_plain_flags attr c hc (σ₁.put i false) i hconf
  rw [sc, if_pos rfl] at e2
  have hgi : genSql attr (.ci i c) σ₁ = (some (ciSqlCols true (c.rightCols attr)), (genSql attr c (σ₁.put i false)).2) := by
    rcases hs : genSql attr c (σ₁.put i false) with ⟨o, σ'⟩
    rw [hs] at e2
    dsimp only at e2
    subst e2
    unfold genSql
    rw [f1, hi, hs, hconf]
    rfl
  generalize (genSql attr c (σ₁.put i false)).2 = σ₂ at hgi f2
  have e3 := genSqlList_plain attr l₂ h₂ σ₂
  have f3 := genSqlList_plain_flags attr l₂ h₂ σ₂ i hconf
  rw [s₂, if_pos rfl] at e3
  have hl : genSqlList attr (.ci i c :: l₂) σ₁ =
      (some (ciSqlCols true (c.rightCols attr) ++ STree.rightColsList attr l₂), (genSqlList attr l₂ σ₂).2) := by
    rw [genSqlList, hgi]
    dsimp only
    rcases hs : genSqlList attr l₂ σ₂ with ⟨o, σ'⟩
    rw [hs] at e3
    dsimp only at e3
    subst e3
    rfl
  have hgen : genSql attr (.op true (l₁ ++ .ci i c :: l₂)) σ =
      (some (STree.rightColsList attr l₁ ++ ciSqlCols true (c.rightCols attr) ++ STree.rightColsList attr l₂), (genSqlList attr l₂ σ₂).2) := by
    rw [genSql, if_pos rfl, happ, hl, List.append_assoc]
    rfl
  have hcomp : computeSql attr n false (.op true (l₁ ++ .ci i c :: l₂)) σ = genSql attr (.op true (l₁ ++ .ci i c :: l₂)) σ := by
    unfold computeSql
    simp only [Bool.false_eq_true, if_false, toSqlFlags]
    rw [hgen]
  rw [hcomp, hgen]
  refine ⟨rfl, ?_⟩
  rw [f3, f2]
  simp [RootFlags.put]

include hconf hleak hc h₁ h₂ sc s₁ s₂ in
theorem alternate_unmarked (hi : σ i = false) :
    (computeSql attr n false (.op true (l₁ ++ .ci i c :: l₂)) σ).1 = some ((STree.op true (l₁ ++ .ci i c :: l₂)).rightCols attr) ∧
      (computeSql attr n false (.op true (l₁ ++ .ci i c :: l₂)) σ).2 i = true := by
  have e1 := genSqlList_plain attr l₁ h₁ σ
  rw [s₁, if_pos rfl] at e1
  have f1 := genSqlList_plain_flags attr l₁ h₁ σ i hconf
  have happ := genSqlList_append attr l₁ (.ci i c :: l₂) σ _ e1
  generalize (genSqlList attr l₁ σ).2 = σ₁ at happ f1
  have hgen : genSql attr (.op true (l₁ ++ .ci i c :: l₂)) σ = (none, σ₁.put i false) := by
    rw [genSql, if_pos rfl, happ, genSqlList, genSql, f1, hi, hconf]
    rfl
  have hcomp : computeSql attr n false (.op true (l₁ ++ .ci i c :: l₂)) σ = computeSqlList attr n false (l₁ ++ .ci i c :: l₂) (σ₁.put i false) := by
    unfold computeSql
    simp only [Bool.false_eq_true, if_false, toSqlFlags]
    rw [hgen]
  generalize σ₁.put i false = τ at hcomp
  rw [hcomp]
  have e2 := (computeSqlList_plain attr n false l₁ h₁ τ).1
  rw [leavesOkList_of_allSup l₁ s₁, if_pos rfl] at e2
  rw [computeSqlList_append attr n false l₁ (.ci i c :: l₂) τ _ e2]
  generalize (computeSqlList attr n false l₁ τ).2 = τ₁
  have hci : computeSql attr n false (.ci i c) τ₁ = (some ((STree.ci i c).rightCols attr), τ₁.put i true) := by
    have hfst := toSql_ci attr i c τ₁
    rw [genSql_plain attr c hc, sc] at hfst
    have hsnd : (toSqlFlags attr (.ci i c) τ₁).2 = τ₁.put i true := by
      simp only [toSqlFlags, hleak, if_true]
    unfold computeSql
    simp only [Bool.false_eq_true, if_false]
    rcases hs : toSqlFlags attr (.ci i c) τ₁ with ⟨o, σ'⟩
    rw [hs] at hfst hsnd
    dsimp only at hfst hsnd
    subst hfst hsnd
    simp only [if_true, Option.map_some, hconf]
    rw [boundCols_cols, STree.rightCols, hconf]
    rfl
  obtain ⟨e3, f3⟩ := computeSqlList_plain attr n false l₂ h₂ (τ₁.put i true)
  rw [leavesOkList_of_allSup l₂ s₂, if_pos rfl] at e3
  have hl : computeSqlList attr n false (.ci i c :: l₂) τ₁ =
      (some ((STree.ci i c).rightCols attr ++ STree.rightColsList attr l₂), (computeSqlList attr n false l₂ (τ₁.put i true)).2) := by
    rw [computeSqlList, hci]
    dsimp only
    rcases hs : computeSqlList attr n false l₂ (τ₁.put i true) with ⟨o, σ'⟩
    rw [hs] at e3
    dsimp only at e3
    subst e3
    rfl
  rw [hl]
  constructor
  · rw [STree.rightCols, rightColsList_append, STree.rightColsList]
    rfl
  · rw [f3 i hconf]
    simp [RootFlags.put]

include hconf hleak hc h₁ h₂ sc s₁ s₂ in
/-- **C87 is violated**: a list of metrics in which one Jackknife or Bootstrap has a confidence level and a filter, or can be
precomputed. Each second `compute_on_sql` of the very same list gives the standard error and the degrees of freedom in the place of the
bounds of the interval. -/
theorem C87_alternates_violation (k : ℕ) :
    (computeSql attr n false (.op true (l₁ ++ .ci i c :: l₂))
        (flagsAfter attr (List.replicate k (.compute n false (.op true (l₁ ++ .ci i c :: l₂)))))).1 =
      some (STree.rightColsList attr l₁ ++
        ((c.rightCols attr).flatMap fun h =>
          if k % 2 = 0 then [h, h.tag .lower, h.tag .upper] else [h, h.tag .se, h.tag .dof]) ++ STree.rightColsList attr l₂) := by
  have hflag : ∀ k, flagsAfter attr (List.replicate k (.compute n false (.op true (l₁ ++ .ci i c :: l₂)))) i = decide (k % 2 = 1) := by
    intro k
    induction k with
    | zero => rfl
    | succ k ih =>
      have hstep : flagsAfter attr (List.replicate (k + 1) (.compute n false (.op true (l₁ ++ .ci i c :: l₂)))) =
          (computeSql attr n false (.op true (l₁ ++ .ci i c :: l₂))
            (flagsAfter attr (List.replicate k (.compute n false (.op true (l₁ ++ .ci i c :: l₂)))))).2 := by
        unfold flagsAfter
        rw [List.replicate_succ', List.foldl_append]
        rfl
      rw [hstep]
      by_cases hk : k % 2 = 1
      · rw [(alternate_marked hconf hc h₁ h₂ sc s₁ s₂ n _ (by rw [ih]; simp [hk])).2]
        have : ¬ (k + 1) % 2 = 1 := by omega
        simp [this]
      · rw [(alternate_unmarked hconf hleak hc h₁ h₂ sc s₁ s₂ n _ (by rw [ih]; simp [hk])).2]
        have : (k + 1) % 2 = 1 := by omega
        simp [this]
  by_cases hk : k % 2 = 1
  · rw [(alternate_marked hconf hc h₁ h₂ sc s₁ s₂ n _ (by rw [hflag]; simp [hk])).1]
    have : ¬ k % 2 = 0 := by omega
    simp only [this, if_false]
    rfl
  · rw [(alternate_unmarked hconf hleak hc h₁ h₂ sc s₁ s₂ n _ (by rw [hflag]; simp [hk])).1]
    have : k % 2 = 0 := by omega
    simp only [this, if_true]
    rw [STree.rightCols, rightColsList_append, STree.rightColsList, STree.rightCols, hconf, List.append_assoc]
    rfl

end

end

/-! ## Witnesses -/

/-- Object 0: a Jackknife with a confidence level that can be precomputed; object 1: one that cannot be; object 2: one without level. -/
def exCiAttr : ℕ → CiAttr
  | 0 => ⟨true, false, true⟩
  | 1 => ⟨true, false, false⟩
  | _ => ⟨false, true, true⟩

/-- **C87 is violated**, also within one call on new objects: the same Jackknife in two lists of a list. The first inner list marks it, the
second takes it for the root. -/
theorem C87_shared_violation :
    (computeSql exCiAttr 1 false (.op true [.op true [.ci 0 (.leaf 5 true)], .op true [.ci 0 (.leaf 5 true), .leaf 6 true]]) RootFlags.fresh).1 =
      some [⟨5, []⟩, ⟨5, [.lower]⟩, ⟨5, [.upper]⟩, ⟨5, []⟩, ⟨5, [.se]⟩, ⟨5, [.dof]⟩, ⟨6, []⟩] := by
  decide

/-- **C87 is violated**: `to_sql` of a list raises NotImplementedError for a new Jackknife and does not after `to_sql` of the Jackknife. -/
theorem C87_to_sql_violation :
    (toSqlFlags exCiAttr (.op true [.ci 0 (.leaf 5 true), .leaf 6 true]) RootFlags.fresh).1 = none ∧
      (toSqlFlags exCiAttr (.op true [.ci 0 (.leaf 5 true), .leaf 6 true]) (flagsAfter exCiAttr [.toSql (.ci 0 (.leaf 5 true))])).1 =
        some [⟨5, []⟩, ⟨5, [.se]⟩, ⟨5, [.dof]⟩, ⟨6, []⟩] := by
  decide

/-- A history that meets the hypothesis, with a confidence level inside, and a call that goes wrong after another history. -/
example : (∀ c ∈ [SqlCall.compute 3 false (.op true [.ci 1 (.leaf 5 true), .ci 2 (.leaf 7 true)])], c.tree.tidy exCiAttr) ∧
    (computeSql exCiAttr 1 false (.op true [.ci 0 (.leaf 5 true)])
      (flagsAfter exCiAttr [SqlCall.compute 3 false (.op true [.ci 1 (.leaf 5 true), .ci 2 (.leaf 7 true)])])).1 =
      some [⟨5, []⟩, ⟨5, [.lower]⟩, ⟨5, [.upper]⟩] := by
  refine ⟨?_, by decide⟩
  intro c hc
  rw [List.mem_singleton] at hc
  subst hc
  intro i hi hcf
  simp only [SqlCall.tree, STree.has, STree.hasList, or_false] at hi
  rcases hi with rfl | rfl
  · exact ⟨rfl, rfl⟩
  · exact nomatch hcf

/-- Only the root has a confidence level, the child has another Jackknife without. -/
example : (STree.ci 0 (.op false [.ci 2 (.leaf 5 true), .leaf 6 true])).plainInside exCiAttr := by
  intro i hi
  simp only [STree.has, STree.hasList, or_false] at hi
  rw [hi]
  rfl

/-- The hypotheses of the alternating results. -/
example : (computeSql exCiAttr 2 false (.op true [.leaf 6 true, .ci 0 (.leaf 5 true)])
      (flagsAfter exCiAttr (List.replicate 1 (.compute 2 false (.op true [.leaf 6 true, .ci 0 (.leaf 5 true)]))))).1 =
      some [⟨6, []⟩, ⟨5, []⟩, ⟨5, [.se]⟩, ⟨5, [.dof]⟩] :=
  C87_alternates_violation (attr := exCiAttr) (i := 0) (c := .leaf 5 true) (l₁ := [.leaf 6 true]) (l₂ := []) rfl rfl
    (fun j hj => by simp [STree.has] at hj) (fun j hj => by simp [STree.has, STree.hasList] at hj) (fun j hj => by simp [STree.hasList] at hj)
    rfl rfl rfl 2 1

end Verif
