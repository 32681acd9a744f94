import Verif.Model.Logistic
import Verif.Lemmas.Suff

/-!
# Handing out the columns of one query to the slices
-/

namespace Verif

/-- Two passes over a list are one, in `Option`. -/
theorem mapM_bind_mapM {α β γ : Type} (f : α → Option β) (g : β → Option γ) (l : List α) :
    (l.mapM f).bind (fun r => r.mapM g) = l.mapM fun a => (f a).bind g := by
  induction l with
  | nil => simp
  | cons a l ih =>
    rw [List.mapM_cons, List.mapM_cons, ← ih]
    cases f a with
    | none => rfl
    | some b =>
      cases l.mapM f with
      | none => cases h : g b <;> simp [h]
      | some r => simp [List.mapM_cons]

theorem mapM_congr_mem {α β : Type} {f g : α → Option β} {l : List α} (h : ∀ a ∈ l, f a = g a) : l.mapM f = l.mapM g := by
  induction l with
  | nil => rfl
  | cons a l ih => rw [List.mapM_cons, List.mapM_cons, h a (by simp), ih fun b hb => h b (by simp [hb])]

theorem mapM_some_self {α β : Type} (f : α → β) (l : List α) : (l.mapM fun a => some (f a)) = some (l.map f) := by
  induction l with
  | nil => rfl
  | cons a l ih => rw [List.mapM_cons, ih]; rfl

theorem length_gradCols (m : LogitCfg) (rows : List RegRow) (c : ℕ → ℝ) : (m.gradCols rows c).length = m.n := by
  simp [LogitCfg.gradCols]

theorem length_hessCols (m : LogitCfg) (rows : List RegRow) (c : ℕ → ℝ) : 2 * (m.hessCols rows c).length = m.n * (m.n + 1) := by
  rw [← length_triu m.n, LogitCfg.hessCols]
  cases m.l2C <;> simp [addAt]

section
variable {α : Type}

theorem takeGrads_flatMap (n : ℕ) (done : α → Bool) (g : α → List ℝ) (hg : ∀ a, (g a).length = n) (rest : List ℝ) (st : List α) :
    takeGrads n (st.map done) (((st.filter fun a => !done a).flatMap g) ++ rest) =
      (st.map fun a => if done a then List.replicate n 0 else g a, rest) := by
  induction st with
  | nil => simp [takeGrads]
  | cons a st ih =>
    cases h : done a
    · have e : ((a :: st).filter fun a => !done a).flatMap g ++ rest = g a ++ ((st.filter fun a => !done a).flatMap g ++ rest) := by
        simp [h]
      rw [List.map_cons, h, takeGrads, e]
      have hd : (g a ++ ((st.filter fun a => !done a).flatMap g ++ rest)).drop n = (st.filter fun a => !done a).flatMap g ++ rest := by
        rw [List.drop_append, hg a]; simp [hg a]
      have ht : (g a ++ ((st.filter fun a => !done a).flatMap g ++ rest)).take n = g a := by
        rw [List.take_append, hg a]; simp [hg a]
      rw [hd, ht, ih]
      simp [h]
    · have e : ((a :: st).filter fun a => !done a).flatMap g ++ rest = (st.filter fun a => !done a).flatMap g ++ rest := by
        simp [h]
      rw [List.map_cons, h, takeGrads, e, ih]
      simp [h]

theorem reshape_flatMap (m : ℕ) (hm : 0 < m) (h : α → List ℝ) (hh : ∀ a, (h a).length = m) (l : List α) (f : ℕ)
    (hf : (l.flatMap h).length ≤ f) : reshape m f (l.flatMap h) = some (l.map h) := by
  induction l generalizing f with
  | nil => cases f <;> simp [reshape]
  | cons a l ih =>
    have e : (a :: l).flatMap h = h a ++ l.flatMap h := by simp
    rw [e] at hf ⊢
    rw [List.length_append, hh] at hf
    obtain ⟨x, xs, hx⟩ : ∃ x xs, h a ++ l.flatMap h = x :: xs := by
      cases hc : h a ++ l.flatMap h with
      | nil =>
        have := congrArg List.length hc
        rw [List.length_append, hh] at this
        simp at this; omega
      | cons x xs => exact ⟨x, xs, rfl⟩
    obtain ⟨f', rfl⟩ : ∃ f', f = f' + 1 := ⟨f - 1, by omega⟩
    have hd : (h a ++ l.flatMap h).drop m = l.flatMap h := by rw [List.drop_append, hh]; simp [hh]
    have ht : (h a ++ l.flatMap h).take m = h a := by rw [List.take_append, hh]; simp [hh]
    have hlen : ¬ (h a ++ l.flatMap h).length < m := by rw [List.length_append, hh]; omega
    rw [hx, reshape, ← hx, if_neg hlen, hd, ht, ih f' (by omega)]
    simp

theorem takeHess_map (n : ℕ) (done : α → Bool) (h : α → List ℝ) (st : List α) :
    takeHess n (st.map done) ((st.filter fun a => !done a).map h) =
      st.mapM fun a => if done a then some (n, fun _ _ => 0) else symmetrize (h a) := by
  induction st with
  | nil => rfl
  | cons a st ih =>
    rw [List.mapM_cons, ← ih]
    cases hd : done a
    · simp only [List.map_cons, hd, List.filter_cons, Bool.not_false, if_true, takeHess, Bool.false_eq_true, if_false]
    · simp only [List.map_cons, hd, List.filter_cons, Bool.not_true, Bool.false_eq_true, if_false, takeHess, if_true]
      cases takeHess n (st.map done) ((st.filter fun a => !done a).map h) <;> rfl

end

section
variable {κ : Type} [DecidableEq κ]

/-- The state of a slice in the loops: its key, its coefficients, whether it has converged. -/
abbrev SliceSt (κ : Type) := κ × (ℕ → ℝ) × Bool

theorem pendingSlices_split (st : List (SliceSt κ)) :
    pendingSlices (st.map (·.1)) true (st.map (·.2.1)) (st.map (·.2.2)) = (st.filter fun a => !a.2.2).map fun a => (some a.1, a.2.1) := by
  simp only [pendingSlices, if_true, List.zip_map', List.filter_map, List.map_map]
  rfl

theorem grads_split (m : LogitCfg) (table : List (κ × RegRow)) (st : List (SliceSt κ)) :
    m.grads table (st.map (·.1)) true (st.map (·.2.1)) (st.map (·.2.2)) =
      st.map fun a : SliceSt κ => if a.2.2 then List.replicate m.n 0 else m.gradCols (condRows table (some a.1)) a.2.1 := by
  rw [LogitCfg.grads, pendingSlices_split, LogitCfg.queryRow, if_pos rfl, List.flatMap_map]
  rw [takeGrads_flatMap m.n (fun a : SliceSt κ => a.2.2) (fun a => m.gradCols (condRows table (some a.1)) a.2.1)
    (fun a => length_gradCols _ _ _) []]

theorem gradsHess_split (m : LogitCfg) (hn : 0 < m.n) (table : List (κ × RegRow)) (st : List (SliceSt κ)) :
    m.gradsHess table (st.map (·.1)) true (st.map (·.2.1)) (st.map (·.2.2)) =
      (st.mapM fun a : SliceSt κ => if a.2.2 then some (m.n, fun _ _ => 0) else symmetrize (m.hessCols (condRows table (some a.1)) a.2.1)).map fun h =>
        (st.map fun a : SliceSt κ => if a.2.2 then List.replicate m.n 0 else m.gradCols (condRows table (some a.1)) a.2.1, h) := by
  rw [LogitCfg.gradsHess, pendingSlices_split, LogitCfg.queryRow, if_neg (by simp), List.flatMap_map, List.flatMap_map]
  rw [takeGrads_flatMap m.n (fun a : SliceSt κ => a.2.2) (fun a => m.gradCols (condRows table (some a.1)) a.2.1)
    (fun a => length_gradCols _ _ _)]
  simp only
  have hpos : 0 < m.n * (m.n + 1) / 2 := by
    have : 2 ≤ m.n * (m.n + 1) := by nlinarith
    omega
  rw [reshape_flatMap (m.n * (m.n + 1) / 2) hpos (fun a : SliceSt κ => m.hessCols (condRows table (some a.1)) a.2.1)
    (fun a => by have := length_hessCols m (condRows table (some a.1)) a.2.1; omega) _ _ le_rfl]
  simp only [Option.bind_eq_bind, Option.bind_some]
  rw [takeHess_map m.n (fun a : SliceSt κ => a.2.2) (fun a => m.hessCols (condRows table (some a.1)) a.2.1)]
  cases (st.mapM fun a : SliceSt κ => if a.2.2 then some (m.n, fun _ _ => 0) else symmetrize (m.hessCols (condRows table (some a.1)) a.2.1)) <;> rfl

theorem grads_solo (m : LogitCfg) (table : List (κ × RegRow)) (conds : List κ) (c : ℕ → ℝ) :
    m.grads table conds false [c] [false] = [m.gradCols (table.map (·.2)) c] := by
  have := takeGrads_flatMap m.n (fun _ : Unit => false) (fun _ => m.gradCols (table.map (·.2)) c) (fun _ => length_gradCols _ _ _) [] [()]
  rw [LogitCfg.grads]
  simpa [pendingSlices, LogitCfg.queryRow, condRows] using congrArg Prod.fst this

theorem gradsHess_solo (m : LogitCfg) (hn : 0 < m.n) (table : List (κ × RegRow)) (conds : List κ) (c : ℕ → ℝ) :
    m.gradsHess table conds false [c] [false] =
      (symmetrize (m.hessCols (table.map (·.2)) c)).map fun h => ([m.gradCols (table.map (·.2)) c], [h]) := by
  have h1 := takeGrads_flatMap m.n (fun _ : Unit => false) (fun _ => m.gradCols (table.map (·.2)) c) (fun _ => length_gradCols _ _ _)
    (m.hessCols (table.map (·.2)) c) [()]
  have hpos : 0 < m.n * (m.n + 1) / 2 := by
    have : 2 ≤ m.n * (m.n + 1) := by nlinarith
    omega
  have h2 := reshape_flatMap (m.n * (m.n + 1) / 2) hpos (fun _ : Unit => m.hessCols (table.map (·.2)) c)
    (fun a => by have := length_hessCols m (table.map (·.2)) c; omega) [()] _ le_rfl
  simp only [List.flatMap_cons, List.flatMap_nil, List.append_nil, List.map_cons, List.map_nil] at h2
  simp only [List.map_cons, List.map_nil, List.filter_cons, Bool.not_false, if_true, List.filter_nil, List.flatMap_cons, List.flatMap_nil,
    List.append_nil, Bool.false_eq_true, if_false] at h1
  rw [LogitCfg.gradsHess]
  simp only [pendingSlices, LogitCfg.queryRow, condRows, List.flatMap_cons, List.flatMap_nil, List.append_nil, Bool.false_eq_true, if_false]
  rw [h1]
  simp only [h2, Option.bind_eq_bind, Option.bind_some, takeHess]
  cases symmetrize (m.hessCols (table.map (·.2)) c) <;> rfl

/-! ## Newton -/

/-- One Newton step of one slice on its own rows. -/
noncomputable def LogitCfg.newtonStep (m : LogitCfg) (rows : List RegRow) (s : (ℕ → ℝ) × Bool) : Option ((ℕ → ℝ) × Bool) :=
  if s.2 then some s
  else (symmetrize (m.hessCols rows s.1)).bind fun h =>
    (npSolve h.1 h.2 (m.gradCols rows s.1)).map fun delta => (fun i => s.1 i - delta i, smallStep m.n m.tol delta)

/-- The Newton steps of one slice on its own rows. -/
noncomputable def LogitCfg.newtonIter (m : LogitCfg) (rows : List RegRow) : ℕ → (ℕ → ℝ) × Bool → Option ((ℕ → ℝ) × Bool)
  | 0, s => some s
  | f + 1, s => (m.newtonStep rows s).bind (m.newtonIter rows f)

theorem newtonIter_conv (m : LogitCfg) (rows : List RegRow) (f : ℕ) (s : (ℕ → ℝ) × Bool) (h : s.2 = true) :
    m.newtonIter rows f s = some s := by
  induction f with
  | zero => rfl
  | succ f ih => rw [LogitCfg.newtonIter, LogitCfg.newtonStep, if_pos h, Option.bind_some, ih]

theorem newtonInner_map (m : LogitCfg) (rowsOf : κ → List RegRow) (st : List (SliceSt κ)) :
    ((st.mapM fun a : SliceSt κ => if a.2.2 then some (m.n, fun _ _ => 0) else symmetrize (m.hessCols (rowsOf a.1) a.2.1)).bind fun h =>
      newtonInner m.n m.tol (st.map fun x : SliceSt κ => x.2.1) (st.map fun x : SliceSt κ => x.2.2)
        (st.map fun a : SliceSt κ => if a.2.2 then List.replicate m.n 0 else m.gradCols (rowsOf a.1) a.2.1) h) =
    st.mapM fun a => m.newtonStep (rowsOf a.1) a.2 := by
  induction st with
  | nil => rfl
  | cons a st ih =>
    rw [List.mapM_cons, List.mapM_cons, ← ih]
    obtain ⟨c, w, d⟩ := a
    cases d
    · simp only [Bool.false_eq_true, if_false, LogitCfg.newtonStep, List.map_cons]
      cases hs : symmetrize (m.hessCols (rowsOf c) w) with
      | none => rfl
      | some s =>
        simp only [Option.bind_eq_bind, Option.bind_some]
        cases (st.mapM fun a : SliceSt κ => if a.2.2 then some (m.n, fun _ _ => 0) else symmetrize (m.hessCols (rowsOf a.1) a.2.1)) with
        | none =>
          simp only [Option.bind_none]
          cases npSolve s.1 s.2 (m.gradCols (rowsOf c) w) <;> rfl
        | some h =>
          simp only [Option.bind_some, newtonInner, Option.bind_eq_bind, Option.pure_def, Bool.false_eq_true, if_false]
    · simp only [if_true, LogitCfg.newtonStep, List.map_cons, Option.bind_eq_bind, Option.bind_some]
      cases (st.mapM fun a : SliceSt κ => if a.2.2 then some (m.n, fun _ _ => 0) else symmetrize (m.hessCols (rowsOf a.1) a.2.1)) with
      | none => rfl
      | some h => simp only [Option.bind_some, newtonInner, Option.bind_eq_bind, Option.pure_def, if_true]

theorem newtonLoop_split (m : LogitCfg) (hn : 0 < m.n) (table : List (κ × RegRow)) (fuel : ℕ) (st : List (SliceSt κ)) :
    m.newtonLoop table (st.map (·.1)) true fuel (st.map (·.2.1)) (st.map (·.2.2)) =
      st.mapM fun a => m.newtonIter (condRows table (some a.1)) fuel a.2 := by
  induction fuel generalizing st with
  | zero =>
    rw [LogitCfg.newtonLoop, List.zip_map']
    rw [show (fun a : SliceSt κ => m.newtonIter (condRows table (some a.1)) 0 a.2) = fun a => some a.2 from rfl, mapM_some_self]
  | succ f ih =>
    rw [LogitCfg.newtonLoop, gradsHess_split m hn]
    simp only [Option.bind_eq_bind, Option.bind_map]
    have key := newtonInner_map m (fun c => condRows table (some c)) st
    -- do the step, with the keys kept
    have hstep : (st.mapM fun a => (m.newtonStep (condRows table (some a.1)) a.2).map fun s => ((a.1, s) : SliceSt κ)).map
        (fun l => l.map (·.2)) = st.mapM fun a => m.newtonStep (condRows table (some a.1)) a.2 := by
      clear key ih
      induction st with
      | nil => rfl
      | cons a st ih =>
        rw [List.mapM_cons, List.mapM_cons, ← ih]
        cases m.newtonStep (condRows table (some a.1)) a.2 with
        | none => rfl
        | some s =>
          cases (st.mapM fun a => (m.newtonStep (condRows table (some a.1)) a.2).map fun s => ((a.1, s) : SliceSt κ)) <;> rfl
    have hkeys : ∀ l, (st.mapM fun a => (m.newtonStep (condRows table (some a.1)) a.2).map fun s => ((a.1, s) : SliceSt κ)) = some l →
        l.map (·.1) = st.map (·.1) := by
      clear key ih hstep
      induction st with
      | nil => intro l h; simp at h; subst h; rfl
      | cons a st ih =>
        intro l h
        rw [List.mapM_cons] at h
        simp only [Option.bind_eq_bind, Option.bind_eq_some_iff, Option.map_eq_some_iff, Option.pure_def, Option.some.injEq] at h
        obtain ⟨s, ⟨t, _, rfl⟩, l', hl', rfl⟩ := h
        simp [ih l' hl']
    have hsplit : ∀ (X : Option (List (ℕ × (ℕ → ℕ → ℝ)))) (F : List (ℕ × (ℕ → ℕ → ℝ)) → Option (List ((ℕ → ℝ) × Bool)))
        (G : List ((ℕ → ℝ) × Bool) → Option (List ((ℕ → ℝ) × Bool))), (X.bind fun h => (F h).bind G) = (X.bind F).bind G := by
      intro X F G; cases X <;> rfl
    show ((st.mapM fun a : SliceSt κ => if a.2.2 then some (m.n, fun _ _ => 0) else symmetrize (m.hessCols (condRows table (some a.1)) a.2.1)).bind fun h =>
      (newtonInner m.n m.tol (st.map fun x : SliceSt κ => x.2.1) (st.map fun x : SliceSt κ => x.2.2)
        (st.map fun a : SliceSt κ => if a.2.2 then List.replicate m.n 0 else m.gradCols (condRows table (some a.1)) a.2.1) h).bind fun new =>
          if new.all (·.2) then some new
          else m.newtonLoop table (st.map (·.1)) true f (new.map (·.1)) (new.map (·.2))) = _
    rw [hsplit, key, ← hstep]
    have hg : (st.mapM fun a => m.newtonIter (condRows table (some a.1)) (f + 1) a.2) =
        (st.mapM fun a => (m.newtonStep (condRows table (some a.1)) a.2).map fun s => ((a.1, s) : SliceSt κ)).bind fun l =>
          l.mapM fun a => m.newtonIter (condRows table (some a.1)) f a.2 := by
      rw [mapM_bind_mapM]
      apply mapM_congr_mem
      intro a _
      rw [LogitCfg.newtonIter]
      cases m.newtonStep (condRows table (some a.1)) a.2 <;> rfl
    rw [hg]
    cases hl : (st.mapM fun a => (m.newtonStep (condRows table (some a.1)) a.2).map fun s => ((a.1, s) : SliceSt κ)) with
    | none => rfl
    | some l =>
      simp only [Option.map_some, Option.bind_some]
      split
      · rename_i hall
        rw [show (l.mapM fun a => m.newtonIter (condRows table (some a.1)) f a.2) = l.mapM fun a => some a.2 from ?_, mapM_some_self]
        apply mapM_congr_mem
        intro a ha
        apply newtonIter_conv
        rw [List.all_map, List.all_eq_true] at hall
        exact hall a ha
      · rw [← hkeys l hl, List.map_map, List.map_map]
        exact ih l

theorem newtonLoop_solo (m : LogitCfg) (hn : 0 < m.n) (table : List (κ × RegRow)) (fuel : ℕ) (c : ℕ → ℝ) :
    m.newtonLoop table [] false fuel [c] [false] = (m.newtonIter (table.map (·.2)) fuel (c, false)).map fun s => [s] := by
  induction fuel generalizing c with
  | zero => rfl
  | succ f ih =>
    rw [LogitCfg.newtonLoop, gradsHess_solo m hn, LogitCfg.newtonIter, LogitCfg.newtonStep, if_neg (by simp)]
    cases symmetrize (m.hessCols (table.map (·.2)) c) with
    | none => rfl
    | some h =>
      simp only [Option.map_some, Option.bind_eq_bind, Option.bind_some, newtonInner, Bool.false_eq_true, if_false, Option.pure_def]
      cases npSolve h.1 h.2 (m.gradCols (table.map (·.2)) c) with
      | none => rfl
      | some delta =>
        simp only [Option.map_some, Option.bind_some, List.all_cons, List.all_nil, Bool.and_true, List.map_cons, List.map_nil]
        cases hs : smallStep m.n m.tol delta
        · rw [if_neg (by simp), ih]
        · rw [if_pos rfl, newtonIter_conv _ _ _ _ rfl]; rfl

end

end Verif
