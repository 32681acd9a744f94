import Verif.Props.Ridge
import Verif.Lemmas.Fista

namespace Verif

open Finset

deriving instance DecidableEq for SN

/-- The values after a list of updates. -/
def applyUps (g : SN → ℝ) : List (SN × (ℝ → ℝ)) → SN → ℝ
  | [] => g
  | u :: us => applyUps (fun s => if s = u.1 then u.2 (g s) else g s) us

theorem applyUps_not_mem (g : SN → ℝ) (us : List (SN × (ℝ → ℝ))) (s : SN) (h : s ∉ us.map (·.1)) : applyUps g us s = g s := by
  induction us generalizing g with
  | nil => rfl
  | cons u us ih =>
    simp only [List.map_cons, List.mem_cons, not_or] at h
    rw [applyUps, ih _ h.2, if_neg h.1]

theorem applyUps_mem (g : SN → ℝ) (us : List (SN × (ℝ → ℝ))) (hn : (us.map (·.1)).Nodup) {s : SN} {f : ℝ → ℝ} (h : (s, f) ∈ us) :
    applyUps g us s = f (g s) := by
  induction us generalizing g with
  | nil => simp at h
  | cons u us ih =>
    simp only [List.map_cons, List.nodup_cons] at hn
    rcases List.mem_cons.1 h with rfl | h
    · rw [applyUps, applyUps_not_mem _ _ _ hn.1, if_pos rfl]
    · have : s ≠ u.1 := by
        rintro rfl
        exact hn.1 (List.mem_map.2 ⟨_, h, rfl⟩)
      rw [applyUps, ih _ hn.2 h, if_neg this]

theorem update_suff (pre : Series ℝ) (l : List SN) (g : SN → ℝ) (s₀ : SN) (f : ℝ → ℝ) (h : s₀.text ∉ pre.map (·.1)) :
    Series.update (pre ++ l.map fun s => (s.text, g s)) s₀.text f =
      pre ++ l.map fun s => (s.text, if s = s₀ then f (g s) else g s) := by
  rw [Series.update, List.map_append, List.map_map]
  congr 1
  · conv_rhs => rw [← List.map_id pre]
    apply List.map_congr_left
    intro p hp
    rw [if_neg]; · rfl
    intro e
    exact h (List.mem_map.2 ⟨p, hp, e⟩)
  · apply List.map_congr_left
    intro s _
    by_cases hs : s = s₀
    · subst hs; simp
    · have : s.text ≠ s₀.text := fun e => hs (SN.text_inj e)
      simp [hs, this]

theorem foldl_update_suff (pre : Series ℝ) (l : List SN) (us : List (SN × (ℝ → ℝ))) (hus : ∀ u ∈ us, u.1.text ∉ pre.map (·.1))
    (g : SN → ℝ) :
    us.foldl (fun s u => s.update u.1.text u.2) (pre ++ l.map fun s => (s.text, g s)) =
      pre ++ l.map fun s => (s.text, applyUps g us s) := by
  induction us generalizing g with
  | nil => rfl
  | cons u us ih =>
    rw [List.foldl_cons, update_suff pre l g u.1 u.2 (hus u (by simp)), ih (fun v hv => hus v (by simp [hv]))]
    rfl

/-- The updates of the double loop in `center_x`. -/
noncomputable def centerUps (k : ℕ) (avgX : ℕ → ℝ) (avgY : ℝ) : List (SN × (ℝ → ℝ)) :=
  (List.range k).flatMap fun i =>
    (SN.xy i, fun v => v - avgX i * avgY) :: ((List.range (k - i)).map (i + ·)).map fun j => (SN.xx i j, fun v => v - avgX i * avgX j)

theorem centerLoop_eq (k : ℕ) (avgX : ℕ → ℝ) (avgY : ℝ) (s : Series ℝ) :
    centerLoop k avgX avgY s = (centerUps k avgX avgY).foldl (fun s u => s.update u.1.text u.2) s := by
  rw [centerLoop, centerUps, List.foldl_flatMap]
  congr 1
  funext s i
  rw [List.foldl_cons]
  simp only [List.foldl_map]
  rfl

theorem mem_centerUps {k : ℕ} {avgX : ℕ → ℝ} {avgY : ℝ} {u : SN × (ℝ → ℝ)} : u ∈ centerUps k avgX avgY ↔
    (∃ i < k, u = (SN.xy i, fun v => v - avgX i * avgY)) ∨
    ∃ i j, i ≤ j ∧ j < k ∧ u = (SN.xx i j, fun v => v - avgX i * avgX j) := by
  simp only [centerUps, List.mem_flatMap, List.mem_range, List.mem_cons, List.mem_map]
  constructor
  · rintro ⟨i, hi, h | ⟨j, ⟨d, hd, rfl⟩, rfl⟩⟩
    · exact Or.inl ⟨i, hi, h⟩
    · exact Or.inr ⟨i, i + d, by omega, by omega, rfl⟩
  · rintro (⟨i, hi, h⟩ | ⟨i, j, h1, h2, rfl⟩)
    · exact ⟨i, hi, Or.inl h⟩
    · exact ⟨i, by omega, Or.inr ⟨j, ⟨j - i, by omega, by omega⟩, rfl⟩⟩

theorem nodup_centerUps (k : ℕ) (avgX : ℕ → ℝ) (avgY : ℝ) : ((centerUps k avgX avgY).map (·.1)).Nodup := by
  rw [centerUps, List.map_flatMap, List.nodup_flatMap]
  constructor
  · intro i _
    rw [List.map_cons, List.map_map, List.map_map, List.nodup_cons]
    refine ⟨by simp, List.nodup_range.map fun a b h => ?_⟩
    simpa using h
  · refine (List.nodup_range (n := k)).imp ?_
    intro a b hab
    simp only [Function.onFun, List.disjoint_left, List.map_cons, List.map_map, List.mem_cons, List.mem_map, not_or]
    rintro x (rfl | ⟨c, _, rfl⟩)
    · refine ⟨by simpa using hab, ?_⟩
      rintro ⟨d, _, h⟩
      simp at h
    · refine ⟨by simp, ?_⟩
      rintro ⟨d, _, h⟩
      simp only [Function.comp, SN.xx.injEq] at h
      exact hab h.1.symm

/-- The values of the statistics of centred features. -/
noncomputable def centVal (rows : List RegRow) : SN → ℝ
  | .x _ => 0
  | .xx i j => cov rows i j
  | .y => avg rows fun r => r.y
  | .xy i => avg rows (fun r => r.x i * r.y) - avg rows (fun r => r.x i) * avg rows (fun r => r.y)
  | .n => rows.length

theorem enetCenter_eq {pre : Series ℝ} {k : ℕ} {nobs : Bool} {rows : List RegRow} (hpre : NoClash pre k true nobs rows) :
    enetCenter k (pre ++ suffStats k true nobs rows) =
      some (pre ++ (suffSN k true nobs).map (fun s => (s.text, centVal rows s)),
        (List.range k).map (fun i => avg rows fun r => r.x i), avg rows fun r => r.y) := by
  have hx : ∀ i < k, SN.x i ∈ suffSN k true nobs := fun i hi => by simp [suffSN, hi]
  have hxy : ∀ i < k, SN.xy i ∈ suffSN k true nobs := fun i hi => by simp [suffSN, hi]
  have hy : SN.y ∈ suffSN k true nobs := by simp [suffSN]
  have hxx : ∀ i j, i ≤ j → j < k → SN.xx i j ∈ suffSN k true nobs := by
    intro i j h1 h2
    simp only [suffSN, List.mem_append, List.mem_map]
    exact Or.inl (Or.inl (Or.inl (Or.inr ⟨(i, j), mem_triu.2 ⟨h1, h2⟩, rfl⟩)))
  have ax : ((List.range k).mapM fun i => Series.at1 (pre ++ suffStats k true nobs rows) (nmX i)) =
      some ((List.range k).map fun i => avg rows fun r => r.x i) := by
    apply mapM_some
    intro i hi
    rw [List.mem_range] at hi
    exact at1_suff hpre (hx i hi)
  have ay : Series.at1 (pre ++ suffStats k true nobs rows) nmY = some (avg rows fun r => r.y) := at1_suff hpre hy
  rw [enetCenter, ax, ay]
  simp only [Option.bind_eq_bind, Option.bind_some, Option.pure_def, Option.some.injEq, Prod.mk.injEq, and_true]
  rw [centerLoop_eq]
  set mx := fun i => ((List.range k).map fun i => avg rows fun r => r.x i).getD i 0 with hmx
  have hmx' : ∀ i < k, mx i = avg rows fun r => r.x i := by
    intro i hi
    simp [hmx, List.getD, hi]
  have e0 : (List.range k).foldl (fun s i => s.update (nmX i) fun _ => 0)
      ((centerUps k mx (avg rows fun r => r.y)).foldl (fun (s : Series ℝ) (u : SN × (ℝ → ℝ)) => s.update u.1.text u.2) (pre ++ suffStats k true nobs rows)) =
      (centerUps k mx (avg rows fun r => r.y) ++ (List.range k).map fun i => (SN.x i, fun _ => (0 : ℝ))).foldl
        (fun (s : Series ℝ) (u : SN × (ℝ → ℝ)) => s.update u.1.text u.2) (pre ++ suffStats k true nobs rows) := by
    rw [List.foldl_append, List.foldl_map]
    rfl
  rw [e0, suffStats_eq, foldl_update_suff]
  · congr 1
    apply List.map_congr_left
    intro s hs
    have hnd : ((centerUps k mx (avg rows fun r => r.y) ++ (List.range k).map fun i => (SN.x i, fun _ => (0 : ℝ))).map (fun u : SN × (ℝ → ℝ) => u.1)).Nodup := by
      rw [List.map_append, List.nodup_append]
      refine ⟨nodup_centerUps _ _ _, ?_, ?_⟩
      · rw [List.map_map]
        exact List.nodup_range.map fun a b h => by simpa using h
      · intro a ha b hb e
        rw [List.mem_map] at ha hb
        obtain ⟨u, hu, rfl⟩ := ha
        obtain ⟨v, hv, rfl⟩ := hb
        obtain ⟨i, _, rfl⟩ := List.mem_map.1 hv
        rcases mem_centerUps.1 hu with ⟨_, _, rfl⟩ | ⟨_, _, _, _, rfl⟩ <;> simp at e
    congr 1
    have hcase : ∀ i < k, True := fun _ _ => trivial
    cases s with
    | x i =>
      have hi : i < k := by
        simp only [suffSN, List.mem_append, List.mem_map, if_true] at hs
        cases nobs <;> simpa using hs
      rw [applyUps_mem _ _ hnd (f := fun _ => 0) (List.mem_append.2 (Or.inr (List.mem_map.2 ⟨i, List.mem_range.2 hi, rfl⟩)))]
      rfl
    | xx i j =>
      have hij : i ≤ j ∧ j < k := by
        have : (i, j) ∈ triu k := by
          simp only [suffSN, List.mem_append, List.mem_map, if_true] at hs
          cases nobs <;> simpa using hs
        exact mem_triu.1 this
      rw [applyUps_mem _ _ hnd (f := fun v => v - mx i * mx j)
        (List.mem_append.2 (Or.inl (mem_centerUps.2 (Or.inr ⟨i, j, hij.1, hij.2, rfl⟩)))), hmx' i (by omega), hmx' j hij.2]
      rfl
    | y =>
      rw [applyUps_not_mem]
      · rfl
      · rw [List.map_append, List.mem_append]
        rintro (h | h)
        · obtain ⟨u, hu, e⟩ := List.mem_map.1 h
          rcases mem_centerUps.1 hu with ⟨_, _, rfl⟩ | ⟨_, _, _, _, rfl⟩ <;> simp at e
        · simp at h
    | xy i =>
      have hi : i < k := by
        simp only [suffSN, List.mem_append, List.mem_map, if_true] at hs
        cases nobs <;> simpa using hs
      rw [applyUps_mem _ _ hnd (f := fun v => v - mx i * avg rows fun r => r.y)
        (List.mem_append.2 (Or.inl (mem_centerUps.2 (Or.inl ⟨i, hi, rfl⟩)))), hmx' i hi]
      rfl
    | n =>
      rw [applyUps_not_mem]
      · rfl
      · rw [List.map_append, List.mem_append]
        rintro (h | h)
        · obtain ⟨u, hu, e⟩ := List.mem_map.1 h
          rcases mem_centerUps.1 hu with ⟨_, _, rfl⟩ | ⟨_, _, _, _, rfl⟩ <;> simp at e
        · simp at h
  · intro u hu
    rcases List.mem_append.1 hu with hu | hu
    · rcases mem_centerUps.1 hu with ⟨i, hi, rfl⟩ | ⟨i, j, h1, h2, rfl⟩
      · exact hpre.sn _ (hxy i hi)
      · exact hpre.sn _ (hxx i j h1 h2)
    · obtain ⟨i, hi, rfl⟩ := List.mem_map.1 hu
      exact hpre.sn _ (hx i (List.mem_range.1 hi))

end Verif
