import Verif.Lemmas.Logistic
import Verif.Props.Suff

/-!
# C51: the slices of a split logistic regression are optimised independently

/repo/models.py:1031-1407.
-/

namespace Verif

section
variable {κ : Type} [DecidableEq κ]

theorem condRows_filter (table : List (κ × RegRow)) (c : κ) : (table.filter fun r => r.1 = c).map (·.2) = condRows table (some c) := rfl

theorem mapM_map_singleton {α β : Type} (f : α → Option β) (l : List α) :
    (l.mapM fun a => (f a).map fun b => [b]).map List.flatten = l.mapM f := by
  induction l with
  | nil => rfl
  | cons a l ih =>
    rw [List.mapM_cons, List.mapM_cons, ← ih]
    cases f a with
    | none => rfl
    | some b => cases (l.mapM fun a => (f a).map fun b => [b]) <;> rfl

theorem LogitCfg.n_pos (m : LogitCfg) (hk : 0 < m.k) : 0 < m.n := by
  unfold LogitCfg.n; split <;> omega

/-- **C51.** Newton's method on all slices at once (no penalty, or `l2`) fails exactly if it fails on some slice alone, and
otherwise gives each slice the coefficients, and the flag for the warning, that a model without a split gives on the rows of
that slice from the same starting point. Slices may converge in any order or not at all. -/
theorem C51_newton (m : LogitCfg) (hk : 0 < m.k) (table : List (κ × RegRow)) (conds : List κ) (init : List (ℕ → ℝ))
    (hlen : init.length = conds.length) :
    m.newton table conds true init =
      ((conds.zip init).mapM fun p => m.newton (table.filter fun r => r.1 = p.1) [] false [p.2]).map List.flatten := by
  have hn := m.n_pos hk
  have h := newtonLoop_split m hn table m.maxIter ((conds.zip init).map fun p => ((p.1, p.2, false) : SliceSt κ))
  rw [List.map_map, List.map_map, List.map_map] at h
  have e1 : (conds.zip init).map (((·.1) : SliceSt κ → κ) ∘ fun p => (p.1, p.2, false)) = conds := by
    show (conds.zip init).map Prod.fst = conds
    rw [List.map_fst_zip]; omega
  have e2 : (conds.zip init).map (((·.2.1) : SliceSt κ → (ℕ → ℝ)) ∘ fun p => (p.1, p.2, false)) = init := by
    show (conds.zip init).map Prod.snd = init
    rw [List.map_snd_zip]; omega
  have e3 : (conds.zip init).map (((·.2.2) : SliceSt κ → Bool) ∘ fun p => (p.1, p.2, false)) = init.map fun _ => false := by
    have : (((·.2.2) : SliceSt κ → Bool) ∘ fun p : κ × (ℕ → ℝ) => (p.1, p.2, false)) = (fun _ => false) ∘ Prod.snd := rfl
    rw [this, ← List.map_map, List.map_snd_zip]; omega
  rw [e1, e2, e3] at h
  rw [LogitCfg.newton, h, List.mapM_map]
  have : ∀ p : κ × (ℕ → ℝ), m.newton (table.filter fun r => r.1 = p.1) [] false [p.2] =
      (m.newtonIter (condRows table (some p.1)) m.maxIter (p.2, false)).map fun s => [s] := by
    intro p
    rw [LogitCfg.newton, List.map_cons, List.map_nil, newtonLoop_solo m hn, condRows_filter]
  simp only [this]
  rw [mapM_map_singleton]
  rfl

/-! ## The proximal method -/

/-- The proximal steps of one slice on its own rows. -/
noncomputable def LogitCfg.fistaIter (m : LogitCfg) (rows : List RegRow) (a : FistaConst) : ℕ → ℕ → FistaSlice → FistaSlice
  | 0, _, s => s
  | f + 1, i, s =>
    if s.conv then s
    else m.fistaIter rows a f (i + 1) (m.fistaUpdate a (m.gradCols rows (s.momentum i).v) (s.momentum i))

theorem fistaIter_conv (m : LogitCfg) (rows : List RegRow) (a : FistaConst) (f i : ℕ) (s : FistaSlice) (h : s.conv = true) :
    m.fistaIter rows a f i s = s := by
  cases f with
  | zero => rfl
  | succ f => rw [LogitCfg.fistaIter, if_pos h]

theorem momentum_conv (i : ℕ) (s : FistaSlice) : (s.momentum i).conv = s.conv := by
  unfold FistaSlice.momentum; split <;> rfl

theorem fistaLoop_split (m : LogitCfg) (table : List (κ × RegRow)) (fuel i : ℕ) (st : List (κ × FistaConst × FistaSlice)) :
    m.fistaLoop table (st.map (·.1)) true (st.map (·.2.1)) fuel i (st.map (·.2.2)) =
      st.map fun a => m.fistaIter (condRows table (some a.1)) a.2.1 fuel i a.2.2 := by
  induction fuel generalizing st i with
  | zero => rfl
  | succ f ih =>
    rw [LogitCfg.fistaLoop]
    have hg := grads_split m table (st.map fun a => ((a.1, (a.2.2.momentum i).v, (a.2.2.momentum i).conv) : SliceSt κ))
    simp only [List.map_map, Function.comp_def] at hg ⊢
    rw [hg]
    simp only [List.zip_map', List.map_map, Function.comp_def]
    set step : κ × FistaConst × FistaSlice → FistaSlice := fun a =>
      m.fistaUpdate a.2.1 (if (a.2.2.momentum i).conv then List.replicate m.n 0 else m.gradCols (condRows table (some a.1)) (a.2.2.momentum i).v)
        (a.2.2.momentum i) with hstep
    have hc : ∀ a : κ × FistaConst × FistaSlice, a.2.2.conv = true → step a = a.2.2 := by
      intro a ha
      have : a.2.2.momentum i = a.2.2 := by rw [FistaSlice.momentum, if_pos ha]
      rw [hstep]; simp only [this]
      rw [LogitCfg.fistaUpdate, if_pos ha]
    have hp : ∀ a : κ × FistaConst × FistaSlice, a.2.2.conv = false →
        step a = m.fistaUpdate a.2.1 (m.gradCols (condRows table (some a.1)) (a.2.2.momentum i).v) (a.2.2.momentum i) := by
      intro a ha
      rw [hstep]; simp only [momentum_conv, ha, Bool.false_eq_true, if_false]
    have hiter : ∀ a : κ × FistaConst × FistaSlice, m.fistaIter (condRows table (some a.1)) a.2.1 (f + 1) i a.2.2 =
        m.fistaIter (condRows table (some a.1)) a.2.1 f (i + 1) (step a) := by
      intro a
      cases ha : a.2.2.conv
      · rw [LogitCfg.fistaIter, if_neg (by simp [ha]), hp a ha]
      · rw [hc a ha, fistaIter_conv _ _ _ _ _ _ ha, fistaIter_conv _ _ _ _ _ _ ha]
    simp only [hiter]
    split
    · rename_i hall
      rw [List.all_map, List.all_eq_true] at hall
      apply List.map_congr_left
      intro a ha
      rw [fistaIter_conv]
      exact hall a ha
    · have := ih (i + 1) (st.map fun a => (a.1, a.2.1, step a))
      simp only [List.map_map, Function.comp_def] at this
      exact this

theorem fistaLoop_solo (m : LogitCfg) (table : List (κ × RegRow)) (a : FistaConst) (fuel i : ℕ) (s : FistaSlice) (hs : s.conv = false) :
    m.fistaLoop table [] false [a] fuel i [s] = [m.fistaIter (table.map (·.2)) a fuel i s] := by
  induction fuel generalizing s i with
  | zero => rfl
  | succ f ih =>
    rw [LogitCfg.fistaIter, if_neg (by simp [hs]), LogitCfg.fistaLoop]
    simp only [List.map_cons, List.map_nil, momentum_conv, hs, grads_solo, List.zip_cons_cons, List.zip_nil_right, List.all_cons, List.all_nil,
      Bool.and_true]
    split
    · rename_i hc; rw [fistaIter_conv _ _ _ _ _ _ hc]
    · rename_i hc; rw [ih _ _ (by simpa using hc)]

theorem sortKeys_eq {κ : Type} [LinearOrder κ] {l l' : List κ} (h : l.Perm l') : sortKeys l = sortKeys l' := by
  apply List.Perm.eq_of_sortedLE
  · exact List.sortedLE_mergeSort
  · exact List.sortedLE_mergeSort
  · exact (List.mergeSort_perm _ _).trans (h.trans (List.mergeSort_perm _ _).symm)

theorem mapM_zip_map {α β γ δ : Type} (F : α → Option β) (G : α → β → γ → δ) (l : List α) (l' : List γ) (h : l'.length = l.length) :
    (l.mapM F).map (fun bs => ((l.zip bs).zip l').map fun p => G p.1.1 p.1.2 p.2) =
      (l.zip l').mapM fun p => (F p.1).map fun b => G p.1 b p.2 := by
  induction l generalizing l' with
  | nil => simp
  | cons a l ih =>
    cases l' with
    | nil => simp at h
    | cons c l' =>
      rw [List.zip_cons_cons, List.mapM_cons, List.mapM_cons, ← ih l' (by simpa using h)]
      cases F a with
      | none => rfl
      | some b => cases l.mapM F <;> rfl

theorem mapM_length {α β : Type} {f : α → Option β} {l : List α} {r : List β} (h : l.mapM f = some r) : r.length = l.length := by
  induction l generalizing r with
  | nil => simp at h; subst h; rfl
  | cons a l ih =>
    rw [List.mapM_cons] at h
    simp only [Option.bind_eq_bind, Option.bind_eq_some_iff, Option.pure_def, Option.some.injEq] at h
    obtain ⟨b, _, r', hr', rfl⟩ := h
    simp [ih hr']

/-- The statistics of a slice mean the same with and without the split columns before them. -/
theorem fistaConst_pre (maxEig : ℕ → (ℕ → ℕ → ℝ) → ℝ) (k : ℕ) (hk : 0 < k) (fit : Bool) (l1 l2 : ℝ) (pre : Series ℝ) (rows : List RegRow)
    (hpre : NoClash pre k fit true rows) :
    fistaConst maxEig fit l1 l2 (pre ++ suffStats k fit true rows) = fistaConst maxEig fit l1 l2 (suffStats k fit true rows) := by
  obtain ⟨k', rfl⟩ : ∃ k', k = k' + 1 := ⟨k - 1, by omega⟩
  have h1 := construct_main pre k' fit true (SN.val rows) hpre.sn
  have h2 := construct_main [] k' fit true (SN.val rows) (by simp)
  rw [List.nil_append] at h2
  have hN : SN.n ∈ suffSN (k' + 1) fit true := by simp [suffSN]
  have a1 := loc_suff pre (nodup_suffSN (k' + 1) fit true) (SN.val rows) [SN.n] (by simpa using hN) (by simpa using hpre.sn _ hN)
  have a2 := loc_suff [] (nodup_suffSN (k' + 1) fit true) (SN.val rows) [SN.n] (by simpa using hN) (by simp)
  rw [List.nil_append] at a2
  rw [fistaConst, fistaConst, suffStats_eq, h1, h2, Series.at1, Series.at1]
  rw [show [SN.n].map SN.text = [nmN] from rfl] at a1 a2
  rw [a1, a2]

end

/-- **C51.** The same for the proximal method (`l1` and `elasticnet`): whatever the order in which the engine returns the
distinct keys and the statistics of the slices, each slice gets the coefficients and the flag that a model without a split
gives on the rows of that slice from the same starting point. `pre` are the split columns of the table of statistics, which
must not be called like a statistic. -/
theorem C51_fista {κ : Type} [LinearOrder κ] (m : LogitCfg) (hk : 0 < m.k) (maxEig : ℕ → (ℕ → ℕ → ℝ) → ℝ) (l1 l2 : ℝ)
    (table : List (κ × RegRow)) (distinct order : List κ) (horder : order.Perm distinct) (pre : κ → Series ℝ)
    (hpre : ∀ c ∈ distinct, NoClash (pre c) m.k m.fit true (condRows table (some c))) (init : List (ℕ → ℝ))
    (hlen : init.length = distinct.length) :
    m.fista maxEig l1 l2 table (sortKeys distinct) true (logitStats m.k m.fit pre table order) init =
      (((sortKeys distinct).zip init).mapM fun p =>
        m.fista maxEig l1 l2 (table.filter fun r => r.1 = p.1) [] false
          [(p.1, suffStats m.k m.fit true ((table.filter fun r => r.1 = p.1).map (·.2)))] [p.2]).map List.flatten := by
  have hl2 : (sortKeys distinct).length = distinct.length := by simp [sortKeys]
  have hsort : (logitStats m.k m.fit pre table order).mergeSort (fun a b => decide (a.1 ≤ b.1)) =
      (sortKeys distinct).map fun c => (c, pre c ++ suffStats m.k m.fit true (condRows table (some c))) := by
    rw [← sortKeys_eq horder, logitStats, sortKeys]
    symm
    exact List.map_mergeSort (by simp)
  have hsolo : ∀ p : κ × (ℕ → ℝ), m.fista maxEig l1 l2 (table.filter fun r => r.1 = p.1) [] false
      [(p.1, suffStats m.k m.fit true ((table.filter fun r => r.1 = p.1).map (·.2)))] [p.2] =
      ((fistaConst maxEig m.fit l1 l2 (suffStats m.k m.fit true (condRows table (some p.1)))).map fun a =>
        let s := m.fistaIter (condRows table (some p.1)) a m.maxIter 0 ⟨p.2, p.2, fun _ => 0, false⟩
        (s.coef, s.conv)).map fun b => [b] := by
    intro p
    rw [condRows_filter, LogitCfg.fista]
    simp only [Bool.false_eq_true, if_false, false_and]
    rw [List.mapM_cons]
    cases fistaConst maxEig m.fit l1 l2 (suffStats m.k m.fit true (condRows table (some p.1))) with
    | none => rfl
    | some a =>
      simp only [List.mapM_nil, Option.bind_eq_bind, Option.bind_some, Option.pure_def, Option.map_some, List.map_cons, List.map_nil]
      rw [fistaLoop_solo m _ a _ _ _ rfl, condRows_filter]
      rfl
  simp only [hsolo]
  rw [mapM_map_singleton, LogitCfg.fista]
  have hlen2 : (logitStats m.k m.fit pre table order).length = (sortKeys distinct).length := by
    rw [hl2, logitStats, List.length_map, horder.length_eq]
  rw [if_neg (by simp [hlen2])]
  simp only [if_true]
  rw [hsort, List.mapM_map]
  have hconst : ((sortKeys distinct).mapM fun c => fistaConst maxEig m.fit l1 l2 (pre c ++ suffStats m.k m.fit true (condRows table (some c)))) =
      (sortKeys distinct).mapM fun c => fistaConst maxEig m.fit l1 l2 (suffStats m.k m.fit true (condRows table (some c))) := by
    apply mapM_congr_mem
    intro c hc
    exact fistaConst_pre maxEig m.k hk m.fit l1 l2 (pre c) _ (hpre c ((List.mergeSort_perm _ _).mem_iff.1 hc))
  have hmain := mapM_zip_map (fun c => fistaConst maxEig m.fit l1 l2 (suffStats m.k m.fit true (condRows table (some c))))
    (fun c a w =>
      let s := m.fistaIter (condRows table (some c)) a m.maxIter 0 ⟨w, w, fun _ => 0, false⟩
      (s.coef, s.conv)) (sortKeys distinct) init (by omega)
  rw [← hmain]
  show ((sortKeys distinct).mapM fun c => fistaConst maxEig m.fit l1 l2 (pre c ++ suffStats m.k m.fit true (condRows table (some c)))).bind _ = _
  rw [hconst]
  cases hcs : (sortKeys distinct).mapM fun c => fistaConst maxEig m.fit l1 l2 (suffStats m.k m.fit true (condRows table (some c))) with
  | none => rfl
  | some consts =>
    have hcl := mapM_length hcs
    simp only [Option.bind_some, Option.map_some, Option.pure_def, Option.some.injEq]
    have h := fistaLoop_split m table m.maxIter 0 ((((sortKeys distinct).zip consts).zip init).map fun p =>
      ((p.1.1, p.1.2, ⟨p.2, p.2, fun _ => 0, false⟩) : κ × FistaConst × FistaSlice))
    simp only [List.map_map, Function.comp_def] at h
    have e1 : ((((sortKeys distinct).zip consts).zip init).map fun p => p.1.1) = sortKeys distinct := by
      rw [show (fun p : (κ × FistaConst) × (ℕ → ℝ) => p.1.1) = Prod.fst ∘ Prod.fst from rfl, ← List.map_map, List.map_fst_zip, List.map_fst_zip] <;>
        (try simp [List.length_zip]) <;> omega
    have e2 : ((((sortKeys distinct).zip consts).zip init).map fun p => p.1.2) = consts := by
      rw [show (fun p : (κ × FistaConst) × (ℕ → ℝ) => p.1.2) = Prod.snd ∘ Prod.fst from rfl, ← List.map_map, List.map_fst_zip, List.map_snd_zip] <;>
        (try simp [List.length_zip]) <;> omega
    have e3 : ((((sortKeys distinct).zip consts).zip init).map fun p => (⟨p.2, p.2, fun _ => 0, false⟩ : FistaSlice)) =
        init.map fun c => ⟨c, c, fun _ => 0, false⟩ := by
      rw [show (fun p : (κ × FistaConst) × (ℕ → ℝ) => (⟨p.2, p.2, fun _ => 0, false⟩ : FistaSlice)) =
        (fun c => ⟨c, c, fun _ => 0, false⟩) ∘ Prod.snd from rfl, ← List.map_map, List.map_snd_zip]
      simp [List.length_zip]; omega
    rw [e1, e2, e3] at h
    rw [h, List.map_map]
    rfl

/-- The hypotheses are met: two slices, a split column before the statistics, keys that the engine returns in different
orders. -/
example : ∃ (m : LogitCfg) (table : List (ℕ × RegRow)) (distinct order : List ℕ) (pre : ℕ → Series ℝ) (init : List (ℕ → ℝ)),
    0 < m.k ∧ order.Perm distinct ∧ order ≠ distinct ∧ init.length = distinct.length ∧ (∀ c ∈ distinct, pre c ≠ [] ∧ condRows table (some c) ≠ []) ∧
    ∀ c ∈ distinct, NoClash (pre c) m.k m.fit true (condRows table (some c)) := by
  refine ⟨⟨2, true, none, 1, 9⟩, [(5, ⟨1, fun i => i⟩), (4, ⟨0, fun i => i⟩), (5, ⟨0, fun i => i + 1⟩)], [5, 4], [4, 5], fun c => [(['g'], (c : ℝ))],
    [fun _ => 0, fun _ => 1], by decide, by decide, by decide, rfl, ?_, ?_⟩
  · intro c hc
    simp only [List.mem_cons, List.not_mem_nil, or_false] at hc
    rcases hc with rfl | rfl <;> simp [condRows]
  · intro c _ p hp
    simp only [List.mem_singleton] at hp
    subst hp
    simp [suffStats, nmX, nmXX, nmXY, nmY, nmN]

end Verif
