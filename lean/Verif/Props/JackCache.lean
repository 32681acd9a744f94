import Verif.Lemmas.JackLoo
import Verif.Lemmas.SliceRun
import Verif.Spec.Example

/-! # C97, C98: Jackknife and the cache -/

namespace Verif

mutual
theorem lkeys_mem {env : Env} {G : Leaf → List String → List String → Except Err Res} {J K : ℕ} : ∀ (m : M), m.jackable →
    ∀ (W sb : List String) (o : CKey), o ∈ m.lkeys env G J W sb →
    o.metric.sumOrCount = true ∧ o.splitBy = sb ∧ o.key = J ∧ { o with key := K } ∈ m.lkeys env G K W sb
  | .const q, _, W, sb, o, ho => by simp [M.lkeys] at ho
  | .leaf k wh, hj, W, sb, o, ho => by
      cases k <;> first
        | exact hj.elim
        | (simp only [M.lkeys] at ho ⊢
           split at ho
           · rename_i hok; rw [if_pos hok]; simp only [List.mem_singleton] at ho ⊢; subst ho; exact ⟨rfl, rfl, rfl, rfl⟩
           · simp at ho)
  | .comp op l r wh, hj, W, sb, o, ho => by
      simp only [M.lkeys, List.mem_append] at ho ⊢
      rcases ho with ho | ho
      · obtain ⟨a, b, c, d⟩ := lkeys_mem (K := K) l hj.1 _ _ o ho
        exact ⟨a, b, c, .inl d⟩
      · split at ho
        · rename_i hok
          obtain ⟨a, b, c, d⟩ := lkeys_mem (K := K) r hj.2 _ _ o ho
          exact ⟨a, b, c, .inr (by rw [if_pos hok]; exact d)⟩
        · simp at ho
  | .list ms wh, hj, W, sb, o, ho => by
      simp only [M.lkeys] at ho ⊢
      exact lkeysAll_mem ms hj _ _ o ho
  | .oper o' c wh, hj, W, sb, o, ho => hj.elim
theorem lkeysAll_mem {env : Env} {G : Leaf → List String → List String → Except Err Res} {J K : ℕ} : ∀ (ms : List M), jackableAll ms →
    ∀ (W sb : List String) (o : CKey), o ∈ lkeysAll env G J ms W sb →
    o.metric.sumOrCount = true ∧ o.splitBy = sb ∧ o.key = J ∧ { o with key := K } ∈ lkeysAll env G K ms W sb
  | [], _, W, sb, o, ho => by simp [lkeysAll] at ho
  | m :: ms, hj, W, sb, o, ho => by
      simp only [lkeysAll, List.mem_append] at ho ⊢
      rcases ho with ho | ho
      · obtain ⟨a, b, c, d⟩ := lkeys_mem (K := K) m hj.1 _ _ o ho
        exact ⟨a, b, c, .inl d⟩
      · obtain ⟨a, b, c, d⟩ := lkeysAll_mem (K := K) ms hj.2 _ _ o ho
        exact ⟨a, b, c, .inr d⟩
end

/-- Whether a leaf fails with another `split_by`. -/
theorem onData_shape (env : Env) (D : Frame) (k : Leaf) (W sb sb' : List String) (h : ∀ c, (c ∈ sb → c ∈ D.cols) ↔ (c ∈ sb' → c ∈ D.cols)) :
    (onData env D k W sb).map Res.shape = (onData env D k W sb').map Res.shape := by
  have e : (k.vars ++ sb).all (fun c => (D.query env W).cols.contains c) = (k.vars ++ sb').all (fun c => (D.query env W).cols.contains c) := by
    rw [Bool.eq_iff_iff, List.all_eq_true, List.all_eq_true]
    have hc : (D.query env W).cols = D.cols := rfl
    simp only [hc, List.mem_append, List.contains_iff_mem]
    constructor <;> intro hh c hcm
    · rcases hcm with hcm | hcm
      · exact hh c (.inl hcm)
      · exact (h c).1 (fun hs => hh c (.inr hs)) hcm
    · rcases hcm with hcm | hcm
      · exact hh c (.inl hcm)
      · exact (h c).2 (fun hs => hh c (.inr hs)) hcm
  unfold onData Leaf.run
  rw [e]
  split <;> rfl

theorem leftOut_shape (env : Env) (D : Frame) (u : String) (k : Leaf) (W sb : List String) :
    (leftOut env D u k W sb).map Res.shape = (onData env D k W sb).map Res.shape := by
  unfold onData Leaf.run leftOut
  have hc : (D.query env W).cols = D.cols := rfl
  rw [hc]
  split <;> rfl

section
variable (env : Env) (D : Frame) (K : ℕ) {sb sb' : List String} (h : ∀ c, (c ∈ sb → c ∈ D.cols) ↔ (c ∈ sb' → c ∈ D.cols))
include h

theorem runW_onData_shape (m : M) (hj : m.jackable) (W : List String) :
    (m.runW env (onData env D) W sb).map Res.shape = (m.runW env (onData env D) W sb').map Res.shape :=
  runW_shape2 env (fun k W => onData_shape env D k W _ _ h) m hj W

mutual
theorem lkeys_split : ∀ (m : M), m.jackable → ∀ (W : List String) (o : CKey), o ∈ m.lkeys env (onData env D) K W sb →
    { o with splitBy := sb' } ∈ m.lkeys env (onData env D) K W sb'
  | .const q, _, W, o, ho => by simp [M.lkeys] at ho
  | .leaf k wh, hj, W, o, ho => by
      cases k <;> first
        | exact hj.elim
        | (simp only [M.lkeys] at ho ⊢
           rw [okRes_shape (onData_shape env D _ (W ++ wh) _ _ h)] at ho
           split at ho
           · rename_i hok; rw [if_pos hok]; simp only [List.mem_singleton] at ho ⊢; subst ho; rfl
           · simp at ho)
  | .comp op l r wh, hj, W, o, ho => by
      simp only [M.lkeys, List.mem_append] at ho ⊢
      rw [okRes_shape (runW_onData_shape env D h l hj.1 (W ++ wh))] at ho
      rcases ho with ho | ho
      · exact .inl (lkeys_split l hj.1 _ o ho)
      · split at ho
        · rename_i hok; rw [if_pos hok]; exact .inr (lkeys_split r hj.2 _ o ho)
        · simp at ho
  | .list ms wh, hj, W, o, ho => by
      simp only [M.lkeys] at ho ⊢
      exact lkeysAll_split ms hj _ o ho
  | .oper o' c wh, hj, W, o, ho => hj.elim
theorem lkeysAll_split : ∀ (ms : List M), jackableAll ms → ∀ (W : List String) (o : CKey), o ∈ lkeysAll env (onData env D) K ms W sb →
    { o with splitBy := sb' } ∈ lkeysAll env (onData env D) K ms W sb'
  | [], _, W, o, ho => by simp [lkeysAll] at ho
  | m :: ms, hj, W, o, ho => by
      simp only [lkeysAll, List.mem_append] at ho ⊢
      exact ho.imp (lkeys_split m hj.1 _ o) (lkeysAll_split ms hj.2 _ o)
end

end

section
variable (env : Env) (D : Frame) {sb : List String} (h : ∃ c ∈ sb, c ∉ D.cols)
include h

theorem onData_missing (k : Leaf) (W : List String) : onData env D k W sb = .error .keyError := by
  obtain ⟨c, hc, hn⟩ := h
  unfold onData Leaf.run
  rw [if_neg]
  intro hall
  rw [List.all_eq_true] at hall
  have hc' : (D.query env W).cols = D.cols := rfl
  rw [hc'] at hall
  exact hn (by simpa using hall c (by simp [hc]))

mutual
/-- With a column that is not there nothing but a number is computed. -/
theorem missing_num : ∀ (m : M), m.jackable → ∀ (W : List String) (r : Res), m.runW env (onData env D) W sb = .ok r → ∃ q, m = .const q ∧ r = .num q
  | .const q, _, W, r, hr => by simp [M.runW] at hr; exact ⟨q, rfl, hr.symm⟩
  | .leaf k wh, _, W, r, hr => by simp only [M.runW, onData_missing env D h] at hr; simp at hr
  | .comp op l r' wh, hj, W, r, hr => by
      simp only [M.runW] at hr
      cases hl : l.runW env (onData env D) (W ++ wh) sb with
      | error e => rw [hl] at hr; simp at hr
      | ok a =>
        rw [hl] at hr
        cases hr' : r'.runW env (onData env D) (W ++ wh) sb with
        | error e => rw [hr'] at hr; simp at hr
        | ok b =>
          rw [hr'] at hr
          obtain ⟨q, _, rfl⟩ := missing_num l hj.1 _ _ hl
          obtain ⟨q', _, rfl⟩ := missing_num r' hj.2 _ _ hr'
          simp [combine] at hr
  | .list ms wh, hj, W, r, hr => by
      simp only [M.runW] at hr
      have hn := missing_nums ms hj (W ++ wh)
      exfalso
      revert hr hn
      generalize runWAll env (onData env D) ms (W ++ wh) sb = rs
      intro hr hn
      rcases rs with _ | ⟨x, _ | ⟨y, ys⟩⟩
      · simp [joinRes] at hr
      · obtain ⟨q, rfl⟩ := hn x (by simp)
        simp [joinRes] at hr
      · obtain ⟨q, rfl⟩ := hn x (by simp)
        unfold joinRes at hr
        split at hr <;> simp_all
  | .oper o c wh, hj, W, r, hr => hj.elim
theorem missing_nums : ∀ (ms : List M), jackableAll ms → ∀ (W : List String), ∀ r ∈ runWAll env (onData env D) ms W sb, ∃ q, r = .num q
  | [], _, W, r, hr => by simp [runWAll] at hr
  | m :: ms, hj, W, r, hr => by
      simp only [runWAll] at hr
      split at hr
      · rename_i x hx
        rw [List.mem_cons] at hr
        rcases hr with rfl | hr
        · obtain ⟨q, _, e⟩ := missing_num m hj.1 _ _ hx
          exact ⟨q, e⟩
        · exact missing_nums ms hj.2 W r hr
      · exact missing_nums ms hj.2 W r hr
end

end

mutual
theorem noMean_of_jackable : ∀ (m : M), m.jackable → m.noMean
  | .const q, _ => trivial
  | .leaf k wh, h => by cases k <;> first | exact h.elim | trivial
  | .comp op l r wh, h => ⟨noMean_of_jackable l h.1, noMean_of_jackable r h.2⟩
  | .list ms wh, h => noMeanAll_of_jackable ms h
  | .oper o c wh, h => h.elim
theorem noMeanAll_of_jackable : ∀ (ms : List M), jackableAll ms → noMeanAll ms
  | [], _ => trivial
  | m :: ms, h => ⟨noMean_of_jackable m h.1, noMeanAll_of_jackable ms h.2⟩
end

/-- The `split_by` of leave-one-out values. -/
def looDom (u : String) (s : List String) : Prop := ∃ s', s = s' ++ [u] ∧ u ∉ s'

/-- A sum or count of the data `D`. -/
def GoodE (env : Env) (D : Frame) (K : ℕ) (e : CKey × Res) : Prop :=
  ∃ k : Leaf, (M.leaf k []).sumOrCount = true ∧ e.1.metric = .leaf k [] ∧ e.1.key = K ∧ canonWh e.1.wh = e.1.wh ∧
    k.run (D.query env e.1.wh) e.1.splitBy = .ok e.2

/-- What holds of the cache for the data `D` with the key `K` and the unit `u` with the key `J`. -/
structure JInv (env : Env) (D : Frame) (K J : ℕ) (u : String) (c : Cache) : Prop where
  ent : EntOk env (onData env D) K (fun _ => True) c
  pres : Pres env D K c
  loo : EntOk env (leftOut env D u) J (looDom u) c

theorem entOk_cons {env : Env} {L : Leaf → List String → List String → Except Err Res} {K : ℕ} {dom : List String → Prop} {c : Cache} {e : CKey × Res}
    (h : EntOk env L K dom c) (he : e.1.key = K → dom e.1.splitBy → ∃ m : M, m.fpClean ∧ e.1.metric = m.fp.dropWh ∧
      m.dropWh.runW env L e.1.wh e.1.splitBy = .ok e.2 ∧ canonWh e.1.wh = e.1.wh) : EntOk env L K dom (e :: c) := by
  intro k v hm hk hd
  rw [List.mem_cons] at hm
  rcases hm with rfl | hm
  · exact he hk hd
  · exact h k v hm hk hd

theorem pres_cons {env : Env} {D : Frame} {K : ℕ} {c : Cache} {e : CKey × Res} (h : Pres env D K c)
    (he : e.1.key = K → ∀ o ∈ e.1.metric.lkeys env (onData env D) K e.1.wh e.1.splitBy, o = e.1) : Pres env D K (e :: c) := by
  intro k v hm hk o ho
  rw [List.mem_cons] at hm
  rcases hm with rfl | hm
  · rw [he hk o ho, find_cons_self]; rfl
  · exact Grow.cons _ _ _ (h k v hm hk o ho)

theorem looDom_take {u : String} {s sb : List String} (h : looDom u s) (ht : s.take (sb.length + 1) = sb ++ [u]) : s = sb ++ [u] := by
  obtain ⟨s', rfl, hs⟩ := h
  by_cases hl : sb.length + 1 ≤ s'.length
  · exfalso
    apply hs
    rw [List.take_append_of_le_length hl] at ht
    have : u ∈ s'.take (sb.length + 1) := by rw [ht]; simp
    exact List.mem_of_mem_take this
  · rw [List.take_of_length_le (by simp; omega)] at ht
    exact ht

theorem precomputeOne_ok {env : Env} {D : Frame} {K J : ℕ} {u : String} (hKJ : K ≠ J) (hu : ∀ r ∈ D.rows, (r u).isSome) (sb : List String)
    {e : CKey × Res} (he : GoodE env D K e) {c : Cache} (h : JInv env D K J u c) :
    JInv env D K J u (precomputeOne J u sb D.rows c e) ∧ Grow c (precomputeOne J u sb D.rows c e) ∧
      (∀ e' ∈ precomputeOne J u sb D.rows c e, e' ∈ c ∨ e'.1.key = K ∨ e'.1.key = J) ∧
      (e.1.splitBy.take (sb.length + 1) = sb ++ [u] → (Cache.find (precomputeOne J u sb D.rows c e) { e.1 with key := J }).isSome ∧
        (Cache.find (precomputeOne J u sb D.rows c e) { e.1 with splitBy := e.1.splitBy.filter fun c => decide (c ≠ u) }).isSome) := by
  obtain ⟨⟨em, ek, es, ew⟩, er⟩ := e
  obtain ⟨k, hk, h1, h2, h3, h4⟩ := he
  simp only at h1 h2 h3 h4
  subst h1 h2
  unfold Leaf.run at h4
  split at h4
  · rename_i hcols
    cases h4
    unfold precomputeOne
    simp only
    split
    · rename_i htake
      have hne : es ≠ [] := by rintro rfl; simp at htake
      have hu' : ∀ r ∈ (D.query env ew).rows, (r u).isSome := fun r hr => hu r (List.mem_of_mem_filter hr)
      rw [jkTotal_run hk u es hne _ hu']
      set total : CKey × Res := (⟨.leaf k [], ek, es.filter fun c => decide (c ≠ u), ew⟩,
        .tbl [] [(groupKeys (es.filter fun c => decide (c ≠ u)) (D.query env ew).rows).map fun key =>
          (key, k.agg (rowsAt (es.filter fun c => decide (c ≠ u)) key (D.query env ew).rows))]) with htot
      have hcols' : (k.vars ++ es.filter fun c => decide (c ≠ u)).all (fun c => (D.query env ew).cols.contains c) = true := by
        rw [List.all_eq_true] at hcols ⊢
        intro x hx
        apply hcols
        rw [List.mem_append] at hx ⊢
        exact hx.imp id (fun hx => List.mem_of_mem_filter hx)
      have htotal : JInv env D ek J u (total :: c) := by
        refine ⟨entOk_cons h.ent (fun _ _ => ⟨.leaf k [], trivial, rfl, ?_, h3⟩), pres_cons h.pres (fun _ o ho => ?_),
          entOk_cons h.loo (fun hk => absurd hk hKJ)⟩
        · simp only [M.dropWh, M.runW, List.append_nil, onData, htot]
          exact if_pos hcols'
        · simp only [htot] at ho ⊢
          cases k <;> first
            | (simp [M.sumOrCount] at hk; done)
            | (simp only [M.lkeys, List.append_nil, h3] at ho
               split at ho
               · simpa using ho
               · simp at ho)
      have hself : (Cache.find (total :: c) ⟨.leaf k [], ek, es.filter fun c => decide (c ≠ u), ew⟩).isSome := by
        rw [htot, find_cons_self]; rfl
      have hnew : ∀ e' ∈ total :: c, e' ∈ c ∨ e'.1.key = ek ∨ e'.1.key = J := fun e' hm => by
        rw [List.mem_cons] at hm
        rcases hm with rfl | hm
        · exact .inr (.inl rfl)
        · exact .inl hm
      split
      · rename_i hfound
        exact ⟨htotal, Grow.cons _ _, hnew, fun _ => ⟨hfound, hself⟩⟩
      · refine ⟨⟨entOk_cons htotal.ent (fun hk => absurd hk.symm hKJ), pres_cons htotal.pres (fun hk => absurd hk.symm hKJ),
          entOk_cons htotal.loo (fun _ hd => ⟨.leaf k [], trivial, rfl, ?_, h3⟩)⟩, (Grow.cons _ _).trans (Grow.cons _ _), ?_, fun _ => ?_⟩
        · simp only at hd ⊢
          have hes := looDom_take hd htake
          subst hes
          simp only [M.dropWh, M.runW, List.append_nil]
          have hs : u ∉ sb := by
            obtain ⟨s', e1, e2⟩ := hd
            rwa [List.append_cancel_right e1]
          rw [leftOut_pos (D := D) (k := k) hcols, jkLoo_run env hk u sb hs D hu ew]
          simp only [looVal, List.dropLast_concat]
        · intro e' hm
          rw [List.mem_cons] at hm
          rcases hm with rfl | hm
          · exact .inr (.inr rfl)
          · exact hnew e' hm
        · exact ⟨by rw [find_cons_self]; rfl, Grow.cons _ _ _ hself⟩
    · rename_i htake
      exact ⟨h, .refl _, fun e' hm => .inl hm, fun ht => absurd ht htake⟩
  · simp at h4

theorem precomputeAll_ok {env : Env} {D : Frame} {K J : ℕ} {u : String} (hKJ : K ≠ J) (hu : ∀ r ∈ D.rows, (r u).isSome) (sb : List String) :
    ∀ (es : List (CKey × Res)), (∀ e ∈ es, GoodE env D K e) → ∀ c, JInv env D K J u c →
    JInv env D K J u (es.foldl (precomputeOne J u sb D.rows) c) ∧ Grow c (es.foldl (precomputeOne J u sb D.rows) c) ∧
      (∀ e' ∈ es.foldl (precomputeOne J u sb D.rows) c, e' ∈ c ∨ e'.1.key = K ∨ e'.1.key = J) ∧
      ∀ e ∈ es, e.1.splitBy.take (sb.length + 1) = sb ++ [u] →
        (Cache.find (es.foldl (precomputeOne J u sb D.rows) c) { e.1 with key := J }).isSome ∧
        (Cache.find (es.foldl (precomputeOne J u sb D.rows) c) { e.1 with splitBy := e.1.splitBy.filter fun c => decide (c ≠ u) }).isSome
  | [], _, c, h => ⟨h, .refl _, fun e' hm => .inl hm, by simp⟩
  | e :: es, hes, c, h => by
      obtain ⟨a1, a2, a3, a4⟩ := precomputeOne_ok hKJ hu sb (hes e (by simp)) h
      obtain ⟨b1, b2, b3, b4⟩ := precomputeAll_ok hKJ hu sb es (fun e' he' => hes e' (by simp [he'])) _ a1
      rw [List.foldl_cons]
      refine ⟨b1, a2.trans b2, fun e' hm => ?_, fun e' he' ht => ?_⟩
      · rcases b3 e' hm with hm | hm
        · exact a3 e' hm
        · exact .inr hm
      · rw [List.mem_cons] at he'
        rcases he' with rfl | he'
        · exact ⟨b2 _ (a4 ht).1, b2 _ (a4 ht).2⟩
        · exact b4 e' he' ht

theorem precomputed_good {env : Env} {D : Frame} {K : ℕ} {c : Cache} (h : EntOk env (onData env D) K (fun _ => True) c) :
    ∀ e ∈ precomputed K c, GoodE env D K e := by
  intro e he
  unfold precomputed at he
  rw [List.mem_filter, Bool.and_eq_true, Bool.and_eq_true, decide_eq_true_eq, decide_eq_true_eq] at he
  obtain ⟨hm, ⟨hs, hk⟩, _⟩ := he
  obtain ⟨m, hc, hmet, hr, hw⟩ := h e.1 e.2 hm hk trivial
  have hex : ∃ k, e.1.metric = .leaf k [] := by
    rw [hmet] at hs ⊢
    revert hs
    generalize m.fp = m'
    cases m' <;> simp [M.dropWh, M.sumOrCount]
  obtain ⟨k, hk'⟩ := hex
  refine ⟨k, by rw [← hk']; exact hs, hk', hk, hw, ?_⟩
  rw [← runW_fp env (leafSem_onData env D) _ (fpClean_dropWh hc), ← fp_dropWh hc, ← hmet, hk'] at hr
  simpa [M.runW, onData] using hr

theorem fitsW_child (K : ℕ) (child : M) (sb : List String) : FitsW child (jackChildKey K [] child sb) K [] sb := by
  refine ⟨rfl, rfl, ?_, ?_⟩
  · simp only [jackChildKey, CKey.extend]; split
    · rename_i h; rw [h]
    · rfl
  · simp only [jackChildKey, CKey.extend]
    exact canonWh_eq (fun w => by simp [mem_canonWh])

/-- One Jackknife on a cache with right entries. -/
theorem jackCompute_ok (env : Env) {D : Frame} {K J : ℕ} {u : String} (hKJ : K ≠ J) (hu : ∀ r ∈ D.rows, (r u).isSome) {child : M}
    (hc : child.fpClean) (hj : child.jackable) (sb : List String) (hsb : u ∉ sb) {c : Cache} (h : JInv env D K J u c) :
    (jackCompute env J u child K [] D sb c).1 = jackMeant env D u child [] sb ∧ JInv env D K J u (jackCompute env J u child K [] D sb c).2 ∧
      Grow c (jackCompute env J u child K [] D sb c).2 ∧
      ∀ e ∈ (jackCompute env J u child K [] D sb c).2, e ∈ c ∨ e.1.key = K ∨ e.1.key = J := by
  have hq : D.query env [] = D := query_nil env D
  have hL := leafSem_onData env
  have hn := noMean_of_jackable child hj
  unfold jackCompute jackMeant
  simp only [hq]
  obtain ⟨r1, e1, m1, n1⟩ := runC_on env hL D K child hc _ [] _ (fitsW_child K child (sb ++ [u])) c h.ent
  obtain ⟨p1, f1⟩ := runC_pres env hL D K child hc hn _ [] _ (fitsW_child K child (sb ++ [u])) c h.ent h.pres
  rw [hq] at r1 e1 m1 n1 p1 f1
  have hshape := runW_shape env (leftOut_shape env D u) child hj [] (sb ++ [u])
  rw [run_runW, hq] at hshape
  rw [← r1] at hshape
  revert r1 e1 m1 n1 p1 f1 hshape
  rcases child.runC env (jackChildKey K [] child (sb ++ [u])) D (sb ++ [u]) c with ⟨x1, c1⟩
  intro r1 e1 m1 n1 p1 f1 hshape
  simp only at e1 m1 n1 p1 f1 r1 hshape
  cases x1 with
  | error e =>
    have he : child.runW env (leftOut env D u) [] (sb ++ [u]) = .error e := by
      cases hx : child.runW env (leftOut env D u) [] (sb ++ [u]) <;> rw [hx] at hshape <;> simp [Except.map] at hshape
      rw [hshape]
    refine ⟨by rw [he], ⟨e1, p1, h.loo.of_newAt n1 hKJ.symm⟩, m1.grow, fun e he => ?_⟩
    rcases n1 e he with he | he
    · exact .inl he
    · exact .inr (.inl he)
  | ok v1 =>
  simp only
  have i1 : JInv env D K J u c1 := ⟨e1, p1, h.loo.of_newAt n1 hKJ.symm⟩
  obtain ⟨i2, g2, n2, f2⟩ := precomputeAll_ok hKJ hu sb (precomputed K c1) (precomputed_good e1) c1 i1
  set c2 := (precomputed K c1).foldl (precomputeOne J u sb D.rows) c1 with hc2
  have hserved : ∀ o ∈ child.lkeys env (onData env D) J [] (sb ++ [u]), (c2.find o).isSome := fun o ho => by
    obtain ⟨a, b, d, e⟩ := lkeys_mem (K := K) child hj _ _ o ho
    obtain ⟨v, hv⟩ := Option.isSome_iff_exists.1 (f1 _ e)
    have := (f2 ({ o with key := K }, v) (List.mem_filter.2 ⟨Cache.find_mem hv, by simp [a, hv]⟩) (by
      simp only [b]; rw [List.take_of_length_le (by simp)])).1
    have ho' : ({ { o with key := K } with key := J } : CKey) = o := by rw [← d]
    rwa [ho'] at this
  obtain ⟨r3, e3, m3, n3⟩ := runC_gen env (leafSem_leftOut env D u) D J (looDom u) child hc _ [] _ (fitsW_child J child (sb ++ [u]))
    ⟨sb, rfl, hsb⟩ c2 i2.loo (.inr ⟨hj, leftOut_shape env D u, hserved⟩)
  rw [hq] at r3 e3 m3 n3
  revert r3 e3 m3 n3
  rcases child.runC env (jackChildKey J [] child (sb ++ [u])) D (sb ++ [u]) c2 with ⟨x3, c3⟩
  intro r3 e3 m3 n3
  simp only at r3 e3 m3 n3
  subst r3
  have i3 : JInv env D K J u c3 := ⟨i2.ent.of_newAt n3 hKJ, i2.pres.of_newAt n3 hKJ m3.grow, e3⟩
  have hall3 : ∀ e ∈ c3, e ∈ c ∨ e.1.key = K ∨ e.1.key = J := fun e he => by
    rcases n3 e he with he | he
    · rcases n2 e he with he | he
      · rcases n1 e he with he | he
        · exact .inl he
        · exact .inr (.inl he)
      · exact .inr he
    · exact .inr (.inr he)
  have g3 : Grow c c3 := m1.grow.trans (g2.trans m3.grow)
  cases hrep : child.runW env (leftOut env D u) [] (sb ++ [u]) with
  | error e => exact ⟨rfl, i3, g3, hall3⟩
  | ok rep =>
    simp only
    obtain ⟨r4, e4, m4, n4⟩ := runC_on env hL D K child hc _ [] _ (fitsW_child K child sb) c3 i3.ent
    obtain ⟨p4, _⟩ := runC_pres env hL D K child hc hn _ [] _ (fitsW_child K child sb) c3 i3.ent i3.pres
    rw [hq] at r4 e4 m4 n4 p4
    revert r4 e4 m4 n4 p4
    rcases child.runC env (jackChildKey K [] child sb) D sb c3 with ⟨x4, c4⟩
    intro r4 e4 m4 n4 p4
    simp only at e4 m4 n4 p4 r4
    have hall4 : ∀ e ∈ c4, e ∈ c ∨ e.1.key = K ∨ e.1.key = J := fun e he => by
      rcases n4 e he with he | he
      · exact hall3 e he
      · exact .inr (.inl he)
    have i4 : JInv env D K J u c4 := ⟨e4, p4, i3.loo.of_newAt n4 hKJ.symm⟩
    rw [← r4]
    cases x4 <;> exact ⟨rfl, i4, g3.trans m4.grow, hall4⟩

/-- What holds after calls with one cache. -/
structure JStInv (env : Env) (jk : String → ℕ) (data : ℕ → Frame) (owner : String → ℕ) (s : JackSt) : Prop where
  ent : ∀ K, (∀ u, K ≠ jk u) → EntOk env (onData env (data K)) K (fun _ => True) s.cache
  pres : ∀ K, (∀ u, K ≠ jk u) → Pres env (data K) K s.cache
  loo : ∀ u, EntOk env (leftOut env (data (owner u)) u) (jk u) (looDom u) s.cache
  own : ∀ k v, (k, v) ∈ s.jack → ∃ child : M, child.fpClean ∧ k.child = child.fp ∧
    jackMeant env (data k.key) k.unit child k.wh k.splitBy = .ok v

theorem jackMeant_fp (env : Env) (f : Frame) (unit : String) {a b : M} (ha : a.fpClean) (hb : b.fpClean) (h : a.fp = b.fp) (wh sb : List String) :
    jackMeant env f unit a wh sb = jackMeant env f unit b wh sb := by
  have hw : ∀ (L : Leaf → List String → List String → Except Err Res), LeafSem env L → ∀ sb, a.runW env L [] sb = b.runW env L [] sb :=
    fun L hL sb => by rw [← runW_fp env hL a ha, ← runW_fp env hL b hb, h]
  have hr : a.run env (f.query env wh) sb = b.run env (f.query env wh) sb := by
    have := hw _ (leafSem_onData env (f.query env wh)) sb
    rwa [run_runW, run_runW, query_nil] at this
  unfold jackMeant
  rw [hw _ (leafSem_leftOut env _ unit), hr]

theorem jackCall_ok (env : Env) {jk : String → ℕ} (hjk : Function.Injective jk) (data : ℕ → Frame) (owner : String → ℕ) (call : JackCall)
    (hkey : ∀ u, call.key ≠ jk u) (hp : call.plainEnough data) (ho : call.ownsUnit owner) {s : JackSt} (h : JStInv env jk data owner s) :
    (call.run env jk data s).1 = call.meant env data ∧ JStInv env jk data owner (call.run env jk data s).2 := by
  cases call with
  | plain call =>
    obtain ⟨hc, hn⟩ := hp
    have hfit : FitsW call.metric (CKey.fresh call.key call.metric call.splitBy) call.key [] call.splitBy :=
      ⟨rfl, rfl, rfl, by simp [CKey.fresh]⟩
    have hq : (data call.key).query env [] = data call.key := query_nil env _
    have hK : ∀ u, call.key ≠ jk u := hkey
    obtain ⟨r1, e1, m1, n1⟩ := runC_on env (leafSem_onData env) (data call.key) call.key call.metric hc _ [] _ hfit s.cache (h.ent _ hK)
    obtain ⟨p1, _⟩ := runC_pres env (leafSem_onData env) (data call.key) call.key call.metric hc hn _ [] _ hfit s.cache (h.ent _ hK)
      (h.pres _ hK)
    rw [hq] at r1 e1 m1 n1 p1
    simp only [JackCall.run, JackCall.meant]
    refine ⟨by rw [r1], ?_, ?_, ?_, h.own⟩
    · intro K hK'
      by_cases he : K = call.key
      · subst he; exact e1
      · exact (h.ent K hK').of_newAt n1 he
    · intro K hK'
      by_cases he : K = call.key
      · subst he; exact p1
      · exact (h.pres K hK').of_newAt n1 he m1.grow
    · exact fun u => (h.loo u).of_newAt n1 (hK u).symm
  | jack key unit child wh sb =>
    obtain ⟨hc, hj, rfl, hsb, hu⟩ := hp
    have hK : ∀ u, key ≠ jk u := hkey
    have ho' : key = owner unit := ho
    simp only [JackCall.run, JackCall.meant]
    cases hl : s.jack.lookup ⟨unit, child.fp, key, sb, canonWh []⟩ with
    | some v =>
      obtain ⟨child', hc', he, hm⟩ := h.own _ _ (mem_of_lookupL _ _ _ hl)
      simp only at he hm ⊢
      refine ⟨?_, h⟩
      rw [jackMeant_fp env _ _ hc hc' he]
      exact congrArg _ hm.symm
    | none =>
      have hinv : JInv env (data key) key (jk unit) unit s.cache := ⟨h.ent key hK, h.pres key hK, by rw [ho']; exact h.loo unit⟩
      obtain ⟨r, i, g, n⟩ := jackCompute_ok env (hK unit) hu hc hj sb hsb hinv
      simp only
      revert r i g n
      rcases jackCompute env (jk unit) unit child key [] (data key) sb s.cache with ⟨x, c⟩
      intro r i g n
      simp only at r i g n
      have hent : ∀ K, (∀ u, K ≠ jk u) → EntOk env (onData env (data K)) K (fun _ => True) c := fun K hK' => by
        by_cases he : K = key
        · subst he; exact i.ent
        · intro k v hm hk hd
          rcases n _ hm with hm | hm | hm
          · exact h.ent K hK' k v hm hk hd
          · exact absurd (hk.symm.trans hm) he
          · exact absurd (hk.symm.trans hm) (hK' unit)
      have hpres : ∀ K, (∀ u, K ≠ jk u) → Pres env (data K) K c := fun K hK' => by
        by_cases he : K = key
        · subst he; exact i.pres
        · intro k v hm hk o hmo
          rcases n _ hm with hm | hm | hm
          · exact g _ (h.pres K hK' k v hm hk o hmo)
          · exact absurd (hk.symm.trans hm) he
          · exact absurd (hk.symm.trans hm) (hK' unit)
      have hloo : ∀ u, EntOk env (leftOut env (data (owner u)) u) (jk u) (looDom u) c := fun u => by
        by_cases he : u = unit
        · subst he; rw [← ho']; exact i.loo
        · intro k v hm hk hd
          rcases n _ hm with hm | hm | hm
          · exact h.loo u k v hm hk hd
          · exact absurd (hm.symm.trans hk) (hK u)
          · exact absurd (hjk (hk.symm.trans hm)) he
      cases x with
      | error e => exact ⟨by rw [← r], hent, hpres, hloo, h.own⟩
      | ok v =>
        refine ⟨by rw [← r], hent, hpres, hloo, ?_⟩
        intro k v' hm
        rw [List.mem_cons] at hm
        rcases hm with hm | hm
        · cases hm
          exact ⟨child, hc, rfl, r.symm⟩
        · exact h.own k v' hm

/-- **C97, partly.** Calls of metrics and of Jackknifes with one cache return what they are meant to: the leave-one-out values and the point estimate
of a Jackknife are those of the data it was called on. Missing: `plainEnough` leaves out Jackknifes with a filter of their own, and unweighted means
(`C97_filter`, `C97_filter_below` and `C97_mean` show that those go wrong); `ownsUnit` leaves out Jackknifes by the same unit
on different data (`C97_other_data` shows that those go wrong). -/
theorem C97_history_partial (env : Env) {jk : String → ℕ} (hjk : Function.Injective jk) (data : ℕ → Frame) (owner : String → ℕ)
    (calls : List JackCall) (hkey : ∀ call ∈ calls, ∀ u, call.key ≠ jk u) (hp : ∀ call ∈ calls, call.plainEnough data)
    (ho : ∀ call ∈ calls, call.ownsUnit owner) :
    (runJack env jk data calls ⟨[], []⟩).1 = calls.map (·.meant env data) := by
  have main : ∀ (calls : List JackCall) (s : JackSt), (∀ call ∈ calls, ∀ u, call.key ≠ jk u) → (∀ call ∈ calls, call.plainEnough data) →
      (∀ call ∈ calls, call.ownsUnit owner) → JStInv env jk data owner s →
      (runJack env jk data calls s).1 = calls.map (·.meant env data) := by
    intro calls
    induction calls with
    | nil => intro s _ _ _ _; rfl
    | cons call calls ih =>
      intro s h1 h2 h3 hs
      obtain ⟨hr, hi⟩ := jackCall_ok env hjk data owner call (h1 call (by simp)) (h2 call (by simp)) (h3 call (by simp)) hs
      have := ih (call.run env jk data s).2 (fun c hc => h1 c (by simp [hc])) (fun c hc => h2 c (by simp [hc])) (fun c hc => h3 c (by simp [hc])) hi
      simp only [runJack, List.map_cons]
      rw [this, hr]
  refine main calls _ hkey hp ho ⟨?_, ?_, ?_, ?_⟩
  · intro K _ k v hm; simp at hm
  · intro K _ k v hm; simp at hm
  · intro u k v hm; simp at hm
  · intro k v hm; simp at hm

/-! ## What is left out -/

section
variable (env : Env) (D : Frame) (unit : String) (sb : List String) (s0 : Key) (x : ℚ) (hlen : s0.length = sb.length)
  (hcols : ∀ c ∈ sb ++ [unit], c ∈ D.cols) (hmem : s0 ++ [x] ∈ groupKeys (sb ++ [unit]) D.rows)

theorem nodup_at (ks : List Key) (h : ks.Nodup) (g : Key → PyVal) (v : Key) (hv : v ∈ ks) (hl : ∀ k ∈ ks, k.length = v.length) :
    Tbl.at (ks.map fun k => (k, g k)) v = [([], g v)] := by
  unfold Tbl.at
  rw [List.filterMap_map]
  have e : ks.filterMap ((fun p : Key × PyVal => if p.1.take v.length = v then some (p.1.drop v.length, p.2) else none) ∘ fun k => (k, g k)) =
      (ks.filter fun k => decide (k = v)).map fun k => ([], g k) := by
    clear hv h
    induction ks with
    | nil => rfl
    | cons k ks ih =>
      have hk := hl k (by simp)
      rw [List.filterMap_cons, ih (fun k' hk' => hl k' (by simp [hk']))]
      simp only [Function.comp]
      rw [← hk, List.take_length, List.drop_length]
      by_cases hkv : k = v
      · subst hkv; simp
      · simp [hkv]
  rw [e]
  have : (ks.filter fun k => decide (k = v)) = [v] := by
    have h1 : ks.filter (fun k => decide (k = v)) = List.replicate (ks.count v) v := by
      rw [← List.filter_beq]
      apply List.filter_congr
      intro k _
      by_cases hkv : k = v <;> simp [hkv]
    rw [h1, List.count_eq_one_of_mem h hv]; rfl
  rw [this]; rfl

include hlen hcols hmem in
theorem leftOut_leaf {k : Leaf} {W : List String} (hW : sb = [] ∨ W = []) {r : Res}
    (h : k.run (((D.slice sb s0).without unit x).query env W) [] = .ok r) :
    ∃ rep, leftOut env D unit k W (sb ++ [unit]) = .ok rep ∧ rep.at (s0 ++ [x]) = r := by
  unfold Leaf.run at h
  split at h
  · rename_i hc
    cases h
    refine ⟨_, leftOut_pos ?_, ?_⟩
    · rw [List.all_eq_true] at hc ⊢
      intro c hcm
      rw [List.mem_append] at hcm
      rcases hcm with hcm | hcm
      · exact hc c (by simp [hcm])
      · simpa using hcols c hcm
    · simp only [Res.at, List.map_cons, List.map_nil]
      rw [nodup_at _ (groupKeys_nodup _ _) _ _ hmem ?_]
      · simp only [looVal, List.dropLast_concat, List.getLast?_concat, groupKeys, if_true, List.map_cons, List.map_nil]
        have hrows : (rowsAt sb s0 (D.query env W).rows).filter (fun r => decide (r unit ≠ some x)) =
            rowsAt [] [] (((D.slice sb s0).without unit x).query env W).rows := by
          unfold Frame.query Frame.without Frame.slice rowsAt
          simp only [List.filter_filter]
          apply List.filter_congr
          intro r _
          have : keyOf [] r = some [] := rfl
          simp only [this, decide_true, Bool.true_and]
          rw [Bool.and_comm, Bool.and_assoc, Bool.and_comm (decide (keyOf sb r = some s0))]
          cases List.all W fun w => env.query w r <;> cases decide (r unit ≠ some x) <;> cases decide (keyOf sb r = some s0) <;> rfl
        rw [if_neg, hrows]
        rintro ⟨hne, he⟩
        rcases hW with hW | hW
        · exact hne hW
        · subst hW
          rw [query_nil] at he
          unfold groupKeys at hmem
          rw [if_neg (by simp), List.mem_dedup, List.mem_filterMap] at hmem
          obtain ⟨r, hr, hk⟩ := hmem
          have := ((keyOf_append_eq_some hlen).1 hk).1
          have hm : r ∈ rowsAt sb s0 D.rows := List.mem_filter.2 ⟨hr, by simpa using this⟩
          rw [he] at hm
          simp at hm
      · intro k' hk'
        unfold groupKeys at hk'
        rw [if_neg (by simp), List.mem_dedup, List.mem_filterMap] at hk'
        obtain ⟨r, _, hk⟩ := hk'
        rw [keyOf_length hk]; simp [hlen]
  · cases h

include hcols in
/-- The child fails without the unit if it fails on the rows of the slice with other units. -/
theorem leftOut_fails (m : M) (hj : m.jackable) (W : List String) :
    (m.runW env (leftOut env D unit) W (sb ++ [unit])).map Res.shape =
      (m.run env (((D.slice sb s0).without unit x).query env W) []).map Res.shape := by
  rw [← run_runW]
  refine runW_shape2 env (fun k W => ?_) m hj W
  rw [leftOut_shape, onData_shape env D k W (sb ++ [unit]) [] (fun c => ⟨fun _ h => by simp at h, fun _ h => hcols c h⟩)]
  unfold onData Leaf.run
  have h1 : (D.query env W).cols = D.cols := rfl
  have h2 : (((D.slice sb s0).without unit x).query env W).cols = D.cols := rfl
  rw [h1, h2]
  split <;> rfl

include hlen hcols hmem in
mutual
theorem leftOut_run : ∀ (m : M), m.jackable → ∀ (W : List String), (sb = [] ∨ W = [] ∧ m.unfiltered = m) →
    ∀ r, m.run env (((D.slice sb s0).without unit x).query env W) [] = .ok r →
    ∃ rep, m.runW env (leftOut env D unit) W (sb ++ [unit]) = .ok rep ∧ rep.at (s0 ++ [x]) = r
  | .const q, _, W, _, r, h => by
      simp only [M.run] at h
      cases h
      exact ⟨.num q, by simp [M.runW], rfl⟩
  | .leaf k wh, _, W, hW, r, h => by
      simp only [M.run, query_query] at h
      simp only [M.runW]
      refine leftOut_leaf env D unit sb s0 x hlen hcols hmem (hW.imp id (fun hW => ?_)) h
      obtain ⟨rfl, hu⟩ := hW
      simp only [M.unfiltered, M.leaf.injEq, true_and] at hu
      rw [← hu]; rfl
  | .comp op l r wh, hj, W, hW, v, h => by
      simp only [M.run, query_query] at h
      cases ha : l.run env (((D.slice sb s0).without unit x).query env (W ++ wh)) [] with
      | error e => rw [ha] at h; simp at h
      | ok a =>
      cases hb : r.run env (((D.slice sb s0).without unit x).query env (W ++ wh)) [] with
      | error e => rw [ha, hb] at h; simp at h
      | ok b =>
      have hWl : sb = [] ∨ W ++ wh = [] ∧ l.unfiltered = l := hW.imp id (fun ⟨e, hu⟩ => by
        simp only [M.unfiltered, M.comp.injEq, true_and] at hu; exact ⟨by rw [e, ← hu.2.2]; rfl, hu.1⟩)
      have hWr : sb = [] ∨ W ++ wh = [] ∧ r.unfiltered = r := hW.imp id (fun ⟨e, hu⟩ => by
        simp only [M.unfiltered, M.comp.injEq, true_and] at hu; exact ⟨by rw [e, ← hu.2.2]; rfl, hu.2.1⟩)
      obtain ⟨A, hA, hA'⟩ := leftOut_run l hj.1 _ hWl a ha
      obtain ⟨B, hB, hB'⟩ := leftOut_run r hj.2 _ hWr b hb
      rw [ha, hb] at h
      simp only at h
      rw [← hA', ← hB'] at h
      obtain ⟨c', h1, h2⟩ := combine_at _ _ _ _ h
      exact ⟨c', by simp only [M.runW, hA, hB]; exact h1, h2⟩
  | .list ms wh, hj, W, hW, v, h => by
      simp only [M.run, query_query] at h
      have hWl : sb = [] ∨ W ++ wh = [] ∧ unfilteredAll ms = ms := hW.imp id (fun ⟨e, hu⟩ => by
        simp only [M.unfiltered, M.list.injEq] at hu; exact ⟨by rw [e, ← hu.2]; rfl, hu.1⟩)
      rw [← leftOut_runAll ms hj _ hWl] at h
      obtain ⟨c', h1, h2⟩ := joinRes_at _ _ h
      exact ⟨c', by simp only [M.runW]; exact h1, h2⟩
  | .oper o c wh, hj, W, hW, v, h => hj.elim
theorem leftOut_runAll : ∀ (ms : List M), jackableAll ms → ∀ (W : List String), (sb = [] ∨ W = [] ∧ unfilteredAll ms = ms) →
    (runWAll env (leftOut env D unit) ms W (sb ++ [unit])).map (Res.at · (s0 ++ [x])) =
      runAll env ms (((D.slice sb s0).without unit x).query env W) []
  | [], _, W, _ => by simp [runWAll, runAll]
  | m :: ms, hj, W, hW => by
      have hWl : sb = [] ∨ W = [] ∧ m.unfiltered = m := hW.imp id (fun ⟨e, hu⟩ => by
        simp only [unfilteredAll, List.cons.injEq] at hu; exact ⟨e, hu.1⟩)
      have hWr : sb = [] ∨ W = [] ∧ unfilteredAll ms = ms := hW.imp id (fun ⟨e, hu⟩ => by
        simp only [unfilteredAll, List.cons.injEq] at hu; exact ⟨e, hu.2⟩)
      have hf := leftOut_fails env D unit sb s0 x hcols m hj.1 W
      cases ha : m.run env (((D.slice sb s0).without unit x).query env W) [] with
      | error e =>
        rw [ha] at hf
        cases hx : m.runW env (leftOut env D unit) W (sb ++ [unit]) with
        | ok r => rw [hx] at hf; simp [Except.map] at hf
        | error e' =>
          simp only [runWAll, runAll, hx, ha]
          exact leftOut_runAll ms hj.2 _ hWr
      | ok a =>
        obtain ⟨A, hA, hA'⟩ := leftOut_run m hj.1 _ hWl a ha
        simp only [runWAll, runAll, hA, ha, List.map_cons, hA']
        rw [leftOut_runAll ms hj.2 _ hWr]
end

end

/-- **C97.** What is meant by the leave-one-out values: at a slice and a unit, the child on the rows of the slice that have another unit. (With
filters inside the child, without `split_by`; a slice without any row that passes a filter would have a missing value rather than the sum 0.) -/
theorem C97_leave_one_out_partial (env : Env) (D : Frame) (unit : String) (child : M) (hj : child.jackable) (sb : List String) (s0 : Key) (x : ℚ)
    (hlen : s0.length = sb.length) (hcols : ∀ c ∈ sb ++ [unit], c ∈ D.cols) (hmem : s0 ++ [x] ∈ groupKeys (sb ++ [unit]) D.rows)
    (hwh : sb = [] ∨ child.unfiltered = child) (rep pt : Res)
    (h : jackMeant env D unit child [] sb = .ok (rep, pt)) :
    child.run env ((D.slice sb s0).without unit x) [] = .ok (rep.at (s0 ++ [x])) ∧ child.run env D sb = .ok pt := by
  have hf := leftOut_fails env D unit sb s0 x hcols child hj []
  rw [query_nil] at hf
  cases hr : child.run env ((D.slice sb s0).without unit x) [] with
  | error e =>
    exfalso
    rw [hr] at hf
    unfold jackMeant at h
    rw [query_nil] at h
    cases hx : child.runW env (leftOut env D unit) [] (sb ++ [unit]) with
    | ok r => rw [hx] at hf; simp [Except.map] at hf
    | error e' => rw [hx] at h; simp at h
  | ok r =>
  obtain ⟨rep', h1, h2⟩ := leftOut_run env D unit sb s0 x hlen hcols hmem child hj [] (hwh.imp id (fun h => ⟨rfl, h⟩)) r
    (by rwa [query_nil])
  unfold jackMeant at h
  rw [query_nil, h1] at h
  cases hpt : child.run env D sb with
  | error e => rw [hpt] at h; cases h
  | ok pt' =>
    rw [hpt] at h
    injection h with h
    injection h with ha hb
    subst ha hb
    exact ⟨by rw [h2], rfl⟩

/-! ## Rows without a unit -/

theorem cached_grow (key : CKey) (compute : Cache → Except Err Res × Cache) (h : ∀ c, Grow c (compute c).2) (c : Cache) :
    Grow c (cached key compute c).2 := by
  unfold cached
  split
  · exact .refl _
  · have := h c
    split
    · rename_i e; rw [e] at this; exact this
    · rename_i e; rw [e] at this; exact this.trans (Grow.cons _ _)

mutual
theorem runC_grow (env : Env) : ∀ (m : M) (key : CKey) (f : Frame) (sb : List String) (c : Cache), Grow c (m.runC env key f sb c).2
  | .const q, key, f, sb, c => by simp only [M.runC]; exact .refl _
  | .leaf k wh, key, f, sb, c => by rw [M.runC]; exact cached_grow _ _ (fun c => .refl _) c
  | .comp op l r wh, key, f, sb, c => by
      rw [M.runC]
      refine cached_grow _ _ (fun c => ?_) c
      simp only
      have hl := runC_grow env l ((key.extend (.comp op l r wh) sb).extend l sb) (f.query env wh) sb c
      revert hl
      rcases l.runC env ((key.extend (.comp op l r wh) sb).extend l sb) (f.query env wh) sb c with ⟨x, c1⟩
      intro hl
      cases x with
      | error e => exact hl
      | ok a =>
        have hr := runC_grow env r ((key.extend (.comp op l r wh) sb).extend r sb) (f.query env wh) sb c1
        simp only
        revert hr
        rcases r.runC env ((key.extend (.comp op l r wh) sb).extend r sb) (f.query env wh) sb c1 with ⟨y, c2⟩
        intro hr
        cases y <;> exact hl.trans hr
  | .list ms wh, key, f, sb, c => by
      rw [M.runC]
      exact cached_grow _ _ (fun c => allC_grow env ms _ _ _ c) c
  | .oper o ch wh, key, f, sb, c => by
      rw [M.runC]
      refine cached_grow _ _ (fun c => ?_) c
      simp only
      have hl := runC_grow env ch ((key.extend (.oper o ch wh) (sb ++ o.splitBy)).extend ch (sb ++ o.splitBy)) (f.query env wh) (sb ++ o.splitBy) c
      revert hl
      rcases ch.runC env ((key.extend (.oper o ch wh) (sb ++ o.splitBy)).extend ch (sb ++ o.splitBy)) (f.query env wh) (sb ++ o.splitBy) c with ⟨x, c1⟩
      intro hl
      cases x <;> exact hl
theorem allC_grow (env : Env) : ∀ (ms : List M) (key : CKey) (f : Frame) (sb : List String) (c : Cache), Grow c (allC env ms key f sb c).2
  | [], key, f, sb, c => by simp only [allC]; exact .refl _
  | m :: ms, key, f, sb, c => by
      rw [allC]
      have hl := runC_grow env m (key.extend m sb) f sb c
      revert hl
      rcases m.runC env (key.extend m sb) f sb c with ⟨x, c1⟩
      intro hl
      have hr := allC_grow env ms key f sb c1
      cases x <;> exact hl.trans hr
end

theorem cached_newAt {K : ℕ} {key : CKey} (hk : key.key = K) (compute : Cache → Except Err Res × Cache) (h : ∀ c, NewAt K c (compute c).2) (c : Cache) :
    NewAt K c (cached key compute c).2 := by
  unfold cached
  split
  · exact .refl _ _
  · have := h c
    split
    · rename_i e; rw [e] at this; exact this
    · rename_i e
      rw [e] at this
      refine this.trans (fun e he => ?_)
      rw [List.mem_cons] at he
      rcases he with rfl | he
      · exact .inr hk
      · exact .inl he

mutual
theorem runC_newAt (env : Env) : ∀ (m : M) (key : CKey) (f : Frame) (sb : List String) (c : Cache), NewAt key.key c (m.runC env key f sb c).2
  | .const q, key, f, sb, c => by simp only [M.runC]; exact .refl _ _
  | .leaf k wh, key, f, sb, c => by rw [M.runC]; exact cached_newAt rfl _ (fun c => .refl _ _) c
  | .comp op l r wh, key, f, sb, c => by
      rw [M.runC]
      refine cached_newAt rfl _ (fun c => ?_) c
      simp only
      have hl := runC_newAt env l ((key.extend (.comp op l r wh) sb).extend l sb) (f.query env wh) sb c
      revert hl
      rcases l.runC env ((key.extend (.comp op l r wh) sb).extend l sb) (f.query env wh) sb c with ⟨x, c1⟩
      intro hl
      cases x with
      | error e => exact hl
      | ok a =>
        have hr := runC_newAt env r ((key.extend (.comp op l r wh) sb).extend r sb) (f.query env wh) sb c1
        simp only
        revert hr
        rcases r.runC env ((key.extend (.comp op l r wh) sb).extend r sb) (f.query env wh) sb c1 with ⟨y, c2⟩
        intro hr
        cases y <;> exact hl.trans hr
  | .list ms wh, key, f, sb, c => by
      rw [M.runC]
      exact cached_newAt rfl _ (fun c => allC_newAt env ms _ _ _ c) c
  | .oper o ch wh, key, f, sb, c => by
      rw [M.runC]
      refine cached_newAt rfl _ (fun c => ?_) c
      simp only
      have hl := runC_newAt env ch ((key.extend (.oper o ch wh) (sb ++ o.splitBy)).extend ch (sb ++ o.splitBy)) (f.query env wh) (sb ++ o.splitBy) c
      revert hl
      rcases ch.runC env ((key.extend (.oper o ch wh) (sb ++ o.splitBy)).extend ch (sb ++ o.splitBy)) (f.query env wh) (sb ++ o.splitBy) c with ⟨x, c1⟩
      intro hl
      cases x <;> exact hl
theorem allC_newAt (env : Env) : ∀ (ms : List M) (key : CKey) (f : Frame) (sb : List String) (c : Cache), NewAt key.key c (allC env ms key f sb c).2
  | [], key, f, sb, c => by simp only [allC]; exact .refl _ _
  | m :: ms, key, f, sb, c => by
      rw [allC]
      have hl := runC_newAt env m (key.extend m sb) f sb c
      revert hl
      rcases m.runC env (key.extend m sb) f sb c with ⟨x, c1⟩
      intro hl
      have hr := allC_newAt env ms key f sb c1
      cases x <;> exact hl.trans hr
end

/-- All leaves are the same on both data. -/
def SameOn (env : Env) (D D' : Frame) (sb : List String) : Prop := ∀ (k : Leaf) (W : List String), k.run (D.query env W) sb = k.run (D'.query env W) sb

theorem cached_congr (key : CKey) (f g : Cache → Except Err Res × Cache) (c : Cache) (h : c.find key = none → f c = g c) :
    cached key f c = cached key g c := by
  unfold cached
  split
  · rfl
  · rename_i hn; rw [h hn]

section
variable (env : Env) (D D' : Frame) (K : ℕ)

mutual
theorem runC_same : ∀ (m : M), m.jackable → ∀ (key : CKey) (W sb : List String), FitsW m key K W sb → ∀ c,
    (SameOn env D D' sb ∨ D.cols = D'.cols ∧ m.fpClean ∧ EntOk env (onData env D') K (fun _ => True) c ∧
      ∀ o ∈ m.lkeys env (onData env D') K W sb, (Cache.find c o).isSome) →
    m.runC env key (D.query env W) sb c = m.runC env key (D'.query env W) sb c
  | .const q, _, key, W, sb, _, c, _ => by simp only [M.runC]
  | .leaf k wh, hj, key, W, sb, hk, c, hs => by
      rw [M.runC, M.runC]
      refine cached_congr _ _ _ _ (fun hn => ?_)
      rcases hs with hs | ⟨hcols, hm, he, hs⟩
      · simp only [query_query]
        rw [hs]
      · have hkey : key = ⟨.leaf k [], K, sb, canonWh (W ++ wh)⟩ := by
          obtain ⟨a, b, c', d⟩ := key
          obtain ⟨h1, h2, h3, h4⟩ := hk
          simp only at h1 h2 h3 h4
          rw [h1, h2, h3, h4]; rfl
        have hbad : okRes (onData env D' k (W ++ wh) sb) = false := by
          rw [Bool.eq_false_iff]
          intro hok
          have : (c.find key).isSome := by
            apply hs
            rw [hkey]
            cases k <;> first | exact hj.elim | simp [M.lkeys, hok]
          rw [hn] at this
          simp at this
        simp only [query_query]
        unfold onData at hbad
        unfold Leaf.run at hbad ⊢
        have h1 : (D.query env (W ++ wh)).cols = D.cols := rfl
        have h2 : (D'.query env (W ++ wh)).cols = D'.cols := rfl
        rw [h2] at hbad
        rw [h1, h2, hcols]
        split at hbad
        · simp at hbad
        · rename_i hneg; rw [if_neg hneg, if_neg hneg]
  | .comp op l r wh, hj, key, W, sb, hk, c, hs => by
      rw [M.runC, M.runC]
      refine cached_congr _ _ _ _ (fun hn => ?_)
      have fl := hk.child l []
      have fr := hk.child r []
      rw [List.append_nil] at fl fr
      simp only [query_query]
      have hl := runC_same l hj.1 _ _ _ fl c
        (hs.imp id (fun ⟨h1, h2, h3, h⟩ => ⟨h1, h2.2.1, h3, fun o ho => h o (by simp only [M.lkeys, List.mem_append]; exact .inl ho)⟩))
      have hg := runC_grow env l ((key.extend (.comp op l r wh) sb).extend l sb) (D'.query env (W ++ wh)) sb c
      have hon := fun hm he => runC_on env (leafSem_onData env) D' K l hm _ _ _ fl c he
      simp only [M.wh] at hl fr hon
      rw [hl]
      revert hg hon
      rcases l.runC env ((key.extend (.comp op l r wh) sb).extend l sb) (D'.query env (W ++ wh)) sb c with ⟨x, c1⟩
      intro hg hon
      cases x with
      | error e => rfl
      | ok a =>
        simp only
        rw [runC_same r hj.2 _ _ _ fr c1 (hs.imp id (fun ⟨h1, h2, h3, h⟩ => by
          obtain ⟨o1, o2, _, _⟩ := hon h2.2.1 h3
          simp only at o1 o2
          refine ⟨h1, h2.2.2, o2, fun o ho => hg _ (h o ?_)⟩
          rw [← run_runW] at o1
          simp only [M.lkeys, List.mem_append, ← o1, okRes_ok, if_true]
          exact .inr ho))]
  | .list ms wh, hj, key, W, sb, hk, c, hs => by
      rw [M.runC, M.runC]
      refine cached_congr _ _ _ _ (fun hn => ?_)
      simp only [query_query]
      have fs : ∀ ch ∈ ms, FitsW ch ((key.extend (.list ms wh) sb).extend ch sb) K (W ++ wh) sb := fun ch _ => by
        have := hk.child ch []
        rwa [List.append_nil] at this
      rw [allC_same ms hj _ _ _ fs c (hs.imp id (fun ⟨h1, h2, h3, h⟩ => ⟨h1, h2, h3, fun o ho => h o (by simpa [M.lkeys] using ho)⟩))]
  | .oper o c wh, hj, key, W, sb, hk, c', hs => hj.elim
theorem allC_same : ∀ (ms : List M), jackableAll ms → ∀ (pkey : CKey) (W sb : List String), (∀ ch ∈ ms, FitsW ch (pkey.extend ch sb) K W sb) → ∀ c,
    (SameOn env D D' sb ∨ D.cols = D'.cols ∧ fpCleanAll ms ∧ EntOk env (onData env D') K (fun _ => True) c ∧
      ∀ o ∈ lkeysAll env (onData env D') K ms W sb, (Cache.find c o).isSome) →
    allC env ms pkey (D.query env W) sb c = allC env ms pkey (D'.query env W) sb c
  | [], _, pkey, W, sb, _, c, _ => by simp only [allC]
  | m :: ms, hj, pkey, W, sb, hk, c, hs => by
      rw [allC, allC]
      rw [runC_same m hj.1 _ _ _ (hk m (by simp)) c
        (hs.imp id (fun ⟨h1, h2, h3, h⟩ => ⟨h1, h2.1, h3, fun o ho => h o (by simp only [lkeysAll, List.mem_append]; exact .inl ho)⟩))]
      have hg := runC_grow env m (pkey.extend m sb) (D'.query env W) sb c
      have hon := fun hm he => runC_on env (leafSem_onData env) D' K m hm _ _ _ (hk m (by simp)) c he
      revert hg hon
      rcases m.runC env (pkey.extend m sb) (D'.query env W) sb c with ⟨x, c1⟩
      intro hg hon
      have := allC_same ms hj.2 _ _ _ (fun ch hch => hk ch (by simp [hch])) c1
        (hs.imp id (fun ⟨h1, h2, h3, h⟩ => ⟨h1, h2.2, (hon h2.1 h3).2.1, fun o ho => hg _ (h o (by simp only [lkeysAll, List.mem_append]; exact .inr ho))⟩))
      cases x <;> simp only [this]
end
end

theorem keyOf_has {cols : List String} {unit : String} (h : unit ∈ cols) {r : Row} {k : Key} (hk : keyOf cols r = some k) : (r unit).isSome := by
  obtain ⟨a, b, rfl⟩ := List.append_of_mem h
  rw [keyOf_append] at hk
  cases h1 : keyOf a r with
  | none => rw [h1] at hk; simp at hk
  | some v =>
    have h3 := keyOf_append [unit] b r
    cases h2 : r unit with
    | some y => rfl
    | none =>
      have h4 : keyOf [unit] r = none := by unfold keyOf; rw [List.mapM_cons, h2]; rfl
      have h5 : keyOf (unit :: b) r = none := by
        rw [show unit :: b = [unit] ++ b from rfl, h3, h4]; rfl
      rw [h1, h5] at hk
      simp at hk

theorem groupKeys_having {cols : List String} {unit : String} (h : unit ∈ cols) (rows : List Row) :
    groupKeys cols (rows.filter fun r => (r unit).isSome) = groupKeys cols rows := by
  unfold groupKeys
  rw [if_neg (by rintro rfl; simp at h), if_neg (by rintro rfl; simp at h), List.filterMap_filter]
  congr 1
  apply List.filterMap_congr
  intro r _
  cases hk : keyOf cols r with
  | none => simp
  | some k => rw [keyOf_has h hk]; simp

theorem query_having (env : Env) (D : Frame) (unit : String) (W : List String) :
    (D.having unit).query env W = { D with rows := (D.query env W).rows.filter fun r => (r unit).isSome } := by
  unfold Frame.having Frame.query
  simp only [List.filter_filter]
  congr 1
  apply List.filter_congr
  intro r _
  rw [Bool.and_comm]

theorem sameOn_having (env : Env) (D : Frame) (unit : String) (sb : List String) (h : unit ∈ sb) : SameOn env D (D.having unit) sb := by
  intro k W
  unfold Leaf.run
  rw [query_having]
  simp only [groupKeys_having h]
  congr 1
  congr 2
  congr 1
  apply List.map_congr_left
  intro key _
  congr 1
  congr 1
  unfold rowsAt
  rw [List.filter_filter]
  apply List.filter_congr
  intro r _
  by_cases hk : keyOf sb r = some key
  · simp [hk, keyOf_has h hk]
  · simp [hk]

theorem precomputeOne_having (J : ℕ) (unit : String) (sb : List String) (rows : List Row) :
    precomputeOne J unit sb (rows.filter fun r => (r unit).isSome) = precomputeOne J unit sb rows := by
  funext c e
  unfold precomputeOne
  split
  · rename_i b _
    split
    · rename_i ht
      have hu : unit ∈ e.1.splitBy := List.mem_of_mem_take (i := sb.length + 1) (by rw [ht]; simp)
      have : jkLoo unit sb.length e.1.splitBy (rows.filter fun r => (r unit).isSome) b = jkLoo unit sb.length e.1.splitBy rows b := by
        unfold jkLoo looKeys
        rw [groupKeys_having hu, ht, groupKeys_having (by simp)]
      rw [this]
    · rfl
  · rfl

/-- **C98, partly.** A Jackknife, on a fresh cache, is the Jackknife of the rows that have a unit, and so is its point estimate: it is the value of
the child if no row lacks a unit. Missing: with rows that lack one, `C98_missing_unit_violation`. -/
theorem C98_point_estimate_partial (env : Env) {J K : ℕ} (hKJ : K ≠ J) (D : Frame) (unit : String) (child : M) (hc : child.fpClean) (hj : child.jackable)
    (sb : List String) (hsb : unit ∉ sb) :
    (jackCompute env J unit child K [] D sb []).1 = jackMeant env (D.having unit) unit child [] sb ∧
      ((∀ r ∈ D.rows, (r unit).isSome) → (jackCompute env J unit child K [] D sb []).1 = jackMeant env D unit child [] sb) := by
  have hu : ∀ r ∈ (D.having unit).rows, (r unit).isSome := fun r hr => (List.mem_filter.1 hr).2
  have hinv : JInv env (D.having unit) K J unit [] := ⟨fun k v hm => by simp at hm, fun k v hm => by simp at hm, fun k v hm => by simp at hm⟩
  have main : (jackCompute env J unit child K [] D sb []).1 = jackMeant env (D.having unit) unit child [] sb := by
    rw [← (jackCompute_ok env hKJ hu hc hj sb hsb hinv).1]
    have hs := sameOn_having env D unit (sb ++ [unit]) (by simp)
    have hq : D.query env [] = D := query_nil env D
    have hq' : (D.having unit).query env [] = D.having unit := query_nil env _
    unfold jackCompute
    simp only [hq, hq']
    have s1 := runC_same env D (D.having unit) K child hj _ [] _ (fitsW_child K child (sb ++ [unit])) [] (.inl hs)
    obtain ⟨r1, e1, m1, n1⟩ := runC_on env (leafSem_onData env) (D.having unit) K child hc _ [] _ (fitsW_child K child (sb ++ [unit])) [] hinv.ent
    obtain ⟨p1, f1⟩ := runC_pres env (leafSem_onData env) (D.having unit) K child hc (noMean_of_jackable child hj) _ [] _
      (fitsW_child K child (sb ++ [unit])) [] hinv.ent hinv.pres
    rw [hq, hq'] at s1
    rw [s1]
    rw [hq'] at r1 e1 m1 n1 p1 f1
    revert r1 e1 m1 n1 p1 f1
    rcases child.runC env (jackChildKey K [] child (sb ++ [unit])) (D.having unit) (sb ++ [unit]) [] with ⟨x1, c1⟩
    intro r1 e1 m1 n1 p1 f1
    simp only at e1 m1 n1 p1 f1 r1
    cases x1 with
    | error e => rfl
    | ok v1 =>
    simp only
    have hrows : precomputeOne J unit sb D.rows = precomputeOne J unit sb (D.having unit).rows := (precomputeOne_having J unit sb D.rows).symm
    rw [hrows]
    have i1 : JInv env (D.having unit) K J unit c1 := ⟨e1, p1, hinv.loo.of_newAt n1 hKJ.symm⟩
    obtain ⟨i2, _, _, f2⟩ := precomputeAll_ok hKJ hu sb (precomputed K c1) (precomputed_good e1) c1 i1
    set c2 := (precomputed K c1).foldl (precomputeOne J unit sb (D.having unit).rows) c1 with hc2
    have s3 := runC_same env D (D.having unit) J child hj _ [] _ (fitsW_child J child (sb ++ [unit])) c2 (.inl hs)
    rw [hq, hq'] at s3
    rw [s3]
    have hserved : ∀ o ∈ child.lkeys env (onData env (D.having unit)) K [] sb, (c2.find o).isSome := fun o ho => by
      obtain ⟨a, b, d, _⟩ := lkeys_mem (K := K) child hj _ _ o ho
      have e : { o with splitBy := sb ++ [unit] } ∈ child.lkeys env (onData env (D.having unit)) K [] (sb ++ [unit]) := by
        by_cases hcol : unit ∈ (D.having unit).cols
        · refine lkeys_split env (D.having unit) K (fun c => ?_) child hj [] o ho
          simp only [List.mem_append, List.mem_singleton]
          constructor
          · rintro h1 (h2 | rfl)
            · exact h1 h2
            · exact hcol
          · exact fun h1 h2 => h1 (.inl h2)
        · exfalso
          rw [← hq', ← run_runW] at r1
          obtain ⟨q, rfl, _⟩ := missing_num env (D.having unit) ⟨unit, by simp, hcol⟩ child hj [] v1 r1.symm
          simp [M.lkeys] at ho
      obtain ⟨v, hv⟩ := Option.isSome_iff_exists.1 (f1 _ e)
      have := (f2 ({ o with splitBy := sb ++ [unit] }, v) (List.mem_filter.2 ⟨Cache.find_mem hv, by rw [Bool.and_eq_true, Bool.and_eq_true]; exact ⟨⟨a, by simpa using d⟩, by simpa using hv⟩⟩) (by
        simp only; rw [List.take_of_length_le (by simp)])).2
      have hfil : (sb ++ [unit]).filter (fun c => decide (c ≠ unit)) = o.splitBy := by
        rw [b, List.filter_append, List.filter_eq_self.2 (fun c hc => by simp; rintro rfl; exact hsb hc)]
        simp
      simp only [hfil] at this
      exact this
    have hg := runC_grow env child (jackChildKey J [] child (sb ++ [unit])) (D.having unit) (sb ++ [unit]) c2
    have hn3 : NewAt J c2 (child.runC env (jackChildKey J [] child (sb ++ [unit])) (D.having unit) (sb ++ [unit]) c2).2 :=
      runC_newAt env child (jackChildKey J [] child (sb ++ [unit])) (D.having unit) (sb ++ [unit]) c2
    revert hg hn3
    rcases child.runC env (jackChildKey J [] child (sb ++ [unit])) (D.having unit) (sb ++ [unit]) c2 with ⟨x3, c3⟩
    intro hg hn3
    cases x3 with
    | error e => rfl
    | ok rep =>
      simp only
      have s4 := runC_same env D (D.having unit) K child hj _ [] _ (fitsW_child K child sb) c3
        (.inr ⟨rfl, hc, i2.ent.of_newAt hn3 hKJ, fun o ho => hg _ (hserved o ho)⟩)
      rw [hq, hq'] at s4
      rw [s4]
  refine ⟨main, fun h => ?_⟩
  have : D.having unit = D := by
    unfold Frame.having
    rw [List.filter_eq_self.2 h]
  rw [main, this]

/-! ## Examples -/

/-- Three units with 1, 2 and 6; the filter "g == 1" leaves the last two. -/
def jkFrame : Frame :=
  { cols := ["u", "g", "x"]
    rows := [mkRow [("u", 1), ("g", 0), ("x", 1)], mkRow [("u", 2), ("g", 1), ("x", 2)], mkRow [("u", 3), ("g", 1), ("x", 6)]] }

/-- Other data with the same units. -/
def jkFrame2 : Frame :=
  { cols := ["u", "g", "x"]
    rows := [mkRow [("u", 1), ("g", 0), ("x", 10)], mkRow [("u", 2), ("g", 1), ("x", 10)], mkRow [("u", 3), ("g", 1), ("x", 10)]] }

/-- The data of two user keys. -/
def jkData : ℕ → Frame := fun n => if n = 1 then jkFrame else jkFrame2

/-- A numbering of texts. -/
def textNum : List Char → ℕ
  | [] => 0
  | c :: cs => textNum cs * 4294967297 + (c.toNat + 1)

theorem textNum_injective : Function.Injective textNum := by
  intro a
  induction a with
  | nil => intro b h; cases b with
    | nil => rfl
    | cons c cs => simp only [textNum] at h; omega
  | cons c cs ih =>
    intro b h
    cases b with
    | nil => simp only [textNum] at h; omega
    | cons d ds =>
      simp only [textNum] at h
      have hc : c.toNat < 4294967296 := c.val.toBitVec.isLt
      have hd : d.toNat < 4294967296 := d.val.toBitVec.isLt
      have h1 : c.toNat = d.toNat := by omega
      have h2 : textNum cs = textNum ds := by omega
      rw [ih h2, Char.ext (UInt32.toNat_inj.1 h1)]

/-- An injective numbering of the reserved keys. -/
def jkKey (s : String) : ℕ := textNum s.toList + 100

theorem jkKey_injective : Function.Injective jkKey := by
  intro a b h
  exact String.toList_injective (textNum_injective (Nat.add_right_cancel h))

theorem jkKey_ge (u : String) : 100 ≤ jkKey u := by unfold jkKey; omega

/-- `Sum('x')` and `Count('x')`. -/
abbrev jkSumX : M := .leaf (.sum "x") []
@[inherit_doc jkSumX] abbrev jkCountX : M := .leaf (.count "x") []

/-- Calls of a sum by unit, of Jackknifes of a mean and of a filtered sum, by units and by units and groups, on two data; the last two have a part
that fails and fail. -/
def jkCalls : List JackCall :=
  [.plain ⟨1, .oper (.dist ["g"]) jkSumX [], ["u"]⟩, .jack 1 "u" (.comp .div jkSumX jkCountX []) [] [],
   .jack 1 "u" (.list [.comp .sub jkSumX (.leaf (.sum "x") ["g == 1"]) [], jkCountX] []) [] ["g"], .jack 2 "g" jkSumX [] [],
   .jack 1 "u" (.comp .div jkSumX jkCountX []) [] [], .plain ⟨2, jkSumX, ["u"]⟩,
   .jack 1 "u" (.list [.comp .div (.leaf (.sum "y") []) jkCountX [], jkSumX] []) [] [], .jack 1 "u" (.leaf (.sum "y") []) [] []]

theorem ok_of_isOk {α} {x : Except Err α} (h : x.toOption.isSome = true) : ∃ r, x = .ok r := by
  cases x with
  | ok r => exact ⟨r, rfl⟩
  | error e => cases h

/-- Non-vacuity of `C97_history_partial`. -/
example : Function.Injective jkKey ∧ (∀ call ∈ jkCalls, ∀ u, call.key ≠ jkKey u) ∧ (∀ call ∈ jkCalls, call.plainEnough jkData) ∧
    (∀ call ∈ jkCalls, call.ownsUnit (fun u => if u = "u" then 1 else 2)) := by
  refine ⟨jkKey_injective, ?_, ?_, ?_⟩
  · intro call hm u
    have := jkKey_ge u
    simp only [jkCalls, List.mem_cons, List.not_mem_nil, or_false] at hm
    rcases hm with rfl | rfl | rfl | rfl | rfl | rfl | rfl | rfl <;> simp only [JackCall.key] <;> omega
  · intro call hm
    simp only [jkCalls, List.mem_cons, List.not_mem_nil, or_false] at hm
    rcases hm with rfl | rfl | rfl | rfl | rfl | rfl | rfl | rfl
    all_goals
      simp only [JackCall.plainEnough, M.fpClean, fpCleanAll, M.noMean, M.jackable, jackableAll]
      and_intros
    all_goals first
      | trivial
      | (apply ok_of_isOk; decide +kernel)
      | decide +kernel
      | (intro v w1 w2 h1 h2; simp at h1 h2 ⊢; try exact ⟨h1.2, h2.2⟩)
  · intro call hm
    simp only [jkCalls, List.mem_cons, List.not_mem_nil, or_false] at hm
    rcases hm with rfl | rfl | rfl | rfl | rfl | rfl | rfl | rfl <;> simp [JackCall.ownsUnit]

/-- The calls return what they are meant to. -/
example : (runJack exEnv jkKey jkData jkCalls ⟨[], []⟩).1 = jkCalls.map (·.meant exEnv jkData) := by decide +kernel

/-- **C97 fails** for one unit on different data: with one cache, the second Jackknife returns the leave-one-out values of the first data
(/repo/operations.py:2384-2394: the key of the leave-one-out values has no place for the user's key). -/
theorem C97_other_data : (runJack exEnv jkKey jkData [.jack 1 "u" jkSumX [] [], .jack 2 "u" jkSumX [] []] ⟨[], []⟩).1 =
      [.jack (.ok (.tbl [] [[([1], .fin 8), ([2], .fin 7), ([3], .fin 3)]], .tbl [] [[([], .fin 9)]])),
       .jack (.ok (.tbl [] [[([1], .fin 8), ([2], .fin 7), ([3], .fin 3)]], .tbl [] [[([], .fin 30)]]))] ∧
    JackCall.meant exEnv jkData (.jack 2 "u" jkSumX [] []) =
      .jack (.ok (.tbl [] [[([1], .fin 20), ([2], .fin 20), ([3], .fin 20)]], .tbl [] [[([], .fin 30)]])) := by
  decide +kernel

/-- **C97 fails** with a filter: after a sum by unit and a filtered Jackknife, a Jackknife without filter has only the units that pass the filter. -/
theorem C97_filter : (runJack exEnv jkKey jkData [.plain ⟨1, jkSumX, ["u"]⟩, .jack 1 "u" jkSumX ["g == 1"] [], .jack 1 "u" jkSumX [] []] ⟨[], []⟩).1[2]? =
      some (.jack (.ok (.tbl [] [[([2], .fin 7), ([3], .fin 3)]], .tbl [] [[([], .fin 9)]]))) ∧
    JackCall.meant exEnv jkData (.jack 1 "u" jkSumX [] []) =
      .jack (.ok (.tbl [] [[([1], .fin 8), ([2], .fin 7), ([3], .fin 3)]], .tbl [] [[([], .fin 9)]])) := by
  decide +kernel

/-- **C97 fails** with a filter below the Jackknife: the units that have no row of the filtered data appear. -/
theorem C97_filter_below :
    (runJack exEnv jkKey jkData [.jack 1 "u" (.leaf (.sum "x") ["g == 1"]) [] [], .jack 1 "u" jkSumX ["g == 1"] []] ⟨[], []⟩).1[1]? =
      some (.jack (.ok (.tbl [] [[([1], .fin 8), ([2], .fin 6), ([3], .fin 2)]], .tbl [] [[([], .fin 8)]]))) ∧
    JackCall.meant exEnv jkData (.jack 1 "u" jkSumX ["g == 1"] []) =
      .jack (.ok (.tbl [] [[([2], .fin 6), ([3], .fin 2)]], .tbl [] [[([], .fin 8)]])) := by
  decide +kernel

/-- **C97 fails** after a mean by unit: the leave-one-out values of the quotient are the means of the units. -/
theorem C97_mean :
    (runJack exEnv jkKey jkData [.plain ⟨1, .leaf (.mean "x") [], ["u"]⟩, .jack 1 "u" (.comp .div jkSumX jkCountX []) [] []] ⟨[], []⟩).1[1]? =
      some (.jack (.ok (.tbl [] [[([1], .fin 1), ([2], .fin 2), ([3], .fin 6)]], .tbl [] [[([], .fin 3)]]))) ∧
    JackCall.meant exEnv jkData (.jack 1 "u" (.comp .div jkSumX jkCountX []) [] []) =
      .jack (.ok (.tbl [] [[([1], .fin 4), ([2], .fin (7/2)), ([3], .fin (3/2))]], .tbl [] [[([], .fin 3)]])) := by
  decide +kernel

/-- Non-vacuity of `C97_leave_one_out_partial`: a mean by group without the unit 3. -/
example : (M.comp .div jkSumX jkCountX []).jackable ∧ (∀ c ∈ ["g"] ++ ["u"], c ∈ jkFrame.cols) ∧ [1] ++ [3] ∈ groupKeys (["g"] ++ ["u"]) jkFrame.rows ∧
    (M.comp .div jkSumX jkCountX []).unfiltered = .comp .div jkSumX jkCountX [] ∧
    (∃ rep pt, jackMeant exEnv jkFrame "u" (.comp .div jkSumX jkCountX []) [] ["g"] = .ok (rep, pt)) ∧
    (M.comp .div jkSumX jkCountX []).run exEnv ((jkFrame.slice ["g"] [1]).without "u" 3) [] = .ok (.tbl [] [[([], .fin 2)]]) := by
  refine ⟨⟨trivial, trivial⟩, by decide, by decide +kernel, by decide +kernel, ?_, by decide +kernel⟩
  · obtain ⟨r, hr⟩ := ok_of_isOk (x := jackMeant exEnv jkFrame "u" (.comp .div jkSumX jkCountX []) [] ["g"]) (by decide +kernel)
    exact ⟨r.1, r.2, hr⟩

/-- Data with a row that lacks a unit. -/
def jkFrame3 : Frame := { jkFrame with rows := jkFrame.rows ++ [mkRow [("g", 1), ("x", 100)]] }

/-- Non-vacuity of `C98_point_estimate_partial`. -/
example : (1 : ℕ) ≠ 2 ∧ (M.comp .div jkSumX jkCountX []).fpClean ∧ (M.comp .div jkSumX jkCountX []).jackable ∧ "u" ∉ ["g"] := by
  simp only [M.fpClean, M.jackable]
  and_intros
  all_goals first
    | trivial
    | (apply ok_of_isOk; decide +kernel)
    | decide +kernel
    | (intro v w1 w2 h1 h2; simp at h1 h2 ⊢; try exact ⟨h1.2, h2.2⟩)

/-- **C98 fails** with a row that lacks a unit: the point estimate of the sum is 9, without the row, and the sum is 109. -/
theorem C98_missing_unit_violation : (jackCompute exEnv 101 "u" jkSumX 1 [] jkFrame3 [] []).1 =
      .ok (.tbl [] [[([1], .fin 8), ([2], .fin 7), ([3], .fin 3)]], .tbl [] [[([], .fin 9)]]) ∧
    jkSumX.run exEnv jkFrame3 [] = .ok (.tbl [] [[([], .fin 109)]]) := by
  decide +kernel

end Verif
