import Verif.Spec.JackCache
import Verif.Lemmas.Cache
import Mathlib.Data.String.Basic

/-! Metrics computed from the results of their leaves, with a cache. -/

namespace Verif

/-- What the results of leaves have to fulfil: filters count as a set, and `Mean` is `Sum / Count`. -/
structure LeafSem (env : Env) (L : Leaf → List String → List String → Except Err Res) : Prop where
  congr : ∀ k W W' sb, (∀ w, w ∈ W ↔ w ∈ W') → L k W sb = L k W' sb
  mean : ∀ v W sb, L (.mean v) W sb = (M.comp .div (.leaf (.sum v) []) (.leaf (.count v) []) []).runW env L W sb

/-- The leaves on the data. -/
def onData (env : Env) (D : Frame) : Leaf → List String → List String → Except Err Res :=
  fun k W sb => k.run (D.query env W) sb

mutual
theorem run_runW (env : Env) (D : Frame) : ∀ (m : M) (W sb : List String),
    m.runW env (onData env D) W sb = m.run env (D.query env W) sb
  | .const q, W, sb => by simp [M.runW, M.run]
  | .leaf k wh, W, sb => by simp [M.runW, M.run, onData, query_query]
  | .comp op l r wh, W, sb => by
      simp only [M.runW, M.run, query_query, run_runW env D l, run_runW env D r]
      cases l.run env (D.query env (W ++ wh)) sb <;> simp
      cases r.run env (D.query env (W ++ wh)) sb <;> simp
  | .list ms wh, W, sb => by simp only [M.runW, M.run, query_query, run_runWAll env D ms]
  | .oper o c wh, W, sb => by
      simp only [M.runW, M.run, query_query, run_runW env D c]
      cases c.run env (D.query env (W ++ wh)) (sb ++ o.splitBy) <;> simp
theorem run_runWAll (env : Env) (D : Frame) : ∀ (ms : List M) (W sb : List String),
    runWAll env (onData env D) ms W sb = runAll env ms (D.query env W) sb
  | [], W, sb => by simp [runWAll, runAll]
  | m :: ms, W, sb => by
      simp only [runWAll, runAll, run_runW env D m, run_runWAll env D ms]
      cases m.run env (D.query env W) sb <;> simp
end

mutual
theorem runW_congr (env : Env) {L : Leaf → List String → List String → Except Err Res} (hL : LeafSem env L) :
    ∀ (m : M) (W W' sb : List String), (∀ w, w ∈ W ↔ w ∈ W') → m.runW env L W sb = m.runW env L W' sb
  | .const q, W, W', sb, h => by simp [M.runW]
  | .leaf k wh, W, W', sb, h => by simp only [M.runW]; exact hL.congr _ _ _ _ (by simp [h])
  | .comp op l r wh, W, W', sb, h => by
      have h' : ∀ w, w ∈ W ++ wh ↔ w ∈ W' ++ wh := by simp [h]
      simp only [M.runW]
      rw [runW_congr env hL l _ _ sb h', runW_congr env hL r _ _ sb h']
  | .list ms wh, W, W', sb, h => by
      simp only [M.runW]; rw [runWAll_congr env hL ms _ (W' ++ wh) sb (by simp [h])]
  | .oper o c wh, W, W', sb, h => by
      simp only [M.runW]; rw [runW_congr env hL c _ (W' ++ wh) _ (by simp [h])]
theorem runWAll_congr (env : Env) {L : Leaf → List String → List String → Except Err Res} (hL : LeafSem env L) :
    ∀ (ms : List M) (W W' sb : List String), (∀ w, w ∈ W ↔ w ∈ W') → runWAll env L ms W sb = runWAll env L ms W' sb
  | [], W, W', sb, h => by simp [runWAll]
  | m :: ms, W, W', sb, h => by
      simp only [runWAll]
      rw [runW_congr env hL m _ _ sb h, runWAll_congr env hL ms _ _ sb h]
end

mutual
theorem runW_fp (env : Env) {L : Leaf → List String → List String → Except Err Res} (hL : LeafSem env L) :
    ∀ (m : M), m.fpClean → ∀ (W sb : List String), m.fp.runW env L W sb = m.runW env L W sb
  | .const q, _, W, sb => by simp [M.fp]
  | .leaf k wh, _, W, sb => by
      simp only [M.fp, M.runW]; exact hL.congr _ _ _ _ (by simp [mem_sortWh])
  | .comp op l r wh, h, W, sb => by
      obtain ⟨h0, hl, hr⟩ := h
      rcases fp_comp op l r wh with e | ⟨v, w1, w2, e1, e2, e⟩
      · rw [e]
        simp only [M.runW, runW_fp env hL l hl, runW_fp env hL r hr]
        rw [runW_congr env hL l (W ++ sortWh wh) (W ++ wh) sb (by simp [mem_sortWh]),
          runW_congr env hL r (W ++ sortWh wh) (W ++ wh) sb (by simp [mem_sortWh])]
      · obtain ⟨rfl, rfl, rfl, rfl⟩ := h0 v w1 w2 e1 e2
        rw [e, e1, e2]
        show L _ (W ++ []) sb = _
        rw [List.append_nil, hL.mean]
  | .list ms wh, h, W, sb => by
      simp only [M.fp, M.runW, runWAll_fp env hL ms h]
      rw [runWAll_congr env hL ms (W ++ sortWh wh) (W ++ wh) sb (by simp [mem_sortWh])]
  | .oper o c wh, h, W, sb => by
      simp only [M.fp, M.runW, runW_fp env hL c h]
      rw [runW_congr env hL c (W ++ sortWh wh) (W ++ wh) _ (by simp [mem_sortWh])]
theorem runWAll_fp (env : Env) {L : Leaf → List String → List String → Except Err Res} (hL : LeafSem env L) :
    ∀ (ms : List M), fpCleanAll ms → ∀ (W sb : List String), runWAll env L (fpAll ms) W sb = runWAll env L ms W sb
  | [], _, W, sb => by simp [fpAll]
  | m :: ms, h, W, sb => by simp only [fpAll, runWAll, runW_fp env hL m h.1, runWAll_fp env hL ms h.2]
end

theorem runW_dropWh (env : Env) (L : Leaf → List String → List String → Except Err Res) (m : M) (W sb : List String) :
    m.runW env L W sb = m.dropWh.runW env L (W ++ m.wh) sb := by
  cases m <;> simp only [M.dropWh, M.runW, M.wh, List.append_nil]

theorem fpClean_dropWh {m : M} (h : m.fpClean) : m.dropWh.fpClean := by
  cases m <;> try exact h
  exact ⟨fun v w1 w2 e1 e2 => by obtain ⟨a, b, c, d⟩ := h.1 v w1 w2 e1 e2; exact ⟨a, b, c, rfl⟩, h.2⟩

/-- The fingerprint of the unfiltered metric is the unfiltered fingerprint. -/
theorem fp_dropWh {m : M} (h : m.fpClean) : m.fp.dropWh = m.dropWh.fp := by
  cases m with
  | const q => rfl
  | leaf k wh => rfl
  | comp op l r wh =>
    rcases fp_comp op l r wh with e | ⟨v, w1, w2, e1, e2, e⟩
    · rcases fp_comp op l r [] with e' | ⟨v, w1, w2, e1, e2, e'⟩
      · simp only [M.dropWh, e, e']; rfl
      · obtain ⟨rfl, rfl, rfl, rfl⟩ := h.1 v w1 w2 e1 e2
        rw [e, e1, e2] at e'
        simp at e'
    · obtain ⟨rfl, rfl, rfl, rfl⟩ := h.1 v w1 w2 e1 e2
      simp only [M.dropWh, e]; rfl
  | list ms wh => rfl
  | oper o c wh => rfl

theorem canonWh_eq {a b : List String} (h : ∀ w, w ∈ a ↔ w ∈ b) : canonWh a = canonWh b := by
  unfold canonWh sortWh
  have hp : a.dedup.Perm b.dedup := by
    rw [List.perm_ext_iff_of_nodup (List.nodup_dedup _) (List.nodup_dedup _)]
    intro w
    rw [List.mem_dedup, List.mem_dedup, h]
  apply List.Perm.eq_of_pairwise (le := (· ≤ ·)) (fun a b _ _ h1 h2 => le_antisymm h1 h2)
    (List.pairwise_insertionSort _ _) (List.pairwise_insertionSort _ _)
  exact (List.perm_insertionSort _ _).trans (hp.trans (List.perm_insertionSort _ _).symm)

/-- The entries under the key `K`, with a `split_by` in `dom`, are results of clean metrics from the leaves `L`. -/
def EntOk (env : Env) (L : Leaf → List String → List String → Except Err Res) (K : ℕ) (dom : List String → Prop) (c : Cache) : Prop :=
  ∀ k v, (k, v) ∈ c → k.key = K → dom k.splitBy →
    ∃ m : M, m.fpClean ∧ k.metric = m.fp.dropWh ∧ m.dropWh.runW env L k.wh k.splitBy = .ok v ∧ canonWh k.wh = k.wh

/-- The key is that of the metric `m` below the filters `W`. -/
structure FitsW (m : M) (key : CKey) (K : ℕ) (W sb : List String) : Prop where
  metric : key.metric = m.fp.dropWh
  ukey : key.key = K
  splitBy : key.splitBy = sb
  wh : key.wh = canonWh (W ++ m.wh)

/-- What is found stays. -/
def Mono (c c' : Cache) : Prop := ∀ k, (c.find k).isSome → c'.find k = c.find k

/-- New entries have the key `K`. -/
def NewAt (K : ℕ) (c c' : Cache) : Prop := ∀ e ∈ c', e ∈ c ∨ e.1.key = K

theorem Mono.refl (c : Cache) : Mono c c := fun _ _ => rfl
theorem Mono.trans {a b c : Cache} (h : Mono a b) (h' : Mono b c) : Mono a c := fun k hk => by
  rw [h' k (by rw [h k hk]; exact hk), h k hk]
theorem NewAt.refl (K : ℕ) (c : Cache) : NewAt K c c := fun _ h => .inl h
theorem NewAt.trans {K : ℕ} {a b c : Cache} (h : NewAt K a b) (h' : NewAt K b c) : NewAt K a c := fun e he =>
  (h' e he).elim (fun hb => h e hb) .inr

theorem FitsW.child {m : M} {key : CKey} {K : ℕ} {W sb : List String} (h : FitsW m key K W sb) (ch : M) (ex : List String) :
    FitsW ch ((key.extend m (sb ++ ex)).extend ch (sb ++ ex)) K (W ++ m.wh) (sb ++ ex) := by
  refine ⟨rfl, h.ukey, ?_, ?_⟩
  · simp only [CKey.extend]
    split
    · rename_i he; rw [he, h.splitBy]
      exact (List.append_eq_nil_iff.1 he).1
    · rfl
  · simp only [CKey.extend, h.wh]
    exact canonWh_eq (fun w => by simp only [mem_canonWh, List.mem_append]; tauto)

/-- The result is no error. -/
def okRes : Except Err Res → Bool
  | .ok _ => true
  | .error _ => false

@[simp] theorem okRes_ok (r : Res) : okRes (.ok r) = true := rfl
@[simp] theorem okRes_error (e : Err) : okRes (.error e) = false := rfl
theorem okRes_iff {x : Except Err Res} : okRes x = true ↔ ∃ r, x = .ok r := by cases x <;> simp

mutual
/-- The keys of the leaves of a metric below the filters `W` that are computed, given the leaves `G`, and do not fail; a `Mean` stands for a
quotient. -/
def M.lkeys (env : Env) (G : Leaf → List String → List String → Except Err Res) (K : ℕ) : M → List String → List String → List CKey
  | .const _, _, _ => []
  | .leaf (.mean v) wh, W, sb =>
    (if okRes (G (.sum v) (W ++ wh) sb) then
      ⟨.leaf (.sum v) [], K, sb, canonWh (W ++ wh)⟩ :: if okRes (G (.count v) (W ++ wh) sb) then [⟨.leaf (.count v) [], K, sb, canonWh (W ++ wh)⟩] else []
    else [])
  | .leaf k wh, W, sb => if okRes (G k (W ++ wh) sb) then [⟨.leaf k [], K, sb, canonWh (W ++ wh)⟩] else []
  | .comp _ l r wh, W, sb =>
    l.lkeys env G K (W ++ wh) sb ++ if okRes (l.runW env G (W ++ wh) sb) then r.lkeys env G K (W ++ wh) sb else []
  | .list ms wh, W, sb => lkeysAll env G K ms (W ++ wh) sb
  | .oper o c wh, W, sb => c.lkeys env G K (W ++ wh) (sb ++ o.splitBy)
@[inherit_doc M.lkeys] def lkeysAll (env : Env) (G : Leaf → List String → List String → Except Err Res) (K : ℕ) :
    List M → List String → List String → List CKey
  | [], _, _ => []
  | m :: ms, W, sb => m.lkeys env G K W sb ++ lkeysAll env G K ms W sb
end

/-! ## Shapes -/

/-- A number, or the levels and the number of columns of a table. -/
def Res.shape : Res → Option (List String × ℕ)
  | .num _ => none
  | .tbl ex cs => some (ex, cs.length)

theorem zipCols_shape (op : Tbl → Tbl → Tbl) {as bs as' bs' : List Tbl} (ha : as.length = as'.length) (hb : bs.length = bs'.length) :
    (zipCols op as bs).map List.length = (zipCols op as' bs').map List.length := by
  rcases as with _ | ⟨a, _ | ⟨a2, as⟩⟩ <;> rcases as' with _ | ⟨a', _ | ⟨a2', as'⟩⟩ <;> simp at ha <;>
    rcases bs with _ | ⟨b, _ | ⟨b2, bs⟩⟩ <;> rcases bs' with _ | ⟨b', _ | ⟨b2', bs'⟩⟩ <;> simp at hb <;>
    simp [zipCols, Except.map, ha, hb]
  by_cases h : as'.length = bs'.length <;> simp [h, ha, hb]

theorem combine_shape (op : PyVal → PyVal → PyVal) {a b a' b' : Res} (ha : a.shape = a'.shape) (hb : b.shape = b'.shape) :
    (combine op a b).map Res.shape = (combine op a' b').map Res.shape := by
  cases a <;> cases a' <;> simp [Res.shape] at ha <;> cases b <;> cases b' <;> simp [Res.shape] at hb
  · rfl
  · simp [combine, Except.map, Res.shape, hb]
  · simp [combine, Except.map, Res.shape, ha]
  · rename_i ex as ex' as' ey bs ey' bs'
    obtain ⟨rfl, ha⟩ := ha
    obtain ⟨rfl, hb⟩ := hb
    simp only [combine]
    split
    · have := zipCols_shape (Tbl.align op) ha hb
      cases h1 : zipCols (Tbl.align op) as bs <;> cases h2 : zipCols (Tbl.align op) as' bs' <;> rw [h1, h2] at this <;>
        simp [Except.map] at this ⊢
      · exact this
      · simp [Res.shape, this]
    · rfl

theorem joinRes_shape : ∀ {xs ys : List Res}, xs.map Res.shape = ys.map Res.shape → (joinRes xs).map Res.shape = (joinRes ys).map Res.shape
  | [], [], _ => rfl
  | [], _ :: _, h => by simp at h
  | _ :: _, [], h => by simp at h
  | [x], [y], h => by
      cases x <;> cases y <;> simp [Res.shape] at h <;> simp [joinRes, Except.map, Res.shape, h]
  | [_], _ :: _ :: _, h => by simp at h
  | _ :: _ :: _, [_], h => by simp at h
  | x :: x2 :: xs, y :: y2 :: ys, h => by
      replace h : x.shape = y.shape ∧ (x2 :: xs).map Res.shape = (y2 :: ys).map Res.shape := by simpa using h
      have ih := joinRes_shape h.2
      have hxy := h.1
      unfold joinRes
      revert ih
      generalize joinRes (x2 :: xs) = p
      generalize joinRes (y2 :: ys) = q
      intro ih
      cases x <;> cases y <;> simp [Res.shape] at hxy <;> rcases p with e | (_ | ⟨ex, cs⟩) <;> rcases q with e' | (_ | ⟨ex', cs'⟩) <;>
        simp [Except.map, Res.shape] at ih ⊢ <;> try exact ih
      obtain ⟨rfl, e1⟩ := ih
      obtain ⟨rfl, e2⟩ := hxy
      rename_i ex0 _ _
      by_cases h0 : ex0 = ex <;> simp [h0, Res.shape, e1, e2]

section
variable (env : Env) {G L : Leaf → List String → List String → Except Err Res}
  {sb sb' : List String} (hs : ∀ k W, (L k W sb).map Res.shape = (G k W sb').map Res.shape)
include hs

mutual
theorem runW_shape2 : ∀ (m : M), m.jackable → ∀ (W : List String), (m.runW env L W sb).map Res.shape = (m.runW env G W sb').map Res.shape
  | .const q, _, W => by simp [M.runW]
  | .leaf k wh, _, W => by simp only [M.runW]; exact hs _ _
  | .comp op l r wh, hj, W => by
      have hl := runW_shape2 l hj.1 (W ++ wh)
      have hr := runW_shape2 r hj.2 (W ++ wh)
      simp only [M.runW]
      revert hl hr
      generalize l.runW env L (W ++ wh) sb = a
      generalize l.runW env G (W ++ wh) sb' = a'
      generalize r.runW env L (W ++ wh) sb = b
      generalize r.runW env G (W ++ wh) sb' = b'
      intro hl hr
      cases a <;> cases a' <;> simp [Except.map] at hl <;> cases b <;> cases b' <;> simp [Except.map] at hr <;> simp only
      · simp [Except.map, hl]
      · simp [Except.map, hl]
      · simp [Except.map, hr]
      · exact combine_shape _ hl hr
  | .list ms wh, hj, W => by
      simp only [M.runW]
      exact joinRes_shape (runWAll_shape2 ms hj (W ++ wh))
  | .oper o c wh, hj, W => hj.elim
theorem runWAll_shape2 : ∀ (ms : List M), jackableAll ms → ∀ (W : List String),
    (runWAll env L ms W sb).map Res.shape = (runWAll env G ms W sb').map Res.shape
  | [], _, W => rfl
  | m :: ms, hj, W => by
      have hm := runW_shape2 m hj.1 W
      have ih := runWAll_shape2 ms hj.2 W
      simp only [runWAll]
      revert hm
      generalize m.runW env L W sb = a
      generalize m.runW env G W sb' = a'
      intro hm
      cases a <;> cases a' <;> simp [Except.map] at hm <;> simp [ih, hm]
end

end

theorem runW_shape (env : Env) {G L : Leaf → List String → List String → Except Err Res}
    (hs : ∀ k W sb, (L k W sb).map Res.shape = (G k W sb).map Res.shape) (m : M) (hj : m.jackable) (W sb : List String) :
    (m.runW env L W sb).map Res.shape = (m.runW env G W sb).map Res.shape := runW_shape2 env (fun k W => hs k W sb) m hj W

theorem okRes_shape {x y : Except Err Res} (h : x.map Res.shape = y.map Res.shape) : okRes x = okRes y := by
  cases x <;> cases y <;> simp [Except.map] at h ⊢

section
variable (env : Env) {L : Leaf → List String → List String → Except Err Res} (hL : LeafSem env L) (D : Frame) (K : ℕ) (dom : List String → Prop)

include hL in
theorem cached_gen {m : M} (hm : m.fpClean) {key : CKey} {W sb : List String} (hk : FitsW m key K W sb) (hd : dom sb)
    (compute : Cache → Except Err Res × Cache) (c : Cache) (h : EntOk env L K dom c)
    (hc : c.find key = none →
      (compute c).1 = m.runW env L W sb ∧ EntOk env L K dom (compute c).2 ∧ Mono c (compute c).2 ∧ NewAt K c (compute c).2) :
    (cached key compute c).1 = m.runW env L W sb ∧ EntOk env L K dom (cached key compute c).2 ∧ Mono c (cached key compute c).2 ∧
      NewAt K c (cached key compute c).2 := by
  have hrun : m.runW env L W sb = m.dropWh.runW env L key.wh key.splitBy := by
    rw [runW_dropWh, hk.splitBy, hk.wh]
    exact runW_congr env hL _ _ _ _ (fun w => mem_canonWh.symm)
  unfold cached
  cases hf : c.find key with
  | some v =>
    obtain ⟨m', hm', he, hr, _⟩ := h key v (Cache.find_mem hf) hk.ukey (hk.splitBy ▸ hd)
    refine ⟨?_, h, .refl _, .refl _ _⟩
    show Except.ok v = _
    rw [hrun, ← hr, ← runW_fp env hL m'.dropWh (fpClean_dropWh hm'), ← runW_fp env hL m.dropWh (fpClean_dropWh hm), ← fp_dropWh hm',
      ← fp_dropWh hm, ← he, hk.metric]
  | none =>
    obtain ⟨h1, h2, h3, h4⟩ := hc hf
    revert h1 h2 h3 h4
    rcases compute c with ⟨r, c'⟩
    intro h1 h2 h3 h4
    cases r with
    | error e => exact ⟨h1, h2, h3, h4⟩
    | ok v =>
      refine ⟨h1, ?_, ?_, ?_⟩
      · intro k v' hmem
        rw [List.mem_cons] at hmem
        rcases hmem with heq | hmem
        · cases heq
          exact fun _ _ => ⟨m, hm, hk.metric, by rw [← hrun]; exact h1.symm, by rw [hk.wh]; exact canonWh_eq (fun w => mem_canonWh)⟩
        · exact h2 k v' hmem
      · intro k hkf
        have hne : k ≠ key := by rintro rfl; rw [hf] at hkf; simp at hkf
        show List.lookup k ((key, v) :: c') = _
        rw [List.lookup_cons, show (k == key) = false from by simpa using hne]
        exact h3 k hkf
      · intro e he
        rw [List.mem_cons] at he
        rcases he with rfl | he
        · exact .inr hk.ukey
        · exact h4 e he

/-- Either the leaves are those on the data, or all leaves of the metric that do not fail are found in the cache. -/
abbrev Served (L : Leaf → List String → List String → Except Err Res) (m : M) (W sb : List String) (c : Cache) : Prop :=
  (L = onData env D ∧ ∀ s ex : List String, dom s → dom (s ++ ex)) ∨
    (m.jackable ∧ (∀ k W sb, (L k W sb).map Res.shape = (onData env D k W sb).map Res.shape) ∧
      ∀ k ∈ m.lkeys env (onData env D) K W sb, (Cache.find c k).isSome)

abbrev ServedAll (L : Leaf → List String → List String → Except Err Res) (ms : List M) (W sb : List String) (c : Cache) : Prop :=
  (L = onData env D ∧ ∀ s ex : List String, dom s → dom (s ++ ex)) ∨
    (jackableAll ms ∧ (∀ k W sb, (L k W sb).map Res.shape = (onData env D k W sb).map Res.shape) ∧
      ∀ k ∈ lkeysAll env (onData env D) K ms W sb, (Cache.find c k).isSome)

include hL

mutual
theorem runC_gen : ∀ (m : M), m.fpClean → ∀ (key : CKey) (W sb : List String), FitsW m key K W sb → dom sb → ∀ c, EntOk env L K dom c →
    Served env D K dom L m W sb c →
    (m.runC env key (D.query env W) sb c).1 = m.runW env L W sb ∧ EntOk env L K dom (m.runC env key (D.query env W) sb c).2 ∧
      Mono c (m.runC env key (D.query env W) sb c).2 ∧ NewAt K c (m.runC env key (D.query env W) sb c).2
  | .const q, _, key, W, sb, _, _, c, h, _ => by
      simp only [M.runC, M.runW]; exact ⟨trivial, h, .refl _, .refl _ _⟩
  | .leaf k wh, hm, key, W, sb, hk, hd, c, h, hs => by
      rw [M.runC]
      refine cached_gen env hL K dom hm hk hd _ c h (fun hn => ?_)
      rcases hs with ⟨rfl, _⟩ | ⟨hj, hsh, hf⟩
      · exact ⟨by simp [M.runW, onData, query_query], h, .refl _, .refl _ _⟩
      · cases hG : onData env D k (W ++ wh) sb with
        | error e =>
          have := hsh k (W ++ wh) sb
          rw [hG] at this
          have hL' : L k (W ++ wh) sb = .error e := by
            cases hx : L k (W ++ wh) sb <;> rw [hx] at this <;> simp [Except.map] at this
            rw [this]
          refine ⟨?_, h, .refl _, .refl _ _⟩
          simp only [M.runW, hL', query_query]
          exact hG
        | ok rr =>
        exfalso
        have hkey : key = ⟨.leaf k [], K, sb, canonWh (W ++ wh)⟩ := by
          obtain ⟨a, b, c', d⟩ := key
          obtain ⟨h1, h2, h3, h4⟩ := hk
          simp only at h1 h2 h3 h4
          rw [h1, h2, h3, h4]; rfl
        have : (c.find key).isSome := by
          apply hf
          rw [hkey]
          cases k <;> first | exact hj.elim | simp [M.lkeys, hG]
        rw [hn] at this
        simp at this
  | .comp op l r wh, hm, key, W, sb, hk, hd, c, h, hs => by
      rw [M.runC]
      refine cached_gen env hL K dom hm hk hd _ c h (fun hn => ?_)
      have fl := hk.child l []
      have fr := hk.child r []
      rw [List.append_nil] at fl fr
      simp only [query_query]
      have sl : Served env D K dom L l (W ++ wh) sb c := hs.imp id (fun ⟨hj, hsh, hf⟩ => ⟨hj.1, hsh, fun k hk => hf k (by simp [M.lkeys, hk])⟩)
      obtain ⟨l1, l2, l3, l4⟩ := runC_gen l hm.2.1 _ _ _ fl hd c h sl
      simp only [M.wh] at l1 l2 l3 l4 fr
      simp only [M.runW]
      revert l1 l2 l3 l4
      rcases l.runC env ((key.extend (.comp op l r wh) sb).extend l sb) (D.query env (W ++ wh)) sb c with ⟨ra, c1⟩
      intro l1 l2 l3 l4
      simp only at l1 l2 l3 l4
      rw [← l1]
      cases ra with
      | error e => exact ⟨rfl, l2, l3, l4⟩
      | ok a =>
        have sr : Served env D K dom L r (W ++ wh) sb c1 :=
          hs.imp id (fun ⟨hj, hsh, hf⟩ => ⟨hj.2, hsh, fun k hk => by
            have hok : okRes (l.runW env (onData env D) (W ++ wh) sb) = true := by
              rw [← okRes_shape (runW_shape env hsh l hj.1 (W ++ wh) sb), ← l1]; rfl
            have := hf k (by simp [M.lkeys, hk, hok])
            rw [l3 k this]; exact this⟩)
        obtain ⟨r1, r2, r3, r4⟩ := runC_gen r hm.2.2 _ _ _ fr hd c1 l2 sr
        simp only
        revert r1 r2 r3 r4
        rcases r.runC env ((key.extend (.comp op l r wh) sb).extend r sb) (D.query env (W ++ wh)) sb c1 with ⟨rb, c2⟩
        intro r1 r2 r3 r4
        simp only at r1 r2 r3 r4
        rw [← r1]
        cases rb with
        | error e => exact ⟨rfl, r2, l3.trans r3, l4.trans r4⟩
        | ok b => exact ⟨rfl, r2, l3.trans r3, l4.trans r4⟩
  | .list ms wh, hm, key, W, sb, hk, hd, c, h, hs => by
      rw [M.runC]
      refine cached_gen env hL K dom hm hk hd _ c h (fun hn => ?_)
      simp only [query_query]
      have fs : ∀ ch ∈ ms, FitsW ch ((key.extend (.list ms wh) sb).extend ch sb) K (W ++ wh) sb := fun ch _ => by
        have := hk.child ch []
        rwa [List.append_nil] at this
      obtain ⟨a1, a2, a3, a4⟩ := allC_gen ms hm _ (W ++ wh) sb fs hd c h
        (hs.imp id (fun ⟨hj, hsh, hf⟩ => ⟨hj, hsh, fun k hk => hf k (by simpa [M.lkeys] using hk)⟩))
      simp only [M.runW]
      exact ⟨by rw [a1], a2, a3, a4⟩
  | .oper o ch wh, hm, key, W, sb, hk, hd, c, h, hs => by
      rw [M.runC]
      refine cached_gen env hL K dom hm hk hd _ c h (fun hn => ?_)
      have hs' : L = onData env D ∧ ∀ s ex : List String, dom s → dom (s ++ ex) := hs.elim id (fun hj => hj.1.elim)
      simp only [query_query]
      obtain ⟨l1, l2, l3, l4⟩ := runC_gen ch hm _ _ _ (hk.child ch o.splitBy) (hs'.2 _ _ hd) c h (.inl hs')
      simp only [M.wh] at l1 l2 l3 l4
      simp only [M.runW]
      revert l1 l2 l3 l4
      rcases ch.runC env ((key.extend (.oper o ch wh) (sb ++ o.splitBy)).extend ch (sb ++ o.splitBy)) (D.query env (W ++ wh))
        (sb ++ o.splitBy) c with ⟨ra, c1⟩
      intro l1 l2 l3 l4
      simp only at l1 l2 l3 l4
      rw [← l1]
      cases ra with
      | error e => exact ⟨rfl, l2, l3, l4⟩
      | ok a => exact ⟨rfl, l2, l3, l4⟩
theorem allC_gen : ∀ (ms : List M), fpCleanAll ms → ∀ (pkey : CKey) (W sb : List String),
    (∀ ch ∈ ms, FitsW ch (pkey.extend ch sb) K W sb) → dom sb → ∀ c, EntOk env L K dom c → ServedAll env D K dom L ms W sb c →
    (allC env ms pkey (D.query env W) sb c).1 = runWAll env L ms W sb ∧ EntOk env L K dom (allC env ms pkey (D.query env W) sb c).2 ∧
      Mono c (allC env ms pkey (D.query env W) sb c).2 ∧ NewAt K c (allC env ms pkey (D.query env W) sb c).2
  | [], _, pkey, W, sb, _, _, c, h, _ => by
      simp only [allC, runWAll]; exact ⟨trivial, h, .refl _, .refl _ _⟩
  | m :: ms, hm, pkey, W, sb, hk, hd, c, h, hs => by
      obtain ⟨l1, l2, l3, l4⟩ := runC_gen m hm.1 _ _ _ (hk m (by simp)) hd c h
        (hs.imp id (fun ⟨hj, hsh, hf⟩ => ⟨hj.1, hsh, fun k hk => hf k (by simp [lkeysAll, hk])⟩))
      rw [allC, runWAll]
      revert l1 l2 l3 l4
      rcases m.runC env (pkey.extend m sb) (D.query env W) sb c with ⟨ra, c1⟩
      intro l1 l2 l3 l4
      simp only at l1 l2 l3 l4
      have sr : ServedAll env D K dom L ms W sb c1 :=
        hs.imp id (fun ⟨hj, hsh, hf⟩ => ⟨hj.2, hsh, fun k hk => by
          have := hf k (by simp [lkeysAll, hk])
          rw [l3 k this]; exact this⟩)
      obtain ⟨a1, a2, a3, a4⟩ := allC_gen ms hm.2 pkey W sb (fun ch hch => hk ch (by simp [hch])) hd c1 l2 sr
      rw [← l1]
      cases ra with
      | error e => exact ⟨a1, a2, l3.trans a3, l4.trans a4⟩
      | ok a => exact ⟨by simp only [a1], a2, l3.trans a3, l4.trans a4⟩
end

end

/-! ## The leaves of what is cached are cached -/

section
variable (env : Env) {G : Leaf → List String → List String → Except Err Res} (hG : LeafSem env G) (K : ℕ)
include hG

mutual
theorem lkeys_congr : ∀ (m : M) (W W' sb : List String), (∀ w, w ∈ W ↔ w ∈ W') → m.lkeys env G K W sb = m.lkeys env G K W' sb
  | .const q, W, W', sb, h => rfl
  | .leaf k wh, W, W', sb, h => by
      have h1 : canonWh (W ++ wh) = canonWh (W' ++ wh) := canonWh_eq (by simp [h])
      have h2 : ∀ k, G k (W ++ wh) sb = G k (W' ++ wh) sb := fun k => hG.congr _ _ _ _ (by simp [h])
      cases k <;> simp only [M.lkeys, h1, h2]
  | .comp op l r wh, W, W', sb, h => by
      have h' : ∀ w, w ∈ W ++ wh ↔ w ∈ W' ++ wh := by simp [h]
      simp only [M.lkeys]
      rw [lkeys_congr l _ _ sb h', lkeys_congr r _ _ sb h', runW_congr env hG l _ _ sb h']
  | .list ms wh, W, W', sb, h => by
      simp only [M.lkeys]; exact lkeysAll_congr ms _ _ sb (by simp [h])
  | .oper o c wh, W, W', sb, h => by
      simp only [M.lkeys]; exact lkeys_congr c _ _ _ (by simp [h])
theorem lkeysAll_congr : ∀ (ms : List M) (W W' sb : List String), (∀ w, w ∈ W ↔ w ∈ W') → lkeysAll env G K ms W sb = lkeysAll env G K ms W' sb
  | [], W, W', sb, h => rfl
  | m :: ms, W, W', sb, h => by
      simp only [lkeysAll]; rw [lkeys_congr m _ _ sb h, lkeysAll_congr ms _ _ sb h]
end

mutual
theorem lkeys_fp : ∀ (m : M), m.fpClean → ∀ (W sb : List String), m.fp.lkeys env G K W sb = m.lkeys env G K W sb
  | .const q, _, W, sb => by simp [M.fp]
  | .leaf k wh, _, W, sb => by
      simp only [M.fp]
      have h1 : canonWh (W ++ sortWh wh) = canonWh (W ++ wh) := canonWh_eq (by simp [mem_sortWh])
      have h2 : ∀ k, G k (W ++ sortWh wh) sb = G k (W ++ wh) sb := fun k => hG.congr _ _ _ _ (by simp [mem_sortWh])
      cases k <;> simp only [M.lkeys, h1, h2]
  | .comp op l r wh, h, W, sb => by
      obtain ⟨h0, hl, hr⟩ := h
      rcases fp_comp op l r wh with e | ⟨v, w1, w2, e1, e2, e⟩
      · rw [e]
        simp only [M.lkeys, lkeys_fp l hl, lkeys_fp r hr, runW_fp env hG l hl]
        rw [lkeys_congr env hG K l (W ++ sortWh wh) (W ++ wh) sb (by simp [mem_sortWh]),
          lkeys_congr env hG K r (W ++ sortWh wh) (W ++ wh) sb (by simp [mem_sortWh]),
          runW_congr env hG l (W ++ sortWh wh) (W ++ wh) sb (by simp [mem_sortWh])]
      · obtain ⟨rfl, rfl, rfl, rfl⟩ := h0 v w1 w2 e1 e2
        rw [e, e1, e2]
        simp only [M.lkeys, M.runW, List.append_nil, show sortWh [] = [] from rfl]
        split <;> simp
  | .list ms wh, h, W, sb => by
      simp only [M.fp, M.lkeys, lkeysAll_fp ms h]
      exact lkeysAll_congr env hG K ms (W ++ sortWh wh) (W ++ wh) sb (by simp [mem_sortWh])
  | .oper o c wh, h, W, sb => by
      simp only [M.fp, M.lkeys, lkeys_fp c h]
      exact lkeys_congr env hG K c (W ++ sortWh wh) (W ++ wh) _ (by simp [mem_sortWh])
theorem lkeysAll_fp : ∀ (ms : List M), fpCleanAll ms → ∀ (W sb : List String), lkeysAll env G K (fpAll ms) W sb = lkeysAll env G K ms W sb
  | [], _, W, sb => by simp [fpAll]
  | m :: ms, h, W, sb => by simp only [fpAll, lkeysAll, lkeys_fp m h.1, lkeysAll_fp ms h.2]
end

end

theorem lkeys_dropWh (env : Env) (G : Leaf → List String → List String → Except Err Res) (K : ℕ) (m : M) (W sb : List String) :
    m.lkeys env G K W sb = m.dropWh.lkeys env G K (W ++ m.wh) sb := by
  cases m with
  | leaf k wh => cases k <;> simp only [M.dropWh, M.lkeys, M.wh, List.append_nil]
  | _ => simp only [M.dropWh, M.lkeys, M.wh, List.append_nil]

/-- With an entry, the leaves of its metric that do not fail are in the cache. -/
def Pres (env : Env) (D : Frame) (K : ℕ) (c : Cache) : Prop :=
  ∀ k v, (k, v) ∈ c → k.key = K → ∀ o ∈ k.metric.lkeys env (onData env D) K k.wh k.splitBy, (c.find o).isSome

/-- What is found is found later. -/
def Grow (c c' : Cache) : Prop := ∀ k, (Cache.find c k).isSome → (Cache.find c' k).isSome

theorem Grow.refl (c : Cache) : Grow c c := fun _ h => h
theorem Grow.trans {a b c : Cache} (h : Grow a b) (h' : Grow b c) : Grow a c := fun k hk => h' k (h k hk)
theorem Mono.grow {c c' : Cache} (h : Mono c c') : Grow c c' := fun k hk => by rw [h k hk]; exact hk
theorem Grow.cons (e : CKey × Res) (c : Cache) : Grow c (e :: c) := fun k hk => by
  show (List.lookup k (e :: c)).isSome
  obtain ⟨a, b⟩ := e
  rw [List.lookup_cons]
  cases k == a
  · exact hk
  · rfl

theorem find_cons_self (k : CKey) (v : Res) (c : Cache) : Cache.find ((k, v) :: c) k = some v := by
  show List.lookup k ((k, v) :: c) = _
  rw [List.lookup_cons]; simp

theorem Pres.of_newAt {env : Env} {D : Frame} {K K' : ℕ} {c c' : Cache} (h : Pres env D K c) (hn : NewAt K' c c') (hne : K ≠ K') (hg : Grow c c') :
    Pres env D K c' := by
  intro k v hm hk o ho
  rcases hn _ hm with hm | hm
  · exact hg _ (h k v hm hk o ho)
  · exact absurd (hk.symm.trans hm) hne

theorem EntOk.of_newAt {env : Env} {L : Leaf → List String → List String → Except Err Res} {K K' : ℕ} {dom : List String → Prop} {c c' : Cache}
    (h : EntOk env L K dom c) (hn : NewAt K' c c') (hne : K ≠ K') : EntOk env L K dom c' := by
  intro k v hm hk hd
  rcases hn _ hm with hm | hm
  · exact h k v hm hk hd
  · exact absurd (hk.symm.trans hm) hne

theorem FitsW.lkeys {env : Env} {G : Leaf → List String → List String → Except Err Res} (hG : LeafSem env G) {m : M} {key : CKey} {K : ℕ}
    {W sb : List String} (hk : FitsW m key K W sb) (hm : m.fpClean) :
    key.metric.lkeys env G K key.wh key.splitBy = m.lkeys env G K W sb := by
  rw [hk.metric, hk.wh, hk.splitBy, fp_dropWh hm, lkeys_fp env hG K _ (fpClean_dropWh hm), lkeys_dropWh env G K m]
  exact lkeys_congr env hG K _ _ _ _ (fun w => mem_canonWh)

theorem cached_pres {env : Env} {D : Frame} (hG : LeafSem env (onData env D)) {K : ℕ} {m : M} (hm : m.fpClean) {key : CKey} {W sb : List String}
    (hk : FitsW m key K W sb) (compute : Cache → Except Err Res × Cache) (c : Cache) (h : Pres env D K c)
    (hc : c.find key = none → Pres env D K (compute c).2 ∧
      ∀ o ∈ m.lkeys env (onData env D) K W sb, (o = key ∧ ∃ v, (compute c).1 = .ok v) ∨ (Cache.find (compute c).2 o).isSome) :
    Pres env D K (cached key compute c).2 ∧ ∀ o ∈ m.lkeys env (onData env D) K W sb, (Cache.find (cached key compute c).2 o).isSome := by
  unfold cached
  cases hf : c.find key with
  | some v =>
    refine ⟨h, ?_⟩
    rw [← hk.lkeys hG hm]
    exact h key v (Cache.find_mem hf) hk.ukey
  | none =>
    obtain ⟨h2, h3⟩ := hc hf
    revert h2 h3
    rcases compute c with ⟨r, c'⟩
    intro h2 h3
    cases r with
    | error e =>
      refine ⟨h2, fun o ho => ?_⟩
      rcases h3 o ho with ⟨_, v, hv⟩ | h
      · simp at hv
      · exact h
    | ok v =>
    have h4 : ∀ o ∈ m.lkeys env (onData env D) K W sb, (Cache.find ((key, v) :: c') o).isSome := fun o ho => by
      rcases h3 o ho with ⟨rfl, _⟩ | h
      · rw [find_cons_self]; rfl
      · exact Grow.cons _ _ _ h
    refine ⟨?_, h4⟩
    intro k v' hmem hkk o ho
    rw [List.mem_cons] at hmem
    rcases hmem with heq | hmem
    · cases heq
      rw [hk.lkeys hG hm] at ho
      exact h4 o ho
    · exact Grow.cons _ _ _ (h2 k v' hmem hkk o ho)

section
variable (env : Env) (hL : ∀ D, LeafSem env (onData env D)) (D : Frame) (K : ℕ)
include hL

theorem runC_on (m : M) (hm : m.fpClean) (key : CKey) (W sb : List String) (hk : FitsW m key K W sb) (c : Cache)
    (h : EntOk env (onData env D) K (fun _ => True) c) :
    (m.runC env key (D.query env W) sb c).1 = m.run env (D.query env W) sb ∧
      EntOk env (onData env D) K (fun _ => True) (m.runC env key (D.query env W) sb c).2 ∧
      Mono c (m.runC env key (D.query env W) sb c).2 ∧ NewAt K c (m.runC env key (D.query env W) sb c).2 := by
  have := runC_gen env (hL D) D K (fun _ => True) m hm key W sb hk trivial c h (.inl ⟨rfl, fun _ _ _ => trivial⟩)
  rwa [run_runW] at this

mutual
theorem runC_pres : ∀ (m : M), m.fpClean → m.noMean → ∀ (key : CKey) (W sb : List String), FitsW m key K W sb →
    ∀ c, EntOk env (onData env D) K (fun _ => True) c → Pres env D K c →
    Pres env D K (m.runC env key (D.query env W) sb c).2 ∧
      ∀ o ∈ m.lkeys env (onData env D) K W sb, (Cache.find (m.runC env key (D.query env W) sb c).2 o).isSome
  | .const q, _, _, key, W, sb, _, c, h, hp => by
      simp only [M.runC]; exact ⟨hp, fun o ho => by simp [M.lkeys] at ho⟩
  | .leaf k wh, hm, hn, key, W, sb, hk, c, h, hp => by
      rw [M.runC]
      refine cached_pres (hL D) hm hk _ c hp (fun _ => ⟨hp, fun o ho => .inl ?_⟩)
      have hin : okRes (onData env D k (W ++ wh) sb) = true ∧ o = ⟨.leaf k [], K, sb, canonWh (W ++ wh)⟩ := by
        cases k <;> first
          | exact hn.elim
          | (simp only [M.lkeys] at ho
             split at ho
             · rename_i hok; exact ⟨hok, by simpa using ho⟩
             · simp at ho)
      refine ⟨?_, ?_⟩
      · obtain ⟨a, b, c', d⟩ := key
        obtain ⟨h1, h2, h3, h4⟩ := hk
        simp only at h1 h2 h3 h4
        rw [h1, h2, h3, h4, hin.2]
        rfl
      · obtain ⟨r, hr⟩ := okRes_iff.1 hin.1
        exact ⟨r, by simpa [onData, query_query] using hr⟩
  | .comp op l r wh, hm, hn, key, W, sb, hk, c, h, hp => by
      rw [M.runC]
      refine cached_pres (hL D) hm hk _ c hp (fun hnone => ?_)
      have fl := hk.child l []
      have fr := hk.child r []
      rw [List.append_nil] at fl fr
      simp only [query_query]
      obtain ⟨l1, l2, l3, l4⟩ := runC_on env hL D K l hm.2.1 _ _ _ fl c h
      obtain ⟨p1, p2⟩ := runC_pres l hm.2.1 hn.1 _ _ _ fl c h hp
      simp only [M.wh] at l1 l2 l3 l4 fr p1 p2
      rw [← run_runW] at l1
      revert l1 l2 l3 l4 p1 p2
      rcases l.runC env ((key.extend (.comp op l r wh) sb).extend l sb) (D.query env (W ++ wh)) sb c with ⟨ra, c1⟩
      intro l1 l2 l3 l4 p1 p2
      simp only at l1 l2 l3 l4 p1 p2
      cases ra with
      | error e =>
        refine ⟨p1, fun o ho => .inr ?_⟩
        simp only [M.lkeys, ← l1, okRes_error, Bool.false_eq_true, if_false, List.append_nil] at ho
        exact p2 o ho
      | ok a =>
      simp only
      obtain ⟨r1, r2, r3, r4⟩ := runC_on env hL D K r hm.2.2 _ _ _ fr c1 l2
      obtain ⟨q1, q2⟩ := runC_pres r hm.2.2 hn.2 _ _ _ fr c1 l2 p1
      revert r1 r2 r3 r4 q1 q2
      rcases r.runC env ((key.extend (.comp op l r wh) sb).extend r sb) (D.query env (W ++ wh)) sb c1 with ⟨rb, c2⟩
      intro r1 r2 r3 r4 q1 q2
      simp only at r1 r2 r3 r4 q1 q2
      have fin : ∀ o ∈ (M.comp op l r wh).lkeys env (onData env D) K W sb, (Cache.find c2 o).isSome := fun o ho => by
        simp only [M.lkeys, ← l1, okRes_ok, if_true, List.mem_append] at ho
        rcases ho with ho | ho
        · exact r3.grow _ (p2 o ho)
        · exact q2 o ho
      cases rb with
      | error e => exact ⟨q1, fun o ho => .inr (fin o ho)⟩
      | ok b => exact ⟨q1, fun o ho => .inr (fin o ho)⟩
  | .list ms wh, hm, hn, key, W, sb, hk, c, h, hp => by
      rw [M.runC]
      refine cached_pres (hL D) hm hk _ c hp (fun hnone => ?_)
      simp only [query_query]
      have fs : ∀ ch ∈ ms, FitsW ch ((key.extend (.list ms wh) sb).extend ch sb) K (W ++ wh) sb := fun ch _ => by
        have := hk.child ch []
        rwa [List.append_nil] at this
      obtain ⟨p1, p2⟩ := allC_pres ms hm hn _ (W ++ wh) sb fs c h hp
      exact ⟨p1, fun o ho => .inr (p2 o (by simpa [M.lkeys] using ho))⟩
  | .oper o ch wh, hm, hn, key, W, sb, hk, c, h, hp => by
      rw [M.runC]
      refine cached_pres (hL D) hm hk _ c hp (fun hnone => ?_)
      have fl := hk.child ch o.splitBy
      simp only [query_query]
      obtain ⟨p1, p2⟩ := runC_pres ch hm hn _ _ _ fl c h hp
      simp only [M.wh] at p1 p2
      revert p1 p2
      rcases ch.runC env ((key.extend (.oper o ch wh) (sb ++ o.splitBy)).extend ch (sb ++ o.splitBy)) (D.query env (W ++ wh))
        (sb ++ o.splitBy) c with ⟨ra, c1⟩
      intro p1 p2
      cases ra <;> exact ⟨p1, fun o ho => .inr (p2 o (by simpa [M.lkeys] using ho))⟩
theorem allC_pres : ∀ (ms : List M), fpCleanAll ms → noMeanAll ms → ∀ (pkey : CKey) (W sb : List String),
    (∀ ch ∈ ms, FitsW ch (pkey.extend ch sb) K W sb) →
    ∀ c, EntOk env (onData env D) K (fun _ => True) c → Pres env D K c →
    Pres env D K (allC env ms pkey (D.query env W) sb c).2 ∧
      ∀ o ∈ lkeysAll env (onData env D) K ms W sb, (Cache.find (allC env ms pkey (D.query env W) sb c).2 o).isSome
  | [], _, _, pkey, W, sb, _, c, h, hp => by
      simp only [allC]; exact ⟨hp, fun o ho => by simp [lkeysAll] at ho⟩
  | m :: ms, hm, hn, pkey, W, sb, hk, c, h, hp => by
      obtain ⟨l1, l2, l3, l4⟩ := runC_on env hL D K m hm.1 _ _ _ (hk m (by simp)) c h
      obtain ⟨p1, p2⟩ := runC_pres m hm.1 hn.1 _ _ _ (hk m (by simp)) c h hp
      rw [allC]
      revert l1 l2 l3 l4 p1 p2
      rcases m.runC env (pkey.extend m sb) (D.query env W) sb c with ⟨ra, c1⟩
      intro l1 l2 l3 l4 p1 p2
      simp only at l1 l2 l3 l4 p1 p2
      have hk' : ∀ ch ∈ ms, FitsW ch (pkey.extend ch sb) K W sb := fun ch hch => hk ch (by simp [hch])
      obtain ⟨q1, q2⟩ := allC_pres ms hm.2 hn.2 pkey W sb hk' c1 l2 p1
      obtain ⟨_, _, a3, _⟩ := allC_gen env (hL D) D K (fun _ => True) ms hm.2 pkey W sb hk' trivial c1 l2 (.inl ⟨rfl, fun _ _ _ => trivial⟩)
      have key2 : ∀ o ∈ lkeysAll env (onData env D) K (m :: ms) W sb, (Cache.find (allC env ms pkey (D.query env W) sb c1).2 o).isSome :=
        fun o ho => by
        simp only [lkeysAll, List.mem_append] at ho
        rcases ho with ho | ho
        · exact a3.grow _ (p2 o ho)
        · exact q2 o ho
      cases ra with
      | error e => exact ⟨q1, key2⟩
      | ok a => exact ⟨q1, key2⟩
end

end

end Verif
