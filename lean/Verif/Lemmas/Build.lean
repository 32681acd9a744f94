import Verif.Spec.Build
import Mathlib.Tactic.Common
import Mathlib.Tactic.Push
import Mathlib.Data.List.Infix
import Mathlib.Data.List.Basic

/-! # Lemmas for C79 -/

namespace Verif

/-! ## Trees in a changed heap -/

mutual
theorem HasTree.frame {h h' : Heap} : ∀ {r : ℕ} {t : MT}, HasTree h r t →
    (∀ s, Within h r s → ∀ o, h[s]? = some o → h'[s]? = some o) → HasTree h' r t
  | r, _, .mk (o := o) ho hc, H => by
      refine .mk (H r (.here r) o ho) (hc.frame ?_)
      intro c hm s hs o' ho'
      exact H s (.child ho hm hs) o' ho'
theorem HasTrees.frame {h h' : Heap} : ∀ {cs : List Slot} {ts : List MT}, HasTrees h cs ts →
    (∀ c, Slot.ref c ∈ cs → ∀ s, Within h c s → ∀ o, h[s]? = some o → h'[s]? = some o) → HasTrees h' cs ts
  | _, _, .nil, _ => .nil
  | _, _, .num hts, H => .num (hts.frame fun c hm => H c (List.mem_cons_of_mem _ hm))
  | _, _, .ref ht hts, H =>
      .ref (ht.frame (H _ List.mem_cons_self)) (hts.frame fun c hm => H c (List.mem_cons_of_mem _ hm))
end

theorem prefix_get {h h' : Heap} (hp : h <+: h') {r : ℕ} {o : MObj} (ho : h[r]? = some o) : h'[r]? = some o := by
  obtain ⟨t, rfl⟩ := hp
  have hlt : r < h.length := (List.getElem?_eq_some_iff.1 ho).1
  rw [List.getElem?_append_left hlt]
  exact ho

theorem HasTree.mono {h h' : Heap} (hp : h <+: h') {r : ℕ} {t : MT} (ht : HasTree h r t) : HasTree h' r t :=
  ht.frame fun _ _ _ ho => prefix_get hp ho

theorem HasTrees.mono {h h' : Heap} (hp : h <+: h') {cs : List Slot} {ts : List MT} (ht : HasTrees h cs ts) :
    HasTrees h' cs ts :=
  ht.frame fun _ _ _ _ _ ho => prefix_get hp ho

mutual
/-- Only operations without a child have changed. -/
theorem HasTree.keep {h h' : Heap}
    (H : ∀ (s : ℕ) (o : MObj), h[s]? = some o → (o.info.isOp = true → o.children ≠ []) → h'[s]? = some o) :
    ∀ {r : ℕ} {t : MT}, HasTree h r t → t.complete → HasTree h' r t
  | r, _, .mk (o := o) (ts := ts) ho hc, hcomp => by
      simp only [MT.complete] at hcomp
      refine .mk (H r o ho fun hop he => hcomp.1 hop ?_) (hc.keep H hcomp.2)
      rw [he] at hc
      cases hc
      rfl
theorem HasTrees.keep {h h' : Heap}
    (H : ∀ (s : ℕ) (o : MObj), h[s]? = some o → (o.info.isOp = true → o.children ≠ []) → h'[s]? = some o) :
    ∀ {cs : List Slot} {ts : List MT}, HasTrees h cs ts → allComplete ts → HasTrees h' cs ts
  | _, _, .nil, _ => .nil
  | _, _, .num hts, hc => .num (hts.keep H hc.2)
  | _, _, .ref ht hts, hc => .ref (ht.keep H hc.1) (hts.keep H hc.2)
end

mutual
/-- A reference stands for at most one tree. -/
theorem HasTree.unique {h : Heap} : ∀ {r : ℕ} {t u : MT}, HasTree h r t → HasTree h r u → t = u
  | _, _, _, .mk ho hc, .mk ho' hc' => by
      rw [ho] at ho'
      cases ho'
      rw [hc.unique hc']
theorem HasTrees.unique {h : Heap} : ∀ {cs : List Slot} {ts us : List MT}, HasTrees h cs ts → HasTrees h cs us → ts = us
  | _, _, _, .nil, .nil => rfl
  | _, _, _, .num a, .num b => by rw [a.unique b]
  | _, _, _, .ref a as, .ref b bs => by rw [a.unique b, as.unique bs]
end

theorem HasTree.lt {h : Heap} {r : ℕ} {t : MT} (ht : HasTree h r t) : r < h.length := by
  cases ht with
  | mk ho _ => exact (List.getElem?_eq_some_iff.1 ho).1

theorem HasTrees.mem {h : Heap} : ∀ {cs : List Slot} {ts : List MT}, HasTrees h cs ts → ∀ c, Slot.ref c ∈ cs →
    ∃ t ∈ ts, HasTree h c t
  | _, _, .nil, _, hm => by cases hm
  | _, _, .num hts, c, hm => by
      rcases List.mem_cons.1 hm with e | hm
      · cases e
      · obtain ⟨t, h1, h2⟩ := hts.mem c hm
        exact ⟨t, List.mem_cons_of_mem _ h1, h2⟩
  | _, _, .ref ht hts, c, hm => by
      rcases List.mem_cons.1 hm with e | hm
      · cases e
        exact ⟨_, List.mem_cons_self, ht⟩
      · obtain ⟨t, h1, h2⟩ := hts.mem c hm
        exact ⟨t, List.mem_cons_of_mem _ h1, h2⟩

/-- Every object of a metric stands for a metric. -/
theorem Within.hasTree {h : Heap} {r s : ℕ} (hw : Within h r s) : ∀ {t : MT}, HasTree h r t → ∃ u, HasTree h s u := by
  induction hw with
  | here r => exact fun ht => ⟨_, ht⟩
  | child ho hm _ ih =>
    intro t ht
    cases ht with
    | mk ho' hc =>
      rw [ho] at ho'
      cases ho'
      obtain ⟨u, _, hu⟩ := hc.mem _ hm
      exact ih hu

theorem Within.mono {h h' : Heap} (hp : h <+: h') {r s : ℕ} (hw : Within h r s) : Within h' r s := by
  induction hw with
  | here r => exact .here r
  | child ho hm _ ih => exact .child (prefix_get hp ho) hm ih

/-- The objects of a metric are the same in a larger heap. -/
theorem Within.back {h h' : Heap} (hp : h <+: h') {r s : ℕ} (hw : Within h' r s) :
    ∀ {t : MT}, HasTree h r t → Within h r s := by
  induction hw with
  | here r => exact fun _ => .here r
  | child ho hm _ ih =>
    intro t ht
    cases ht with
    | mk ho' hc =>
      rw [prefix_get hp ho'] at ho
      cases ho
      obtain ⟨u, _, hu⟩ := hc.mem _ hm
      exact .child ho' hm (ih hu)

/-! ## Copies -/

/-- What the memo of a deep copy promises, for a copy that began with `h0`. -/
structure MemoOK (h0 h : Heap) (memo : List (ℕ × ℕ)) : Prop where
  pre : h0 <+: h
  tree : ∀ a b, (a, b) ∈ memo → ∃ t, HasTree h0 a t ∧ HasTree h b t
  fresh : ∀ a b, (a, b) ∈ memo → ∀ s, Within h b s → h0.length ≤ s

theorem memo_lookup_mem {memo : List (ℕ × ℕ)} {a b : ℕ} (h : memo.lookup a = some b) : (a, b) ∈ memo := by
  induction memo with
  | nil => cases h
  | cons p ps ih =>
    obtain ⟨x, y⟩ := p
    rw [List.lookup_cons] at h
    by_cases hx : a = x
    · subst hx
      simp only [BEq.rfl] at h
      cases h
      exact List.mem_cons_self
    · have : (a == x) = false := by simpa using hx
      rw [this] at h
      exact List.mem_cons_of_mem _ (ih h)

/-- The result of a copy. -/
def CopyOK (h0 : Heap) (f : Heap → List (ℕ × ℕ) → ℕ → Option (Heap × List (ℕ × ℕ) × ℕ)) : Prop :=
  ∀ h memo r t, MemoOK h0 h memo → HasTree h0 r t → ∀ h' memo' r', f h memo r = some (h', memo', r') →
    MemoOK h0 h' memo' ∧ h <+: h' ∧ HasTree h' r' t ∧ ∀ s, Within h' r' s → h0.length ≤ s

theorem within_of_prefix_tree {h h' : Heap} (hp : h <+: h') {r : ℕ} {t : MT} (ht : HasTree h r t) {L : ℕ}
    (hf : ∀ s, Within h r s → L ≤ s) : ∀ s, Within h' r s → L ≤ s := fun s hs => hf s (hs.back hp ht)

theorem copySlots_ok {h0 : Heap} {f} (hf : CopyOK h0 f) : ∀ (cs : List Slot) (ts : List MT) (h : Heap)
    (memo : List (ℕ × ℕ)), MemoOK h0 h memo → HasTrees h0 cs ts → ∀ h' memo' cs',
    deepCopy.copySlots f h memo cs = some (h', memo', cs') →
    MemoOK h0 h' memo' ∧ h <+: h' ∧ HasTrees h' cs' ts ∧
      ∀ c, Slot.ref c ∈ cs' → ∀ s, Within h' c s → h0.length ≤ s
  | [], ts, h, memo, hm, ht, h', memo', cs', e => by
      simp only [deepCopy.copySlots, Option.some.injEq, Prod.mk.injEq] at e
      obtain ⟨rfl, rfl, rfl⟩ := e
      cases ht
      exact ⟨hm, List.prefix_rfl, .nil, fun c hc => by cases hc⟩
  | .num q :: cs, ts, h, memo, hm, ht, h', memo', cs', e => by
      simp only [deepCopy.copySlots] at e
      split at e
      · cases e
      · rename_i h1 memo1 cs1 hr
        cases e
        cases ht with
        | num ht =>
          obtain ⟨a, b, c, d⟩ := copySlots_ok hf cs _ h memo hm ht _ _ _ hr
          refine ⟨a, b, .num c, fun x hx => ?_⟩
          rcases List.mem_cons.1 hx with e | hx
          · cases e
          · exact d x hx
  | .ref r :: cs, ts, h, memo, hm, ht, h', memo', cs', e => by
      simp only [deepCopy.copySlots] at e
      split at e
      · cases e
      · rename_i h1 memo1 r1 hr1
        split at e
        · cases e
        · rename_i h2 memo2 cs2 hr2
          cases e
          cases ht with
          | ref ht hts =>
            obtain ⟨a, b, c, d⟩ := hf h memo r _ hm ht _ _ _ hr1
            obtain ⟨a', b', c', d'⟩ := copySlots_ok hf cs _ h1 memo1 a hts _ _ _ hr2
            refine ⟨a', b.trans b', .ref (c.mono b') c', fun x hx => ?_⟩
            rcases List.mem_cons.1 hx with e | hx
            · cases e
              exact within_of_prefix_tree b' c d
            · exact d' x hx

theorem MemoOK.mono {h0 h h' : Heap} {memo : List (ℕ × ℕ)} (hm : MemoOK h0 h memo) (hp : h <+: h') :
    MemoOK h0 h' memo where
  pre := hm.pre.trans hp
  tree := by
    intro a b hab
    obtain ⟨t, h1, h2⟩ := hm.tree a b hab
    exact ⟨t, h1, h2.mono hp⟩
  fresh := by
    intro a b hab
    obtain ⟨t, _, ht⟩ := hm.tree a b hab
    exact within_of_prefix_tree hp ht (hm.fresh a b hab)

theorem deepCopy_ok (h0 : Heap) : ∀ n, CopyOK h0 (deepCopy n)
  | 0 => fun _ _ _ _ _ _ _ _ _ e => by simp [deepCopy] at e
  | n + 1 => by
      intro h memo r t hm ht h' memo' r' e
      simp only [deepCopy] at e
      split at e
      · rename_i b hl
        cases e
        obtain ⟨u, h1, h2⟩ := hm.tree _ _ (memo_lookup_mem hl)
        rw [ht.unique h1]
        exact ⟨hm, List.prefix_rfl, h2, hm.fresh _ _ (memo_lookup_mem hl)⟩
      · cases ht with
        | mk ho hc =>
          rename_i o ts
          rw [prefix_get hm.pre ho] at e
          simp only at e
          split at e
          · cases e
          · rename_i h1 memo1 cs1 hr
            simp only [alloc, Option.some.injEq, Prod.mk.injEq] at e
            obtain ⟨rfl, rfl, rfl⟩ := e
            obtain ⟨a, b, c, d⟩ := copySlots_ok (deepCopy_ok h0 n) o.children ts h memo hm hc _ _ _ hr
            have hp : h1 <+: h1 ++ [{ o with children := cs1 }] := List.prefix_append _ _
            have hg : (h1 ++ [{ o with children := cs1 }])[h1.length]? = some { o with children := cs1 } := by simp
            have htree : HasTree (h1 ++ [{ o with children := cs1 }]) h1.length (.node o.info ts) :=
              HasTree.mk (o := { o with children := cs1 }) hg (c.mono hp)
            have hfresh : ∀ s, Within (h1 ++ [{ o with children := cs1 }]) h1.length s → h0.length ≤ s := by
              intro s hs
              cases hs with
              | here => exact a.pre.length_le
              | child ho' hm' hw =>
                rw [hg] at ho'
                cases ho'
                obtain ⟨u, _, hu⟩ := c.mem _ hm'
                exact within_of_prefix_tree hp hu (d _ hm') s hw
            refine ⟨?_, b.trans hp, htree, hfresh⟩
            have am := a.mono hp
            refine ⟨am.pre, ?_, ?_⟩
            · intro x y hxy
              rcases List.mem_cons.1 hxy with e | hxy
              · cases e
                exact ⟨_, .mk ho hc, htree⟩
              · exact am.tree x y hxy
            · intro x y hxy
              rcases List.mem_cons.1 hxy with e | hxy
              · cases e
                exact hfresh
              · exact am.fresh x y hxy

theorem memoOK_nil (h : Heap) : MemoOK h h [] :=
  ⟨List.prefix_rfl, fun _ _ h => absurd h List.not_mem_nil, fun _ _ h => absurd h List.not_mem_nil⟩

/-- A deep copy: the same metric, made of new objects; the old objects are as they were. -/
theorem deepCopy_spec {n : ℕ} {h h' : Heap} {memo' : List (ℕ × ℕ)} {r r' : ℕ} {t : MT} (ht : HasTree h r t)
    (e : deepCopy n h [] r = some (h', memo', r')) :
    h <+: h' ∧ HasTree h' r' t ∧ ∀ s, Within h' r' s → h.length ≤ s := by
  obtain ⟨_, b, c, d⟩ := deepCopy_ok h n h [] r t (memoOK_nil h) ht h' memo' r' e
  exact ⟨b, c, d⟩

/-! ## Depth: copies exist -/

mutual
/-- The height of a tree. -/
def MT.depth : MT → ℕ
  | .node _ ts => depths ts + 1
  | .num _ => 0
/-- The height of the highest. -/
def depths : List MT → ℕ
  | [] => 0
  | t :: ts => max t.depth (depths ts)
end

theorem deepCopy_total (h0 : Heap) : ∀ (n : ℕ) (h : Heap) (memo : List (ℕ × ℕ)) (r : ℕ) (t : MT), MemoOK h0 h memo →
    HasTree h0 r t → t.depth ≤ n → (deepCopy n h memo r).isSome
  | 0, h, memo, r, t, hm, ht, hd => by
      cases ht with
      | mk => simp [MT.depth] at hd
  | n + 1, h, memo, r, t, hm, ht, hd => by
      cases ht with
      | mk ho hc =>
        rename_i o ts
        simp only [MT.depth, Nat.add_le_add_iff_right] at hd
        have slots : ∀ (cs : List Slot) (ts : List MT) (h : Heap) (memo : List (ℕ × ℕ)), MemoOK h0 h memo →
            HasTrees h0 cs ts → depths ts ≤ n → (deepCopy.copySlots (deepCopy n) h memo cs).isSome := by
          intro cs
          induction cs with
          | nil => intros; rfl
          | cons c cs ih =>
            intro ts h memo hm hc hd
            cases hc with
            | num hc =>
              simp only [depths] at hd
              have := ih _ h memo hm hc (le_trans (le_max_right _ _) hd)
              obtain ⟨x, hx⟩ := Option.isSome_iff_exists.1 this
              simp [deepCopy.copySlots, hx]
            | ref hr hc =>
              simp only [depths] at hd
              have h1 := deepCopy_total h0 n h memo _ _ hm hr (le_trans (le_max_left _ _) hd)
              obtain ⟨⟨h1, memo1, r1⟩, hx⟩ := Option.isSome_iff_exists.1 h1
              have hm1 := (deepCopy_ok h0 n h memo _ _ hm hr _ _ _ hx).1
              have := ih _ h1 memo1 hm1 hc (le_trans (le_max_right _ _) hd)
              obtain ⟨y, hy⟩ := Option.isSome_iff_exists.1 this
              simp [deepCopy.copySlots, hx, hy]
        have hs := slots o.children ts h memo hm hc hd
        obtain ⟨x, hx⟩ := Option.isSome_iff_exists.1 hs
        simp only [deepCopy]
        split
        · rfl
        · rw [prefix_get hm.pre ho]
          simp [hx]

/-! ## Applying an operation -/

theorem slotName_tree {h : Heap} {r : ℕ} {t : MT} (ht : HasTree h r t) : slotName h (.ref r) = t.name := by
  cases ht with
  | mk ho _ => simp [slotName, ho, MT.name]

theorem HasTree.obj {h : Heap} {r : ℕ} {i : Info} {ts : List MT} (ht : HasTree h r (.node i ts)) :
    ∃ o, h[r]? = some o ∧ o.info = i ∧ HasTrees h o.children ts := by
  cases ht with
  | mk ho hc => exact ⟨_, ho, rfl, hc⟩

theorem set_other {h : Heap} {r s : ℕ} {o x : MObj} (hne : r ≠ s) (ho : h[s]? = some o) : (h.set r x)[s]? = some o := by
  rw [List.getElem?_set_ne hne]
  exact ho

theorem applied_tree {h : Heap} {r m : ℕ} {o : MObj} {t : MT} {nm : String} (ho : h[r]? = some o)
    (hm : HasTree (h.set r (applied o nm m)) m t) :
    HasTree (h.set r (applied o nm m)) r (.node { o.info with name := fmt o.info.tmpl nm } [t]) := by
  have hlt : r < h.length := (List.getElem?_eq_some_iff.1 ho).1
  have hg : (h.set r (applied o nm m))[r]? = some (applied o nm m) := by rw [List.getElem?_set_self hlt]
  exact HasTree.mk (o := applied o nm m) hg (.ref hm .nil)

/-- What applying an operation does: its result, and the objects that change. -/
theorem applyOp_cases {n : ℕ} {h h' : Heap} {op m r : ℕ} (e : applyOp n h op m = some (h', r)) :
    ∃ o, h[op]? = some o ∧ o.info.isOp = true ∧
      ((o.children = [] ∧ r = op ∧ h' = h.set op (applied o (slotName h (.ref m)) m)) ∨
       (o.children ≠ [] ∧ ∃ h1 memo1 o1, deepCopy n h [] op = some (h1, memo1, r) ∧ h1[r]? = some o1 ∧
          h' = h1.set r (applied o1 (slotName h1 (.ref m)) m))) := by
  unfold applyOp at e
  split at e
  · cases e
  · rename_i o ho
    split at e
    · cases e
    · rename_i hisop
      refine ⟨o, ho, by simpa using hisop, ?_⟩
      by_cases hch : o.children = []
      · simp only [hch, if_true, ho, Option.some.injEq, Prod.mk.injEq] at e
        exact Or.inl ⟨hch, e.2.symm, e.1.symm⟩
      · simp only [hch, if_false] at e
        cases hcopy : deepCopy n h [] op with
        | none => simp [hcopy] at e
        | some p =>
          obtain ⟨h1, memo1, r1⟩ := p
          simp only [hcopy] at e
          cases ho1 : h1[r1]? with
          | none => simp [ho1] at e
          | some o1 =>
            simp only [ho1, Option.some.injEq, Prod.mk.injEq] at e
            obtain ⟨rfl, rfl⟩ := e
            exact Or.inr ⟨hch, h1, memo1, o1, rfl, ho1, rfl⟩

theorem applyOp_spec {n : ℕ} {h h' : Heap} {op m r : ℕ} {io : Info} {ts : List MT} {t : MT}
    (hop : HasTree h op (.node io ts)) (hm : HasTree h m t) (hc : t.complete)
    (e : applyOp n h op m = some (h', r)) :
    HasTree h' r (.node { io with name := fmt io.tmpl t.name } [t]) := by
  obtain ⟨o, ho, hisop, h1 | h2⟩ := applyOp_cases e
  · obtain ⟨hch, rfl, rfl⟩ := h1
    obtain ⟨o', ho', rfl, _⟩ := hop.obj
    rw [ho] at ho'
    cases ho'
    rw [slotName_tree hm]
    refine applied_tree ho (hm.keep (fun s o' ho' hne => set_other ?_ ho') hc)
    rintro rfl
    rw [ho] at ho'
    cases ho'
    exact hne hisop hch
  · obtain ⟨_, h1, memo1, o1, hcopy, ho1, rfl⟩ := h2
    obtain ⟨hp, htree, hfresh⟩ := deepCopy_spec hop hcopy
    obtain ⟨o', ho', rfl, _⟩ := htree.obj
    rw [ho1] at ho'
    cases ho'
    rw [slotName_tree (hm.mono hp)]
    refine applied_tree ho1 (hm.frame fun s _ o' ho' => set_other ?_ (prefix_get hp ho'))
    have := (List.getElem?_eq_some_iff.1 ho').1
    have := hfresh r (.here r)
    omega

/-! ## What a step leaves as it was -/

theorem copySlots_prefix {f : Heap → List (ℕ × ℕ) → ℕ → Option (Heap × List (ℕ × ℕ) × ℕ)}
    (hf : ∀ h memo r h' memo' r', f h memo r = some (h', memo', r') → h <+: h') :
    ∀ (cs : List Slot) (h : Heap) (memo : List (ℕ × ℕ)) (h' : Heap) (memo' : List (ℕ × ℕ)) (cs' : List Slot),
      deepCopy.copySlots f h memo cs = some (h', memo', cs') → h <+: h'
  | [], h, memo, h', memo', cs', e => by
      simp only [deepCopy.copySlots, Option.some.injEq, Prod.mk.injEq] at e
      rw [e.1]
  | .num q :: cs, h, memo, h', memo', cs', e => by
      simp only [deepCopy.copySlots] at e
      split at e
      · cases e
      · rename_i hr
        cases e
        exact copySlots_prefix hf cs h memo _ _ _ hr
  | .ref r :: cs, h, memo, h', memo', cs', e => by
      simp only [deepCopy.copySlots] at e
      split at e
      · cases e
      · rename_i hr1
        split at e
        · cases e
        · rename_i hr2
          cases e
          exact (hf _ _ _ _ _ _ hr1).trans (copySlots_prefix hf cs _ _ _ _ _ hr2)

theorem deepCopy_prefix : ∀ (n : ℕ) (h : Heap) (memo : List (ℕ × ℕ)) (r : ℕ) (h' : Heap) (memo' : List (ℕ × ℕ)) (r' : ℕ),
    deepCopy n h memo r = some (h', memo', r') → h <+: h'
  | 0, _, _, _, _, _, _, e => by simp [deepCopy] at e
  | n + 1, h, memo, r, h', memo', r', e => by
      simp only [deepCopy] at e
      split at e
      · cases e; exact List.prefix_rfl
      · split at e
        · cases e
        · split at e
          · cases e
          · rename_i hr
            simp only [alloc, Option.some.injEq, Prod.mk.injEq] at e
            obtain ⟨rfl, _, _⟩ := e
            exact (copySlots_prefix (deepCopy_prefix n) _ _ _ _ _ _ hr).trans (List.prefix_append _ _)

theorem deepCopy_new {n : ℕ} {h : Heap} {r : ℕ} {h' : Heap} {memo' : List (ℕ × ℕ)} {r' : ℕ}
    (e : deepCopy n h [] r = some (h', memo', r')) : h.length ≤ r' := by
  cases n with
  | zero => simp [deepCopy] at e
  | succ n =>
    simp only [deepCopy, List.lookup_nil] at e
    split at e
    · cases e
    · split at e
      · cases e
      · rename_i hr
        simp only [alloc, Option.some.injEq, Prod.mk.injEq] at e
        obtain ⟨_, _, rfl⟩ := e
        exact (copySlots_prefix (deepCopy_prefix n) _ _ _ _ _ _ hr).length_le

/-- Objects that are not operations without a child are as they were. -/
def Keeps (h h' : Heap) : Prop :=
  ∀ (s : ℕ) (o : MObj), h[s]? = some o → (o.info.isOp = true → o.children ≠ []) → h'[s]? = some o

theorem keeps_of_prefix {h h' : Heap} (hp : h <+: h') : Keeps h h' := fun _ _ ho _ => prefix_get hp ho

theorem applyOp_keeps {n : ℕ} {h h' : Heap} {op m r : ℕ} (e : applyOp n h op m = some (h', r)) : Keeps h h' := by
  intro s o' ho' hne
  obtain ⟨o, ho, hisop, h1 | h2⟩ := applyOp_cases e
  · obtain ⟨hch, rfl, rfl⟩ := h1
    refine set_other ?_ ho'
    rintro rfl
    rw [ho] at ho'
    cases ho'
    exact hne hisop hch
  · obtain ⟨_, h1, memo1, o1, hcopy, ho1, rfl⟩ := h2
    refine set_other ?_ (prefix_get (deepCopy_prefix _ _ _ _ _ _ _ hcopy) ho')
    have := (List.getElem?_eq_some_iff.1 ho').1
    have := deepCopy_new hcopy
    omega

/-! ## Pushing filters -/

theorem copyChildren_prefix (wh : List String) : ∀ (cs : List Slot) (h : Heap), h <+: (pushHeap.copyChildren wh h cs).1
  | [], h => List.prefix_rfl
  | .num q :: cs, h => copyChildren_prefix wh cs h
  | .ref r :: cs, h => by
      simp only [pushHeap.copyChildren]
      split
      · exact copyChildren_prefix wh cs h
      · exact (List.prefix_append _ _).trans (copyChildren_prefix wh cs _)

theorem pushSlots_prefix {f : Heap → ℕ → Option (Heap × ℕ)} (hf : ∀ h r h' r', f h r = some (h', r') → h <+: h') :
    ∀ (cs : List Slot) (h h' : Heap) (cs' : List Slot), pushHeap.pushSlots f h cs = some (h', cs') → h <+: h'
  | [], h, h', cs', e => by
      simp only [pushHeap.pushSlots, Option.some.injEq, Prod.mk.injEq] at e
      rw [e.1]
  | .num q :: cs, h, h', cs', e => by
      simp only [pushHeap.pushSlots] at e
      split at e
      · cases e
      · rename_i hr
        cases e
        exact pushSlots_prefix hf cs h _ _ hr
  | .ref r :: cs, h, h', cs', e => by
      simp only [pushHeap.pushSlots] at e
      split at e
      · cases e
      · rename_i hr1
        split at e
        · cases e
        · rename_i hr2
          cases e
          exact (hf _ _ _ _ hr1).trans (pushSlots_prefix hf cs _ _ _ hr2)

theorem copied_prefix (wh : List String) (h : Heap) (cs : List Slot) :
    h <+: (if wh = [] then (h, cs) else pushHeap.copyChildren wh h cs).1 := by
  split
  · exact List.prefix_rfl
  · exact copyChildren_prefix wh cs h

theorem pushHeap_prefix : ∀ (n : ℕ) (h : Heap) (r : ℕ) (h' : Heap) (r' : ℕ), pushHeap n h r = some (h', r') → h <+: h'
  | 0, _, _, _, _, e => by simp [pushHeap] at e
  | n + 1, h, r, h', r', e => by
      simp only [pushHeap] at e
      split at e
      · cases e
      · rename_i o ho
        split at e
        · split at e
          · cases e
          · rename_i hr
            cases e
            exact deepCopy_prefix _ _ _ _ _ _ _ hr
        · split at e
          · cases e
          · rename_i hr
            simp only [alloc, Option.some.injEq, Prod.mk.injEq] at e
            obtain ⟨rfl, _⟩ := e
            exact (copied_prefix o.info.wh h o.children).trans
              ((pushSlots_prefix (pushHeap_prefix n) _ _ _ _ hr).trans (List.prefix_append _ _))

theorem filtered_nil (t : MT) : t.filtered [] = t := by
  cases t <;> rfl

theorem pushedAll_map (acc : List String) : ∀ ts : List MT, pushedAll acc ts = ts.map (MT.pushed acc)
  | [] => rfl
  | t :: ts => by rw [pushedAll, pushedAll_map acc ts]; rfl

theorem pushed_filtered (acc : List String) (t : MT) : (t.filtered acc).pushed [] = t.pushed acc := by
  cases t with
  | num q => rfl
  | node i ts => cases ts <;> rfl

theorem copyChildren_trees (wh : List String) (hwh : wh ≠ []) : ∀ (cs : List Slot) (ts : List MT) (h : Heap),
    HasTrees h cs ts →
    HasTrees (pushHeap.copyChildren wh h cs).1 (pushHeap.copyChildren wh h cs).2 (ts.map (MT.filtered wh))
  | [], _, h, .nil => .nil
  | .num q :: cs, _, h, .num ht => .num (copyChildren_trees wh hwh cs _ h ht)
  | .ref r :: cs, _, h, .ref hr ht => by
      cases hr with
      | mk ho hc =>
        rename_i ts o ts'
        simp only [pushHeap.copyChildren, ho, List.map_cons]
        have hp : h <+: (alloc h { o with info := { o.info with wh := addWhere o.info.wh wh } }).1 :=
          List.prefix_append _ _
        have ih := copyChildren_trees wh hwh cs _ _ (ht.mono hp)
        refine .ref ?_ ih
        have hg : (alloc h { o with info := { o.info with wh := addWhere o.info.wh wh } }).1[h.length]?
            = some { o with info := { o.info with wh := addWhere o.info.wh wh } } := by simp [alloc]
        have h1 := HasTree.mk hg (hc.mono hp)
        have h2 := h1.mono (copyChildren_prefix wh cs _)
        simp only [MT.filtered, if_neg hwh]
        exact h2

theorem copied_trees (wh : List String) (cs : List Slot) (ts : List MT) (h : Heap) (ht : HasTrees h cs ts) :
    HasTrees (if wh = [] then (h, cs) else pushHeap.copyChildren wh h cs).1
      (if wh = [] then (h, cs) else pushHeap.copyChildren wh h cs).2 (ts.map (MT.filtered wh)) := by
  split
  · rename_i hwh
    subst hwh
    have : ts.map (MT.filtered []) = ts := by
      rw [show (MT.filtered []) = id from funext filtered_nil, List.map_id]
    rw [this]
    exact ht
  · rename_i hwh
    exact copyChildren_trees wh hwh cs ts h ht

theorem pushSlots_trees {f : Heap → ℕ → Option (Heap × ℕ)} (hpre : ∀ h r h' r', f h r = some (h', r') → h <+: h')
    (hf : ∀ h r t h' r', HasTree h r t → f h r = some (h', r') → HasTree h' r' (t.pushed [])) :
    ∀ (cs : List Slot) (ts : List MT) (h h' : Heap) (cs' : List Slot), HasTrees h cs ts →
      pushHeap.pushSlots f h cs = some (h', cs') → HasTrees h' cs' (ts.map (MT.pushed []))
  | [], _, h, h', cs', .nil, e => by
      simp only [pushHeap.pushSlots, Option.some.injEq, Prod.mk.injEq] at e
      obtain ⟨rfl, rfl⟩ := e
      exact .nil
  | .num q :: cs, _, h, h', cs', .num ht, e => by
      simp only [pushHeap.pushSlots] at e
      split at e
      · cases e
      · rename_i hr
        cases e
        exact .num (pushSlots_trees hpre hf cs _ h _ _ ht hr)
  | .ref r :: cs, _, h, h', cs', .ref hr ht, e => by
      simp only [pushHeap.pushSlots] at e
      split at e
      · cases e
      · rename_i hr1
        split at e
        · cases e
        · rename_i hr2
          cases e
          have p1 := hpre _ _ _ _ hr1
          have p2 := pushSlots_prefix hpre cs _ _ _ hr2
          exact .ref ((hf _ _ _ _ _ hr hr1).mono p2) (pushSlots_trees hpre hf cs _ _ _ _ (ht.mono p1) hr2)

theorem pushHeap_tree : ∀ (n : ℕ) (h : Heap) (r : ℕ) (t : MT) (h' : Heap) (r' : ℕ), HasTree h r t →
    pushHeap n h r = some (h', r') → HasTree h' r' (t.pushed [])
  | 0, _, _, _, _, _, _, e => by simp [pushHeap] at e
  | n + 1, h, r, t, h', r', ht, e => by
      cases ht with
      | mk ho hc =>
        rename_i o ts
        simp only [pushHeap, ho] at e
        split at e
        · rename_i hch
          split at e
          · cases e
          · rename_i hr
            cases e
            have := (deepCopy_spec (.mk ho hc) hr).2.1
            rw [hch] at hc
            cases hc
            exact this
        · rename_i hch
          split at e
          · cases e
          · rename_i h1 cs1 hr
            simp only [alloc, Option.some.injEq, Prod.mk.injEq] at e
            obtain ⟨rfl, rfl⟩ := e
            have h2 := pushSlots_trees (pushHeap_prefix n) (pushHeap_tree n) _ _ _ _ _ (copied_trees o.info.wh o.children ts h hc) hr
            have e2 : (ts.map (MT.filtered o.info.wh)).map (MT.pushed []) = pushedAll o.info.wh ts := by
              rw [pushedAll_map, List.map_map]
              congr 1
              funext t
              exact pushed_filtered o.info.wh t
            rw [e2] at h2
            have hp : h1 <+: h1 ++ [{ info := { o.info with wh := [] }, children := cs1 }] := List.prefix_append _ _
            have hg : (h1 ++ [{ info := { o.info with wh := [] }, children := cs1 }])[h1.length]?
                = some { info := { o.info with wh := [] }, children := cs1 } := by simp
            have h3 := HasTree.mk (o := { info := { o.info with wh := [] }, children := cs1 }) hg (h2.mono hp)
            cases ts with
            | nil =>
              cases hc' : o.children with
              | nil => exact absurd hc' hch
              | cons c cs => rw [hc'] at hc; cases hc
            | cons t ts => exact h3

theorem pushHeap_total : ∀ (n : ℕ) (h : Heap) (r : ℕ) (t : MT), HasTree h r t → t.depth ≤ n → (pushHeap n h r).isSome
  | 0, h, r, t, ht, hd => by
      cases ht with
      | mk => simp [MT.depth] at hd
  | n + 1, h, r, t, ht, hd => by
      cases ht with
      | mk ho hc =>
        rename_i o ts
        simp only [MT.depth, Nat.add_le_add_iff_right] at hd
        simp only [pushHeap, ho]
        split
        · rename_i hch
          rw [hch] at hc
          cases hc
          have h1 := deepCopy_total h 1 h [] r _ (memoOK_nil h) (HasTree.mk ho (by rw [hch]; exact .nil)) (by simp [MT.depth, depths])
          obtain ⟨x, hx⟩ := Option.isSome_iff_exists.1 h1
          simp [hx]
        · have slots : ∀ (cs : List Slot) (ts : List MT) (h : Heap), HasTrees h cs ts → depths ts ≤ n →
              (pushHeap.pushSlots (pushHeap n) h cs).isSome := by
            intro cs
            induction cs with
            | nil => intros; rfl
            | cons c cs ih =>
              intro ts h hc hd
              cases hc with
              | num hc =>
                simp only [depths] at hd
                have := ih _ h hc (le_trans (le_max_right _ _) hd)
                obtain ⟨x, hx⟩ := Option.isSome_iff_exists.1 this
                simp [pushHeap.pushSlots, hx]
              | ref hr hc =>
                simp only [depths] at hd
                have h1 := pushHeap_total n h _ _ hr (le_trans (le_max_left _ _) hd)
                obtain ⟨⟨h1, r1⟩, hx⟩ := Option.isSome_iff_exists.1 h1
                have := ih _ h1 (hc.mono (pushHeap_prefix _ _ _ _ _ hx)) (le_trans (le_max_right _ _) hd)
                obtain ⟨y, hy⟩ := Option.isSome_iff_exists.1 this
                simp [pushHeap.pushSlots, hx, hy]
          have hdf : ∀ ts : List MT, depths (ts.map (MT.filtered o.info.wh)) = depths ts := by
            intro ts
            induction ts with
            | nil => rfl
            | cons t ts ih =>
              simp only [List.map_cons, depths, ih]
              cases t <;> rfl
          have hs := slots _ _ _ (copied_trees o.info.wh o.children ts h hc) (by rw [hdf]; exact hd)
          obtain ⟨x, hx⟩ := Option.isSome_iff_exists.1 hs
          simp [hx]

/-! ## Changing an object -/

mutual
/-- The size of a tree. -/
def MT.size : MT → ℕ
  | .node _ ts => sizes ts + 1
  | .num _ => 0
/-- The sizes together. -/
def sizes : List MT → ℕ
  | [] => 0
  | t :: ts => t.size + sizes ts
end

theorem size_le_sizes : ∀ {ts : List MT} {t : MT}, t ∈ ts → t.size ≤ sizes ts
  | [], _, h => by cases h
  | u :: ts, t, h => by
      simp only [sizes]
      rcases List.mem_cons.1 h with rfl | h
      · omega
      · have := size_le_sizes h
        omega

theorem Within.size_le {h : Heap} {r s : ℕ} (hw : Within h r s) : ∀ {t u : MT}, HasTree h r t → HasTree h s u →
    u.size ≤ t.size := by
  induction hw with
  | here r => intro t u ht hu; rw [ht.unique hu]
  | child ho hm _ ih =>
    intro t u ht hu
    cases ht with
    | mk ho' hc =>
      rw [ho] at ho'
      cases ho'
      obtain ⟨v, hv, hcv⟩ := hc.mem _ hm
      have := ih hcv hu
      have := size_le_sizes hv
      simp only [MT.size]
      omega

/-- A metric is not inside of its own children. -/
theorem not_within_child {h : Heap} {r c : ℕ} {o : MObj} {ts : List MT} (ho : h[r]? = some o) (hc : HasTrees h o.children ts)
    (hm : Slot.ref c ∈ o.children) : ¬ Within h c r := by
  intro hw
  obtain ⟨t, ht, hct⟩ := hc.mem c hm
  have := hw.size_le hct (HasTree.mk ho hc)
  have := size_le_sizes ht
  simp only [MT.size] at *
  omega

/-- Changing what an object says about itself changes this in its metric and nothing else. -/
theorem set_info_tree {h : Heap} {r : ℕ} {i j : Info} {ts : List MT} (ht : HasTree h r (.node i ts)) {o : MObj}
    (ho : h[r]? = some o) : HasTree (h.set r { o with info := j }) r (.node j ts) := by
  obtain ⟨o', ho', rfl, hc⟩ := ht.obj
  rw [ho] at ho'
  cases ho'
  have hlt : r < h.length := (List.getElem?_eq_some_iff.1 ho).1
  have hg : (h.set r { o with info := j })[r]? = some { o with info := j } := by rw [List.getElem?_set_self hlt]
  refine HasTree.mk (o := { o with info := j }) hg (hc.frame fun c hm s hs o' ho' => set_other ?_ ho')
  rintro rfl
  exact not_within_child ho hc hm hs

theorem set_elsewhere {h : Heap} {r s : ℕ} {x : MObj} {t : MT} (ht : HasTree h r t) (hn : ¬ Within h r s) :
    HasTree (h.set s x) r t :=
  ht.frame fun a ha o ho => set_other (by rintro rfl; exact hn ha) ho

end Verif
