import Verif.Props.SqlWith
import Verif.Spec.WithMeaning

/-!
# C24: combining two WITH clauses

/repo/sql.py:636-691.
-/

namespace Verif

theorem meaningsFrom_append (env : List (Txt × Meaning)) (l l' : List (Txt × List Txt)) :
    meaningsFrom env (l ++ l') = meaningsFrom (meaningsFrom env l) l' := by
  induction l generalizing env with
  | nil => rfl
  | cons p l ih => exact ih _

theorem meanings_snoc (l : List (Txt × List Txt)) (n : Txt) (t : List Txt) :
    meanings (l ++ [(n, t)]) = meanings l ++ [(n, .query (t.map (wordMeaning (meanings l))))] := by
  rw [meanings, meaningsFrom_append]; rfl

theorem meanings_names (l : List (Txt × List Txt)) : (meanings l).map Prod.fst = l.map Prod.fst := by
  induction l using List.reverseRecOn with
  | nil => rfl
  | append_singleton l p ih => rw [meanings_snoc, List.map_append, List.map_append, ih]; rfl

theorem lookup_none_iff {β : Type} {l : List (Txt × β)} {x : Txt} : l.lookup x = none ↔ x ∉ l.map Prod.fst := by
  induction l with
  | nil => simp
  | cons p l ih =>
    obtain ⟨a, b⟩ := p
    rw [List.lookup_cons]
    by_cases h : x = a
    · subst h; simp
    · simp only [beq_eq_false_iff_ne.2 h, ih, List.map_cons, List.mem_cons, h, false_or]

theorem lookup_append' {β : Type} (l l' : List (Txt × β)) (x : Txt) : (l ++ l').lookup x = (l.lookup x).or (l'.lookup x) := by
  induction l with
  | nil => simp
  | cons p l ih =>
    obtain ⟨a, b⟩ := p
    rw [List.cons_append, List.lookup_cons, List.lookup_cons]
    cases x == a <;> simp [ih]

theorem mem_of_lookup24 {β : Type} {l : List (Txt × β)} {x : Txt} {y : β} (h : l.lookup x = some y) : (x, y) ∈ l := by
  induction l with
  | nil => simp at h
  | cons p l ih =>
    obtain ⟨a, b⟩ := p
    rw [List.lookup_cons] at h
    by_cases e : x = a
    · subst e
      simp only [beq_self_eq_true, Option.some.injEq] at h
      subst h
      exact List.mem_cons_self
    · simp only [beq_eq_false_iff_ne.2 e] at h
      exact List.mem_cons_of_mem _ (ih h)

/-- Every name means the text it stands for, with the words meaning what they mean in the whole clause. -/
def Fixed (l : List (Txt × List Txt)) : Prop :=
  ∀ n t, (n, t) ∈ l → (meanings l).lookup n = some (.query (t.map (wordMeaning (meanings l))))

theorem wordMeaning_snoc {l : List (Txt × List Txt)} {n : Txt} {t : List Txt} {x : Txt} (h : x ≠ n ∨ n ∈ l.map Prod.fst) :
    wordMeaning (meanings (l ++ [(n, t)])) x = wordMeaning (meanings l) x := by
  rw [wordMeaning, wordMeaning, meanings_snoc, lookup_append']
  cases hl : (meanings l).lookup x with
  | some m => rfl
  | none =>
    rcases h with h | h
    · simp [List.lookup_cons, beq_eq_false_iff_ne.2 h]
    · rw [lookup_none_iff, meanings_names] at hl
      have : x ≠ n := fun e => hl (e ▸ h)
      simp [List.lookup_cons, beq_eq_false_iff_ne.2 this]

/-- A table is added at the end: nothing else changes. -/
theorem fixed_snoc {l : List (Txt × List Txt)} (h : Fixed l) {n : Txt} {t : List Txt} (hn : n ∉ l.map Prod.fst) (hs : ∀ p ∈ l, n ∉ p.2) (ht : n ∉ t) :
    Fixed (l ++ [(n, t)]) ∧ ∀ x ∈ l.map Prod.fst, (meanings (l ++ [(n, t)])).lookup x = (meanings l).lookup x := by
  have hold : ∀ x ∈ l.map Prod.fst, (meanings (l ++ [(n, t)])).lookup x = (meanings l).lookup x := by
    intro x hx
    rw [meanings_snoc, lookup_append']
    cases hl : (meanings l).lookup x with
    | some m => rfl
    | none => rw [lookup_none_iff, meanings_names] at hl; exact absurd hx hl
  have hw : ∀ u : List Txt, n ∉ u → u.map (wordMeaning (meanings (l ++ [(n, t)]))) = u.map (wordMeaning (meanings l)) := by
    intro u hu
    apply List.map_congr_left
    intro x hx
    exact wordMeaning_snoc (Or.inl fun e => hu (e ▸ hx))
  refine ⟨?_, hold⟩
  intro a u hu
  rcases List.mem_append.1 hu with hu | hu
  · rw [hold a (List.mem_map.2 ⟨(a, u), hu, rfl⟩), h a u hu, hw u (hs _ hu)]
  · obtain ⟨rfl, rfl⟩ : a = n ∧ u = t := by simpa using hu
    rw [hw u ht, meanings_snoc, lookup_append', lookup_none_iff.2 (by rw [meanings_names]; exact hn)]
    simp

theorem fixed_of_scoped {l : List (Txt × List Txt)} (h : Scoped l) : Fixed l := by
  obtain ⟨hn, hs⟩ := h
  induction l using List.reverseRecOn with
  | nil => intro n t h; simp at h
  | append_singleton l p ih =>
    obtain ⟨n, t⟩ := p
    rw [List.map_append, List.nodup_append] at hn
    obtain ⟨h1, -, h3⟩ := hn
    have hl : Fixed l := ih h1 fun l1 a u l2 e x hx hm => hs l1 a u (l2 ++ [(n, t)]) (by rw [e]; simp) x hx (by
      rw [List.map_cons, List.map_append, List.mem_cons, List.mem_append]
      rw [List.map_cons, List.mem_cons] at hm
      tauto)
    refine (fixed_snoc hl (fun hm => h3 n hm n (by simp) rfl) ?_ ?_).1
    · intro p hp hx
      obtain ⟨l1, l2, e⟩ := List.append_of_mem hp
      exact hs l1 p.1 p.2 (l2 ++ [(n, t)]) (by rw [e]; simp) n hx (by simp)
    · intro hx
      exact hs l n t [] rfl n hx (by simp)

/-- What `add` does to a clause of texts. -/
theorem addOne_raw {l : List (Txt × List Txt)} (hn : (l.map Prod.fst).Nodup) {a : Txt} {t : List Txt} {w' : With} {b : Txt}
    (h : addOne (asWith l) a (.raw t) = some (w', b)) :
    (w' = asWith l ∧ (b, t) ∈ l) ∨ (w' = asWith (l ++ [(b, t)]) ∧ b ∉ l.map Prod.fst) := by
  have hok : (asWith l).Ok := by
    refine ⟨?_, ?_⟩
    · rw [With.namesOk, asWith, List.map_map]; exact hn
    · intro p hp q hq
      obtain ⟨r, -, rfl⟩ := List.mem_map.1 hp
      cases hq
  obtain ⟨h1, -, h3, t', h4, h5⟩ := addTable_spec hok _ a (.raw t) w' b (by intro q hq; cases hq) h
  have ht : t' = .raw t := by
    rcases h5 with h5 | h5 | h5
    · exact h5
    · cases t' with
      | raw x => simp [WTbl.same] at h5; rw [h5]
      | sql q => cases h5
    · cases t' with
      | raw x => simp [WTbl.same] at h5; rw [h5]
      | sql q => cases h5
  subst ht
  rcases h3 with rfl | rfl
  · left
    refine ⟨rfl, ?_⟩
    obtain ⟨r, hr, e⟩ := List.mem_map.1 (lookup_mem h4)
    simp only [Prod.mk.injEq, WTbl.raw.injEq] at e
    rw [← e.1, ← e.2]
    exact hr
  · right
    refine ⟨by simp [asWith], ?_⟩
    have := h1.names
    rw [With.namesOk, List.map_append, List.nodup_append] at this
    intro hm
    refine this.2.2 b ?_ b (by simp) rfl
    rw [asWith, List.map_map]
    exact hm

/-- The new name of a word. -/
def newName (tr : List (Txt × Txt)) (x : Txt) : Txt := (tr.lookup x).getD x

/-- The state after some tables `done` of the clause `other` were added to the clause `l0`, under the names in `tr`. -/
structure Inv24 (l0 other l done : List (Txt × List Txt)) (tr : List (Txt × Txt)) : Prop where
  nodup : (l.map Prod.fst).Nodup
  fixed : Fixed l
  names : tr.map Prod.fst = done.map Prod.fst
  mean : ∀ a b, (a, b) ∈ tr → b ∈ l.map Prod.fst ∧ (meanings l).lookup b = (meanings done).lookup a
  free : ∀ a b, (a, b) ∈ tr → b ≠ a → b ∉ other.map Prod.fst ∧ ¬ Mentions other b
  from_ : ∀ n ∈ l.map Prod.fst, n ∈ l0.map Prod.fst ∨ ∃ a, (a, n) ∈ tr
  words : ∀ p ∈ l, p ∈ l0 ∨ ∃ q ∈ done, p.2 = q.2.map (newName tr)
  old : ∀ n ∈ l0.map Prod.fst, n ∈ l.map Prod.fst ∧ (meanings l).lookup n = (meanings l0).lookup n

theorem newName_some {tr : List (Txt × Txt)} {x y : Txt} (h : tr.lookup x = some y) : newName tr x = y := by
  rw [newName, h]; rfl

theorem newName_none {tr : List (Txt × Txt)} {x : Txt} (h : tr.lookup x = none) : newName tr x = x := by
  rw [newName, h]; rfl

theorem newName_snoc_ne {tr : List (Txt × Txt)} {a b x : Txt} (h : x ≠ a) : newName (tr ++ [(a, b)]) x = newName tr x := by
  rw [newName, newName, lookup_append']
  simp [List.lookup_cons, beq_eq_false_iff_ne.2 h]

theorem newName_snoc_self {tr : List (Txt × Txt)} {a b : Txt} (h : a ∉ tr.map Prod.fst) : newName (tr ++ [(a, b)]) a = b := by
  rw [newName, lookup_append', lookup_none_iff.2 h]
  simp

/-- Words of the next table. -/
theorem Inv24.word {l0 other l done : List (Txt × List Txt)} {tr : List (Txt × Txt)} (h : Inv24 l0 other l done tr) {x : Txt}
    (hx : Mentions other x) (hc : x ∉ done.map Prod.fst → x ∉ l0.map Prod.fst) :
    wordMeaning (meanings l) (newName tr x) = wordMeaning (meanings done) x := by
  cases hl : tr.lookup x with
  | some y =>
    rw [newName_some hl, wordMeaning, wordMeaning]
    obtain ⟨h1, h2⟩ := h.mean x y (mem_of_lookup24 hl)
    rw [← h2]
    cases hm : (meanings l).lookup y with
    | some m => rfl
    | none => rw [lookup_none_iff, meanings_names] at hm; exact absurd h1 hm
  | none =>
    rw [newName_none hl, wordMeaning, wordMeaning]
    have hd : x ∉ done.map Prod.fst := h.names ▸ lookup_none_iff.1 hl
    have hd' : (meanings done).lookup x = none := lookup_none_iff.2 (by rw [meanings_names]; exact hd)
    rw [hd', lookup_none_iff.2]
    rw [meanings_names]
    intro hm
    rcases h.from_ x hm with h1 | ⟨a, h1⟩
    · exact hc hd h1
    · by_cases e : x = a
      · subst e
        exact lookup_none_iff.1 hl (List.mem_map.2 ⟨_, h1, rfl⟩)
      · exact (h.free a x h1 e).2 hx

/-- One table. -/
theorem Inv24.step {l0 other l done rest : List (Txt × List Txt)} {tr : List (Txt × Txt)} (h : Inv24 l0 other l done tr) {a : Txt} {t : List Txt}
    (he : other = done ++ (a, t) :: rest) (hs : Scoped other)
    (hc1 : ∀ x ∈ t, x ∉ done.map Prod.fst → x ∉ l0.map Prod.fst) {w' : With} {b : Txt}
    (hadd : addOne (asWith l) a (.raw (t.map (newName tr))) = some (w', b))
    (hc2 : b ≠ a → b ∉ other.map Prod.fst ∧ ¬ Mentions other b) (hc3 : b ∉ l0.map Prod.fst → ¬ Mentions l0 b) :
    ∃ l', w' = asWith l' ∧ Inv24 l0 other l' (done ++ [(a, t)]) (tr ++ [(a, b)]) := by
  have hin : (a, t) ∈ other := by rw [he]; simp
  have had : a ∉ done.map Prod.fst := by
    have := hs.1
    rw [he, List.map_append, List.nodup_append] at this
    exact fun hm => this.2.2 a hm a (by simp) rfl
  have hat : a ∉ t := fun hx => hs.2 done a t rest he a hx (by simp)
  have hdone : ∀ q ∈ done, a ∉ q.2 := by
    intro q hq hx
    obtain ⟨l1, l2, e⟩ := List.append_of_mem hq
    exact hs.2 l1 q.1 q.2 (l2 ++ (a, t) :: rest) (by rw [he, e]; simp) a hx (by simp)
  have hdo : ∀ q ∈ done, q ∈ other := fun q hq => by rw [he]; exact List.mem_append_left _ hq
  have hmt : (t.map (newName tr)).map (wordMeaning (meanings l)) = t.map (wordMeaning (meanings done)) := by
    rw [List.map_map]
    apply List.map_congr_left
    intro x hx
    exact h.word ⟨_, hin, hx⟩ (hc1 x hx)
  have hma : (meanings (done ++ [(a, t)])).lookup a = some (.query (t.map (wordMeaning (meanings done)))) := by
    rw [meanings_snoc, lookup_append', lookup_none_iff.2 (by rw [meanings_names]; exact had)]
    simp
  have hmo : ∀ x ∈ done.map Prod.fst, (meanings (done ++ [(a, t)])).lookup x = (meanings done).lookup x := by
    intro x hx
    rw [meanings_snoc, lookup_append']
    cases hl : (meanings done).lookup x with
    | some m => rfl
    | none => rw [lookup_none_iff, meanings_names] at hl; exact absurd hx hl
  have hnm : (tr ++ [(a, b)]).map Prod.fst = (done ++ [(a, t)]).map Prod.fst := by
    rw [List.map_append, List.map_append, h.names]; rfl
  have htr : ∀ x y, (x, y) ∈ tr → x ∈ done.map Prod.fst := fun x y hxy => h.names ▸ List.mem_map.2 ⟨_, hxy, rfl⟩
  have hfree : ∀ a' b', (a', b') ∈ tr ++ [(a, b)] → b' ≠ a' → b' ∉ other.map Prod.fst ∧ ¬ Mentions other b' := by
    intro a' b' hm hne
    rcases List.mem_append.1 hm with hm | hm
    · exact h.free a' b' hm hne
    · obtain ⟨rfl, rfl⟩ : a' = a ∧ b' = b := by simpa using hm
      exact hc2 hne
  have hwords : ∀ q ∈ done, q.2.map (newName (tr ++ [(a, b)])) = q.2.map (newName tr) := by
    intro q hq
    apply List.map_congr_left
    intro x hx
    exact newName_snoc_ne fun e => hdone q hq (e ▸ hx)
  have hwt : t.map (newName (tr ++ [(a, b)])) = t.map (newName tr) := by
    apply List.map_congr_left
    intro x hx
    exact newName_snoc_ne fun e => hat (e ▸ hx)
  rcases addOne_raw h.nodup hadd with ⟨rfl, hb⟩ | ⟨rfl, hb⟩
  · refine ⟨l, rfl, h.nodup, h.fixed, hnm, ?_, hfree, ?_, ?_, h.old⟩
    · intro a' b' hm
      rcases List.mem_append.1 hm with hm | hm
      · rw [hmo a' (htr _ _ hm)]
        exact h.mean a' b' hm
      · obtain ⟨rfl, rfl⟩ : a' = a ∧ b' = b := by simpa using hm
        exact ⟨List.mem_map.2 ⟨_, hb, rfl⟩, by rw [h.fixed _ _ hb, hma, hmt]⟩
    · intro n hn
      rcases h.from_ n hn with h1 | ⟨a', h1⟩
      · exact Or.inl h1
      · exact Or.inr ⟨a', List.mem_append_left _ h1⟩
    · intro p hp
      rcases h.words p hp with h1 | ⟨q, hq, e⟩
      · exact Or.inl h1
      · exact Or.inr ⟨q, List.mem_append_left _ hq, by rw [hwords q hq, e]⟩
  · have hb0 : b ∉ l0.map Prod.fst := fun hm => hb (h.old b hm).1
    have hno : ∀ u : List Txt, (∀ x ∈ u, Mentions other x) → a ∉ u → b ∉ u.map (newName tr) := by
      intro u hu hau hm
      obtain ⟨x, hx, e⟩ := List.mem_map.1 hm
      cases hl : tr.lookup x with
      | some y =>
        rw [newName_some hl] at e
        exact hb (e ▸ (h.mean x y (mem_of_lookup24 hl)).1)
      | none =>
        rw [newName_none hl] at e
        subst e
        by_cases e : x = a
        · exact hau (e ▸ hx)
        · exact (hc2 e).2 (hu x hx)
    have hbl : ∀ p ∈ l, b ∉ p.2 := by
      intro p hp hx
      rcases h.words p hp with h1 | ⟨q, hq, e⟩
      · exact hc3 hb0 ⟨p, h1, hx⟩
      · rw [e] at hx
        exact hno q.2 (fun x hx => ⟨q, hdo q hq, hx⟩) (hdone q hq) hx
    have hbt : b ∉ t.map (newName tr) := hno t (fun x hx => ⟨_, hin, hx⟩) hat
    obtain ⟨hf, hold⟩ := fixed_snoc h.fixed hb hbl hbt
    refine ⟨_, rfl, ?_, hf, hnm, ?_, hfree, ?_, ?_, ?_⟩
    · rw [List.map_append, List.nodup_append]
      refine ⟨h.nodup, by simp, ?_⟩
      intro x hx y hy e
      obtain rfl : y = b := by simpa using hy
      exact hb (e ▸ hx)
    · intro a' b' hm
      rcases List.mem_append.1 hm with hm | hm
      · obtain ⟨h1, h2⟩ := h.mean a' b' hm
        refine ⟨by rw [List.map_append]; exact List.mem_append_left _ h1, ?_⟩
        rw [hmo a' (htr _ _ hm), hold _ h1, h2]
      · obtain ⟨rfl, rfl⟩ : a' = a ∧ b' = b := by simpa using hm
        refine ⟨by simp, ?_⟩
        rw [hma, meanings_snoc, lookup_append', lookup_none_iff.2 (by rw [meanings_names]; exact hb), hmt]
        simp
    · intro n hn
      rw [List.map_append] at hn
      rcases List.mem_append.1 hn with hn | hn
      · rcases h.from_ n hn with h1 | ⟨a', h1⟩
        · exact Or.inl h1
        · exact Or.inr ⟨a', List.mem_append_left _ h1⟩
      · obtain rfl : n = b := by simpa using hn
        exact Or.inr ⟨a, by simp⟩
    · intro p hp
      rcases List.mem_append.1 hp with hp | hp
      · rcases h.words p hp with h1 | ⟨q, hq, e⟩
        · exact Or.inl h1
        · exact Or.inr ⟨q, List.mem_append_left _ hq, by rw [hwords q hq, e]⟩
      · obtain rfl : p = (b, t.map (newName tr)) := by simpa using hp
        exact Or.inr ⟨(a, t), by simp, by rw [hwt]⟩
    · intro n hn
      obtain ⟨h1, h2⟩ := h.old n hn
      refine ⟨by rw [List.map_append]; exact List.mem_append_left _ h1, ?_⟩
      rw [hold n h1, h2]

/-- Renaming one name after the names before. -/
theorem Inv24.rename {l0 other l done rest : List (Txt × List Txt)} {tr : List (Txt × Txt)} (h : Inv24 l0 other l done tr) {a b : Txt} {t : List Txt}
    (he : other = done ++ (a, t) :: rest) (hs : Scoped other) (u : List (Txt × List Txt)) :
    (if b = a then u.map (fun p => (p.1, p.2.map (newName tr)))
      else (u.map (fun p => (p.1, p.2.map (newName tr)))).map fun p => (p.1, renameWord a b p.2)) =
      u.map fun p => (p.1, p.2.map (newName (tr ++ [(a, b)]))) := by
  have hao : a ∈ other.map Prod.fst := by rw [he]; simp
  have had : a ∉ tr.map Prod.fst := by
    rw [h.names]
    have := hs.1
    rw [he, List.map_append, List.nodup_append] at this
    exact fun hm => this.2.2 a hm a (by simp) rfl
  by_cases hba : b = a
  · subst hba
    rw [if_pos rfl]
    apply List.map_congr_left
    intro p _
    congr 1
    apply List.map_congr_left
    intro x _
    by_cases hx : x = b
    · subst hx; rw [newName_snoc_self had, newName_none (lookup_none_iff.2 had)]
    · rw [newName_snoc_ne hx]
  · rw [if_neg hba, List.map_map]
    apply List.map_congr_left
    intro p _
    simp only [Function.comp, renameWord, List.map_map]
    congr 1
    apply List.map_congr_left
    intro x _
    simp only [Function.comp]
    by_cases hx : x = a
    · subst hx
      rw [newName_snoc_self had, newName_none (lookup_none_iff.2 had), if_pos rfl]
    · rw [newName_snoc_ne hx, if_neg]
      cases hl : tr.lookup x with
      | none => rw [newName_none hl]; exact hx
      | some y =>
        rw [newName_some hl]
        rintro rfl
        exact (h.free x y (mem_of_lookup24 hl) (Ne.symm hx)).1 hao

theorem Inv24.run {l0 other : List (Txt × List Txt)} (hs : Scoped other)
    (hc1 : ∀ l1 a t l2, other = l1 ++ (a, t) :: l2 → ∀ x ∈ t, x ∉ l1.map Prod.fst → x ∉ l0.map Prod.fst)
    (rest : List (Txt × List Txt)) : ∀ (l done : List (Txt × List Txt)) (tr tr' : List (Txt × Txt)) (w' : With),
    Inv24 l0 other l done tr → other = done ++ rest →
    extendWith rest.length (asWith l) (rest.map fun p => (p.1, p.2.map (newName tr))) = some w' →
    extendNames rest.length (asWith l) (rest.map fun p => (p.1, p.2.map (newName tr))) = some tr' →
    (∀ a b, (a, b) ∈ tr' → b ≠ a → b ∉ other.map Prod.fst ∧ ¬ Mentions other b) →
    (∀ a b, (a, b) ∈ tr' → b ∉ l0.map Prod.fst → ¬ Mentions l0 b) →
    ∃ l', w' = asWith l' ∧ Inv24 l0 other l' other (tr ++ tr') := by
  induction rest with
  | nil =>
    intro l done tr tr' w' h he hw ht _ _
    simp only [List.map_nil, List.length_nil, extendWith, extendNames, Option.some.injEq] at hw ht
    subst hw ht
    rw [List.append_nil] at he ⊢
    exact ⟨l, rfl, he ▸ h⟩
  | cons p rest ih =>
    obtain ⟨a, t⟩ := p
    intro l done tr tr' w' h he hw ht h2 h3
    simp only [List.map_cons, List.length_cons, extendWith, extendNames] at hw ht
    cases hadd : addOne (asWith l) a (.raw (t.map (newName tr))) with
    | none => rw [hadd] at hw; simp at hw
    | some r =>
      obtain ⟨w1, b⟩ := r
      rw [hadd] at hw ht
      simp only [Option.map_eq_some_iff] at hw ht
      rw [h.rename he hs] at hw ht
      obtain ⟨tr1, ht1, rfl⟩ := ht
      obtain ⟨l1, rfl, h1⟩ := h.step he hs (hc1 done a t rest he) hadd (h2 a b (by simp)) (h3 a b (by simp))
      obtain ⟨l', e, h'⟩ := ih l1 (done ++ [(a, t)]) (tr ++ [(a, b)]) tr1 w' h1 (by rw [he]; simp) hw ht1
        (fun x y hxy => h2 x y (List.mem_cons_of_mem _ hxy)) (fun x y hxy => h3 x y (List.mem_cons_of_mem _ hxy))
      exact ⟨l', e, by rw [List.append_assoc] at h'; exact h'⟩

/-- Two WITH clauses are combined: every table of the other clause means under its new name what it meant before, and the tables of the first clause
mean what they meant. Missing for the full claim: a table of the database with the name of a table of the first clause, and new names that
are words of the texts; /repo does not look at either. -/
theorem C24_extend_meaning_partial {l0 other : List (Txt × List Txt)} (h0 : Scoped l0) (hs : Scoped other) {w' : With} {tr : List (Txt × Txt)}
    (hw : extendWith other.length (asWith l0) other = some w') (htr : extendNames other.length (asWith l0) other = some tr)
    (hc1 : ∀ l1 a t l2, other = l1 ++ (a, t) :: l2 → ∀ x ∈ t, x ∉ l1.map Prod.fst → x ∉ l0.map Prod.fst)
    (hc2 : ∀ a b, (a, b) ∈ tr → b ≠ a → b ∉ other.map Prod.fst ∧ ¬ Mentions other b)
    (hc3 : ∀ a b, (a, b) ∈ tr → b ∉ l0.map Prod.fst → ¬ Mentions l0 b) :
    ∃ l', w' = asWith l' ∧ (l'.map Prod.fst).Nodup ∧ tr.map Prod.fst = other.map Prod.fst ∧
      (∀ a b, (a, b) ∈ tr → b ∈ l'.map Prod.fst ∧ (meanings l').lookup b = (meanings other).lookup a) ∧
      ∀ n ∈ l0.map Prod.fst, n ∈ l'.map Prod.fst ∧ (meanings l').lookup n = (meanings l0).lookup n := by
  have hid : ∀ l : List (Txt × List Txt), l.map (fun p => (p.1, p.2.map (newName []))) = l := by
    intro l
    have : newName [] = id := by funext x; rfl
    rw [this]; simp
  have h : Inv24 l0 other l0 [] [] := by
    refine ⟨h0.1, fixed_of_scoped h0, rfl, ?_, ?_, fun n hn => Or.inl hn, fun p hp => Or.inl hp, fun n hn => ⟨hn, rfl⟩⟩
    · intro a b hm; simp at hm
    · intro a b hm; simp at hm
  obtain ⟨l', e, h'⟩ := Inv24.run hs hc1 other l0 [] [] tr w' h rfl (by rw [hid]; exact hw) (by rw [hid]; exact htr) hc2 hc3
  exact ⟨l', e, h'.nodup, h'.names, h'.mean, h'.old⟩

/-- A clause with a table that reads another one. -/
def ex24A : List (Txt × List Txt) := [("T".toList, ["SELECT".toList, "x".toList, "FROM".toList, "db".toList])]
/-- Another clause with the same name for a different table. -/
def ex24B : List (Txt × List Txt) := [("T".toList, ["SELECT".toList, "y".toList, "FROM".toList, "db".toList]),
  ("U".toList, ["SELECT".toList, "z".toList, "FROM".toList, "T".toList])]

example : extendNames 2 (asWith ex24A) ex24B = some [("T".toList, "T_1".toList), ("U".toList, "U".toList)] ∧
    extendWith 2 (asWith ex24A) ex24B = some (asWith (ex24A ++ [("T_1".toList, ["SELECT".toList, "y".toList, "FROM".toList, "db".toList]),
      ("U".toList, ["SELECT".toList, "z".toList, "FROM".toList, "T_1".toList])])) := by decide +kernel

/-- Checking `Scoped` from the front. -/
theorem scoped_of {l : List (Txt × List Txt)} (hn : (l.map Prod.fst).Nodup)
    (h : l.Pairwise fun p q => q.1 ∉ p.2) (hr : ∀ p ∈ l, p.1 ∉ p.2) : Scoped l := by
  refine ⟨hn, ?_⟩
  rintro l1 n t l2 rfl x hx hm
  rw [List.pairwise_append, List.pairwise_cons] at h
  rw [List.map_cons, List.mem_cons] at hm
  rcases hm with rfl | hm
  · exact hr (x, t) (by simp) hx
  · obtain ⟨q, hq, rfl⟩ := List.mem_map.1 hm
    exact h.2.1.1 q hq hx

theorem ex24A_scoped : Scoped ex24A := scoped_of (by decide +kernel) (by decide +kernel) (by decide +kernel)

theorem ex24B_scoped : Scoped ex24B := scoped_of (by decide +kernel) (by decide +kernel) (by decide +kernel)

/-- The hypotheses hold for two clauses that use one name for different tables, and a table that reads the one that is renamed. -/
example : ∃ l', extendWith 2 (asWith ex24A) ex24B = some (asWith l') ∧ (meanings l').lookup "U".toList = (meanings ex24B).lookup "U".toList := by
  obtain ⟨w', hw⟩ : ∃ w', extendWith 2 (asWith ex24A) ex24B = some w' := Option.isSome_iff_exists.1 (by decide +kernel)
  obtain ⟨l', rfl, -, -, h, -⟩ := C24_extend_meaning_partial (tr := [("T".toList, "T_1".toList), ("U".toList, "U".toList)]) ex24A_scoped ex24B_scoped hw
    (by decide +kernel)
    (by
      intro l1 a t l2 e x hx hn
      match l1, e with
      | [], e =>
        obtain ⟨⟨rfl, rfl⟩, -⟩ : (("T".toList = a) ∧ (["SELECT".toList, "y".toList, "FROM".toList, "db".toList] = t)) ∧ _ := by
          simpa only [ex24B, List.nil_append, List.cons.injEq, Prod.mk.injEq] using e
        revert hn; revert x; decide +kernel
      | [p], e =>
        obtain ⟨rfl, ⟨rfl, rfl⟩, -⟩ : ("T".toList, ["SELECT".toList, "y".toList, "FROM".toList, "db".toList]) = p ∧
            (("U".toList = a) ∧ (["SELECT".toList, "z".toList, "FROM".toList, "T".toList] = t)) ∧ _ := by
          simpa only [ex24B, List.cons_append, List.nil_append, List.cons.injEq, Prod.mk.injEq] using e
        revert hn; revert x; decide +kernel
      | p :: q :: l1, e => simp [ex24B] at e)
    (by
      intro a b hm hne
      have hb : b = "T_1".toList := by
        simp only [List.mem_cons, Prod.mk.injEq, List.not_mem_nil, or_false] at hm
        rcases hm with ⟨-, h⟩ | ⟨h1, h2⟩
        · exact h
        · exact absurd (h2.trans h1.symm) hne
      subst hb
      refine ⟨by decide +kernel, ?_⟩
      rintro ⟨p, hp, hx⟩
      revert hx; revert p; decide +kernel)
    (by
      intro a b hm _
      rintro ⟨p, hp, hx⟩
      have : ∀ r ∈ ([("T".toList, "T_1".toList), ("U".toList, "U".toList)] : List (Txt × Txt)), ∀ p ∈ ex24A, r.2 ∉ p.2 := by decide +kernel
      exact this (a, b) hm p hp hx)
  exact ⟨l', hw, (h "U".toList "U".toList (by simp)).2⟩

/-- Combining always ends. -/
theorem C24_extend_total (w : With) (other : List (Txt × List Txt)) :
    (extendWith other.length w other).isSome ∧ (extendNames other.length w other).isSome := by
  suffices H : ∀ (n : ℕ) (w : With) (o : List (Txt × List Txt)), o.length = n → (extendWith n w o).isSome ∧ (extendNames n w o).isSome from H _ w other rfl
  intro n
  induction n with
  | zero =>
    intro w o ho
    rw [List.length_eq_zero_iff] at ho
    subst ho
    exact ⟨rfl, rfl⟩
  | succ n ih =>
    intro w o ho
    match o, ho with
    | (a, t) :: o, ho =>
      obtain ⟨⟨w1, b⟩, hr⟩ := Option.isSome_iff_exists.1 (C24_add_terminates w a (.raw t))
      simp only [extendWith, extendNames, hr, Option.isSome_map]
      apply ih
      split <;> simpa using ho

/-- A table of the database that has the name of a table of the first clause: the table that reads it reads the other one afterwards. -/
theorem C24_extend_capture_violation :
    let other : List (Txt × List Txt) := [("U".toList, ["SELECT".toList, "z".toList, "FROM".toList, "T".toList])]
    Scoped other ∧ extendWith 1 (asWith ex24A) other = some (asWith (ex24A ++ other)) ∧
      extendNames 1 (asWith ex24A) other = some [("U".toList, "U".toList)] ∧
      (meanings (ex24A ++ other)).lookup "U".toList ≠ (meanings other).lookup "U".toList := by
  refine ⟨scoped_of (by decide +kernel) (by decide +kernel) (by decide +kernel), by decide +kernel, by decide +kernel, ?_⟩
  have h1 : ("U".toList : Txt) ≠ "T".toList := by decide
  rw [meanings_snoc, lookup_append', lookup_none_iff.2 (by rw [meanings_names]; decide +kernel)]
  intro h
  simp only [meanings, meaningsFrom, ex24A, List.lookup_cons, List.nil_append, beq_self_eq_true, Option.none_or, Option.some.injEq, Meaning.query.injEq,
    List.map_cons, List.map_nil, List.cons.injEq, and_true] at h
  obtain ⟨-, -, -, h⟩ := h
  simp [wordMeaning] at h

end Verif
