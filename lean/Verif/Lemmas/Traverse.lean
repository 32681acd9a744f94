import Verif.Spec.Traverse

namespace Verif

theorem IsNode.cons {m ch c : M} {i : Nat} {p : Path} (h : m.children[i]? = some ch)
    (hc : IsNode ch p c) : IsNode m (i :: p) c := by
  induction hc with
  | root => exact .child (p := []) .root h
  | child _ h2 ih =>
    rw [← List.cons_append]
    exact .child ih h2

theorem isNode_iff {m c : M} {p : Path} : IsNode m p c ↔
    (p = [] ∧ c = m) ∨ ∃ i ch p', m.children[i]? = some ch ∧ IsNode ch p' c ∧ p = i :: p' := by
  constructor
  · intro h
    induction h with
    | root => exact Or.inl ⟨rfl, rfl⟩
    | @child p m' i c' h1 h2 ih =>
      right
      rcases ih with ⟨rfl, rfl⟩ | ⟨j, ch, p', h3, h4, rfl⟩
      · exact ⟨i, c', [], h2, .root, rfl⟩
      · exact ⟨j, ch, p' ++ [i], h3, .child h4 h2, rfl⟩
  · rintro (⟨rfl, rfl⟩ | ⟨i, ch, p', h1, h2, rfl⟩)
    · exact .root
    · exact IsNode.cons h1 h2

theorem mem_childrenAt {p p' : Path} {m c : M} :
    (p', c) ∈ m.childrenAt p ↔ ∃ i, m.children[i]? = some c ∧ p' = p ++ [i] := by
  unfold M.childrenAt
  rw [List.mem_map]
  constructor
  · rintro ⟨⟨a, i⟩, h, e⟩
    simp only [Prod.mk.injEq] at e
    rw [List.mem_zipIdx_iff_getElem?] at h
    exact ⟨i, by rw [← e.2]; exact h, e.1.symm⟩
  · rintro ⟨i, h, rfl⟩
    exact ⟨(c, i), List.mem_zipIdx_iff_getElem?.2 h, rfl⟩

/-- Output of the walk: descendants of the queue. -/
theorem mem_bfs (consts : Bool) (q : List (Path × M)) (p : Path) (c : M) :
    (p, c) ∈ bfs consts q ↔
      (c.isConst = true → consts = true) ∧
      ∃ x ∈ q, ∃ p', IsNode x.2 p' c ∧ p = x.1 ++ p' := by
  fun_induction bfs consts q with
  | case1 => simp
  | case2 p0 m q hc ih =>
    rw [ih]
    simp only [Bool.and_eq_true, Bool.not_eq_true'] at hc
    apply and_congr_right
    intro hcc
    constructor
    · rintro ⟨x, hx, p', h, e⟩
      rcases List.mem_append.1 hx with hx | hx
      · exact ⟨x, by simp [hx], p', h, e⟩
      · obtain ⟨i, h1, h2⟩ := mem_childrenAt.1 (show (x.1, x.2) ∈ _ from hx)
        exact ⟨(p0, m), by simp, i :: p', IsNode.cons h1 h, by rw [e, h2]; simp⟩
    · rintro ⟨x, hx, p', h, e⟩
      rcases List.mem_cons.1 hx with rfl | hx
      · rcases isNode_iff.1 h with ⟨rfl, rfl⟩ | ⟨i, ch, p'', h1, h2, rfl⟩
        · have := hcc hc.1
          rw [this] at hc; simp at hc
        · exact ⟨(p0 ++ [i], ch), by simp [mem_childrenAt, h1], p'', h2, by simp [e]⟩
      · exact ⟨x, by simp [hx], p', h, e⟩
  | case3 p0 m q hc ih =>
    simp only [Bool.and_eq_true, Bool.not_eq_true', not_and, Bool.not_eq_false] at hc
    rw [List.mem_cons, ih]
    constructor
    · rintro (h | ⟨hcc, x, hx, p', h, e⟩)
      · simp only [Prod.mk.injEq] at h
        obtain ⟨rfl, rfl⟩ := h
        exact ⟨hc, (p, c), by simp, [], .root, by simp⟩
      · refine ⟨hcc, ?_⟩
        rcases List.mem_append.1 hx with hx | hx
        · exact ⟨x, by simp [hx], p', h, e⟩
        · obtain ⟨i, h1, h2⟩ := mem_childrenAt.1 (show (x.1, x.2) ∈ _ from hx)
          exact ⟨(p0, m), by simp, i :: p', IsNode.cons h1 h, by rw [e, h2]; simp⟩
    · rintro ⟨hcc, x, hx, p', h, e⟩
      rcases List.mem_cons.1 hx with rfl | hx
      · rcases isNode_iff.1 h with ⟨rfl, rfl⟩ | ⟨i, ch, p'', h1, h2, rfl⟩
        · left; simp [e]
        · right
          exact ⟨hcc, (p0 ++ [i], ch), by simp [mem_childrenAt, h1], p'', h2, by simp [e]⟩
      · right
        exact ⟨hcc, x, by simp [hx], p', h, e⟩

/-- No path of the queue extends another. -/
def Incomp (q : List (Path × M)) : Prop :=
  q.Pairwise (fun x y => ¬ x.1 <+: y.1 ∧ ¬ y.1 <+: x.1)

theorem prefix_snoc {a b : Path} {i : Nat} (h : a <+: b ++ [i]) : a <+: b ∨ a = b ++ [i] := by
  obtain ⟨t, ht⟩ := h
  rcases List.eq_nil_or_concat t with rfl | ⟨t', x, rfl⟩
  · right; simpa using ht
  · left
    rw [List.concat_eq_append, ← List.append_assoc] at ht
    exact ⟨t', (List.append_inj' ht rfl).1⟩

theorem incomp_step {p0 : Path} {m : M} {q : List (Path × M)} (h : Incomp ((p0, m) :: q)) :
    Incomp (q ++ m.childrenAt p0) := by
  unfold Incomp at *
  rw [List.pairwise_cons] at h
  rw [List.pairwise_append]
  refine ⟨h.2, ?_, ?_⟩
  · unfold M.childrenAt
    rw [List.pairwise_map]
    have hz : (m.children.zipIdx.map Prod.snd).Nodup := by
      rw [List.zipIdx_map_snd]
      exact List.nodup_range'
    rw [List.Nodup, List.pairwise_map] at hz
    refine hz.imp ?_
    intro a b hab
    constructor
    · intro hp
      have := hp.eq_of_length (by simp)
      simp at this
      exact hab this
    · intro hp
      have := hp.eq_of_length (by simp)
      simp at this
      exact hab this.symm
  · intro a ha b hb
    obtain ⟨i, _, h2⟩ := mem_childrenAt.1 (show (b.1, b.2) ∈ _ from hb)
    have ha' := h.1 a ha
    rw [h2]
    constructor
    · intro hp
      rcases prefix_snoc hp with hp | hp
      · exact ha'.2 hp
      · apply ha'.1
        rw [hp]
        exact List.prefix_append _ _
    · intro hp
      exact ha'.1 ((List.prefix_append _ _).trans hp)

theorem bfs_nodup (consts : Bool) (q : List (Path × M)) (h : Incomp q) :
    ((bfs consts q).map Prod.fst).Nodup := by
  fun_induction bfs consts q with
  | case1 => simp
  | case2 p0 m q hc ih => exact ih (incomp_step h)
  | case3 p0 m q hc ih =>
    rw [List.map_cons, List.nodup_cons]
    refine ⟨?_, ih (incomp_step h)⟩
    intro hm
    obtain ⟨⟨p, c⟩, hx, e⟩ := List.mem_map.1 hm
    simp only at e
    subst e
    obtain ⟨_, x, hxq, p', _, e⟩ := (mem_bfs consts _ _ _).1 hx
    rcases List.mem_append.1 hxq with hxq | hxq
    · have := (List.pairwise_cons.1 h).1 x hxq
      exact this.2 ⟨p', e.symm⟩
    · obtain ⟨i, _, h2⟩ := mem_childrenAt.1 (show (x.1, x.2) ∈ _ from hxq)
      rw [h2] at e
      have := congrArg List.length e
      simp at this

/-- A node that was not in the queue comes after its parent. -/
theorem bfs_parent_first (consts : Bool) (q : List (Path × M)) (a b : List (Path × M))
    (p : Path) (i : Nat) (c : M) (h : bfs consts q = a ++ (p ++ [i], c) :: b) :
    (∃ x ∈ q, x.1 = p ++ [i]) ∨ ∃ m, (p, m) ∈ a := by
  fun_induction bfs consts q generalizing a with
  | case1 => simp at h
  | case2 p0 m q hc ih =>
    rcases ih a h with ⟨x, hx, e⟩ | h
    · rcases List.mem_append.1 hx with hx | hx
      · exact Or.inl ⟨x, by simp [hx], e⟩
      · obtain ⟨j, h1, _⟩ := mem_childrenAt.1 (show (x.1, x.2) ∈ _ from hx)
        cases m <;> simp [M.isConst, M.children] at hc h1
    · exact Or.inr h
  | case3 p0 m q hc ih =>
    cases a with
    | nil =>
      simp only [List.nil_append, List.cons.injEq] at h
      exact Or.inl ⟨(p0, m), by simp, by rw [h.1]⟩
    | cons y a =>
      simp only [List.cons_append, List.cons.injEq] at h
      rcases ih a h.2 with ⟨x, hx, e⟩ | ⟨m', hm'⟩
      · rcases List.mem_append.1 hx with hx | hx
        · exact Or.inl ⟨x, by simp [hx], e⟩
        · obtain ⟨j, h1, h2⟩ := mem_childrenAt.1 (show (x.1, x.2) ∈ _ from hx)
          rw [h2] at e
          have := (List.append_inj' e rfl).1
          right
          exact ⟨m, by rw [← h.1, ← this]; simp⟩
      · exact Or.inr ⟨m', by simp [hm']⟩

end Verif
