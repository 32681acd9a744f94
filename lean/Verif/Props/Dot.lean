import Verif.Model.Dot
import Mathlib.Logic.Relation

/-!
# C102: the drawing shows the tree
-/

namespace Verif

/-- `c` occurs in the tree of `o`. -/
inductive InDraw (o : DObj) : DObj → Prop
  | root : InDraw o o
  | child {p c} : InDraw o p → c ∈ p.children → InDraw o c

/-- Addresses are what they are in Python: what occurs in the tree under one address is one object. -/
def OneObject (o : DObj) : Prop := ∀ p q, InDraw o p → InDraw o q → p.addr = q.addr → p = q

/-- The number of places in a tree. -/
def places : DObj → ℕ
  | .other _ _ => 1
  | .metric _ _ _ cs => 1 + (cs.attach.map fun c => places c.1).sum
decreasing_by
  exact DObj.sizeOf_lt_of_child (o := .metric _ _ _ cs) c.2

/-- The tree as one wants to see it: labels and addresses, and below them the children in their order. -/
inductive Seen where
  | node (addr : ℕ) (label : String) (children : List Seen)

/-- The tree of `o` as one wants to see it. -/
def DObj.seen : DObj → Seen
  | .other a t => .node a t []
  | .metric a n ws cs => .node a (DObj.metric a n ws cs).label (cs.attach.map fun c => c.1.seen)
decreasing_by
  exact DObj.sizeOf_lt_of_child (o := .metric _ _ _ cs) c.2

theorem places_eq (o : DObj) : places o = 1 + (o.children.map places).sum := by
  cases o with
  | other a t => simp [places, DObj.children]
  | metric a n ws cs => rw [places]; simp [DObj.children]

theorem seen_eq (o : DObj) : o.seen = .node o.addr o.label (o.children.map DObj.seen) := by
  cases o with
  | other a t => simp [DObj.seen, DObj.children, DObj.addr, DObj.label]
  | metric a n ws cs => rw [DObj.seen]; simp [DObj.children, DObj.addr]

theorem dotEdges_eq (o : DObj) : o.dotEdges = DObj.dotEdgesAll o.addr o.children := by
  cases o <;> simp [DObj.dotEdges, DObj.addr, DObj.children, DObj.dotEdgesAll]

theorem InDraw.trans {o p q : DObj} (h : InDraw o p) (h' : InDraw p q) : InDraw o q := by
  induction h' with
  | root => exact h
  | child _ hc ih => exact ih.child hc

theorem occurs_iff (o q : DObj) : InDraw o q ↔ q = o ∨ ∃ c ∈ o.children, InDraw c q := by
  constructor
  · intro h
    induction h with
    | root => exact Or.inl rfl
    | @child p c hp hc ih =>
      rcases ih with rfl | ⟨d, hd, h⟩
      · exact Or.inr ⟨c, hc, .root⟩
      · exact Or.inr ⟨d, hd, h.child hc⟩
  · rintro (rfl | ⟨c, hc, h⟩)
    · exact .root
    · exact (InDraw.root.child hc).trans h

theorem InDraw.size {o q : DObj} (h : InDraw o q) : sizeOf q ≤ sizeOf o := by
  induction h with
  | root => exact le_rfl
  | child _ hc ih => exact le_of_lt (lt_of_lt_of_le (DObj.sizeOf_lt_of_child hc) ih)

theorem mem_walk (q : List DObj) (m : DObj) : m ∈ walk q ↔ ∃ o ∈ q, InDraw o m := by
  induction q using walk.induct with
  | case1 => simp [walk]
  | case2 o q ih =>
    rw [walk, List.mem_cons, ih]
    constructor
    · rintro (rfl | ⟨c, hc, h⟩)
      · exact ⟨m, by simp, .root⟩
      · rcases List.mem_append.1 hc with hc | hc
        · exact ⟨c, by simp [hc], h⟩
        · exact ⟨o, by simp, (InDraw.root.child hc).trans h⟩
    · rintro ⟨c, hc, h⟩
      rcases List.mem_cons.1 hc with rfl | hc
      · rcases (occurs_iff _ _).1 h with rfl | ⟨d, hd, h⟩
        · exact Or.inl rfl
        · exact Or.inr ⟨d, by simp [hd], h⟩
      · exact Or.inr ⟨c, by simp [hc], h⟩

theorem length_walk (q : List DObj) : (walk q).length = (q.map places).sum := by
  induction q using walk.induct with
  | case1 => simp [walk]
  | case2 o q ih =>
    rw [walk, List.length_cons, ih, List.map_append, List.sum_append, List.map_cons, List.sum_cons, places_eq o]
    omega

theorem mem_edgesAll (e : ℕ × ℕ) (a : ℕ) (cs : List DObj) :
    e ∈ DObj.dotEdgesAll a cs ↔ ∃ c ∈ cs, e = (a, c.addr) ∨ e ∈ c.dotEdges := by
  induction cs with
  | nil => simp [DObj.dotEdgesAll]
  | cons c cs ih =>
    rw [DObj.dotEdgesAll, List.mem_cons, List.mem_append, ih]
    simp only [List.mem_cons, exists_eq_or_imp, or_assoc]

theorem mem_dotEdges (e : ℕ × ℕ) (o : DObj) :
    e ∈ o.dotEdges ↔ ∃ p c, InDraw o p ∧ c ∈ p.children ∧ e = (p.addr, c.addr) := by
  rw [dotEdges_eq, mem_edgesAll]
  constructor
  · rintro ⟨c, hc, rfl | h⟩
    · exact ⟨o, c, .root, hc, rfl⟩
    · have := DObj.sizeOf_lt_of_child hc
      obtain ⟨p, d, hp, hd, rfl⟩ := (mem_dotEdges e c).1 h
      exact ⟨p, d, (InDraw.root.child hc).trans hp, hd, rfl⟩
  · rintro ⟨p, d, hp, hd, rfl⟩
    rcases (occurs_iff _ _).1 hp with rfl | ⟨c, hc, h⟩
    · exact ⟨d, hd, Or.inl rfl⟩
    · have := DObj.sizeOf_lt_of_child hc
      exact ⟨c, hc, Or.inr ((mem_dotEdges _ c).2 ⟨p, d, h, hd, rfl⟩)⟩
termination_by sizeOf o

theorem length_dotEdges (o : DObj) : o.dotEdges.length + 1 = places o := by
  have key : ∀ cs : List DObj, (∀ c ∈ cs, c.dotEdges.length + 1 = places c) →
      (DObj.dotEdgesAll o.addr cs).length = (cs.map places).sum := by
    intro cs
    induction cs with
    | nil => intro _; simp [DObj.dotEdgesAll]
    | cons c cs ih =>
      intro h
      rw [DObj.dotEdgesAll, List.length_cons, List.length_append, ih fun d hd => h d (by simp [hd]), List.map_cons, List.sum_cons,
        ← h c (by simp)]
      omega
  rw [dotEdges_eq, places_eq, key o.children fun c hc => ?_]
  · omega
  · have := DObj.sizeOf_lt_of_child hc
    exact length_dotEdges c
termination_by sizeOf o

/-- **C102** The nodes of the drawing are exactly the metrics and numbers of the tree, each under its own address and with its label. -/
theorem C102_nodes (o : DObj) (a : ℕ) (l : String) :
    (a, l) ∈ o.dotNodes ↔ ∃ p, InDraw o p ∧ p.addr = a ∧ p.label = l := by
  simp [DObj.dotNodes, mem_walk]

/-- **C102** What a label says: the name of the metric and, if the metric has a condition, the condition; the text of a number. -/
theorem C102_labels (a : ℕ) (n t : String) (c c' : String) (cs : List DObj) (hc : c ≠ "") :
    (DObj.metric a n [] cs).label = n ∧ (DObj.metric a n [c] cs).label = n ++ " where " ++ c ∧
    (c ≤ c' → (DObj.metric a n [c, c'] cs).label = n ++ " where " ++ ("(" ++ c ++ ") and (" ++ c' ++ ")") ∧
      (DObj.metric a n [c', c] cs).label = n ++ " where " ++ ("(" ++ c ++ ") and (" ++ c' ++ ")")) ∧
    (DObj.other a t).label = t := by
  refine ⟨rfl, by simp [DObj.label, Fp.whereText, hc], fun hle => ?_, rfl⟩
  have text : ∀ w w' : String, Fp.whereText [w, w'] = some (" and ".intercalate ((Fp.sortStr [w, w']).map fun c => "(" ++ c ++ ")")) :=
    fun _ _ => rfl
  have joined : " and ".intercalate (["(" ++ c ++ ")", "(" ++ c' ++ ")"]) = "(" ++ c ++ ") and (" ++ c' ++ ")" := by
    apply String.toList_injective
    simp [String.intercalate_cons_cons]
  have ne : "(" ++ c ++ ") and (" ++ c' ++ ")" ≠ "" := by
    intro h
    have := congrArg String.toList h
    simp at this
  have s1 : Fp.sortStr [c, c'] = [c, c'] := by simp [Fp.sortStr, List.orderedInsert, hle]
  have s2 : Fp.sortStr [c', c] = [c, c'] := by
    simp only [Fp.sortStr, List.insertionSort, List.foldr, List.orderedInsert]
    split
    · rename_i h
      rw [le_antisymm h hle]
    · rfl
  constructor
  · simp only [DObj.label, text, s1, List.map_cons, List.map_nil, joined, ne, if_false]
  · simp only [DObj.label, text, s2, List.map_cons, List.map_nil, joined, ne, if_false]

theorem strict_sub (es : List (ℕ × ℕ)) : (strictEdges es).Sublist es := by
  induction es with
  | nil => simp [strictEdges]
  | cons e es ih =>
    rw [strictEdges]
    exact (List.filter_sublist.trans ih).cons_cons e

theorem sameEdge_trans {e f g : ℕ × ℕ} (h : sameEdge e f) (h' : sameEdge f g) : sameEdge e g := by
  unfold sameEdge at *
  rcases h with rfl | rfl <;> rcases h' with rfl | rfl <;> simp

theorem strict_cover (es : List (ℕ × ℕ)) : ∀ e ∈ es, ∃ f ∈ strictEdges es, sameEdge f e := by
  induction es with
  | nil => simp
  | cons e es ih =>
    intro f hf
    rw [strictEdges]
    by_cases h : sameEdge e f
    · exact ⟨e, by simp, h⟩
    · rcases List.mem_cons.1 hf with rfl | hf
      · exact absurd (Or.inl rfl) h
      · obtain ⟨g, hg, hs⟩ := ih f hf
        by_cases h' : sameEdge e g
        · exact ⟨e, by simp, sameEdge_trans h' hs⟩
        · exact ⟨g, by simp [hg, h'], hs⟩

theorem strict_pairwise (es : List (ℕ × ℕ)) : (strictEdges es).Pairwise fun e f => ¬ sameEdge e f := by
  induction es with
  | nil => simp [strictEdges]
  | cons e es ih =>
    rw [strictEdges, List.pairwise_cons]
    refine ⟨fun f hf => ?_, ih.sublist List.filter_sublist⟩
    simpa using (List.mem_filter.1 hf).2

/-- The address of an object does not occur below it. -/
theorem below_ne {o p c q : DObj} (h1 : OneObject o) (hp : InDraw o p) (hc : c ∈ p.children) (hq : InDraw c q) : q.addr ≠ p.addr := by
  intro h
  have := h1 q p ((hp.child hc).trans hq) hp h
  subst this
  have := hq.size
  have := DObj.sizeOf_lt_of_child hc
  omega

/-- **C102** Two nodes are joined in the drawing, strict or not, exactly if the one is a child of the other. -/
theorem C102_edges (o : DObj) (strict : Bool) (a b : ℕ) :
    ((a, b) ∈ o.drawn strict ∨ (b, a) ∈ o.drawn strict) ↔
      ∃ p c, InDraw o p ∧ c ∈ p.children ∧ ((p.addr = a ∧ c.addr = b) ∨ (p.addr = b ∧ c.addr = a)) := by
  have plain : ((a, b) ∈ o.dotEdges ∨ (b, a) ∈ o.dotEdges) ↔
      ∃ p c, InDraw o p ∧ c ∈ p.children ∧ ((p.addr = a ∧ c.addr = b) ∨ (p.addr = b ∧ c.addr = a)) := by
    rw [mem_dotEdges, mem_dotEdges]
    constructor
    · rintro (⟨p, c, h1, h2, h3⟩ | ⟨p, c, h1, h2, h3⟩) <;> cases h3
      · exact ⟨p, c, h1, h2, Or.inl ⟨rfl, rfl⟩⟩
      · exact ⟨p, c, h1, h2, Or.inr ⟨rfl, rfl⟩⟩
    · rintro ⟨p, c, h1, h2, ⟨rfl, rfl⟩ | ⟨rfl, rfl⟩⟩
      · exact Or.inl ⟨p, c, h1, h2, rfl⟩
      · exact Or.inr ⟨p, c, h1, h2, rfl⟩
  cases strict with
  | false => simpa [DObj.drawn] using plain
  | true =>
    rw [← plain]
    simp only [DObj.drawn, if_true]
    constructor
    · rintro (h | h)
      · exact Or.inl ((strict_sub _).subset h)
      · exact Or.inr ((strict_sub _).subset h)
    · rintro (h | h)
      all_goals
        obtain ⟨f, hf, rfl | hs⟩ := strict_cover _ _ h
        · simp [hf]
        · have : f = (f.1, f.2) := rfl
          rw [hs] at hf
          simp [hf]

/-- **C102** A drawing that is not strict has a node for every place of the tree and one edge fewer; a strict one joins no two nodes
twice, drops an edge only for another one between the same parent and the same child, and keeps the edges in their order. -/
theorem C102_multiplicity (o : DObj) :
    o.dotNodes.length = places o ∧ (o.drawn false).length + 1 = places o ∧
    (o.drawn true).Sublist (o.drawn false) ∧ (o.drawn true).Pairwise (fun e f => ¬ sameEdge e f) ∧
    (OneObject o → ∀ e, e ∈ o.drawn true ↔ e ∈ o.drawn false) := by
  refine ⟨by simp [DObj.dotNodes, length_walk], length_dotEdges o, strict_sub _, strict_pairwise _, fun h1 e => ?_⟩
  refine ⟨fun h => (strict_sub _).subset h, fun h => ?_⟩
  have h : e ∈ o.dotEdges := h
  obtain ⟨f, hf, rfl | hs⟩ := strict_cover _ _ h
  · exact hf
  · exfalso
    obtain ⟨p, c, hp, hc, he⟩ := (mem_dotEdges _ _).1 h
    obtain ⟨p', c', hp', hc', hf'⟩ := (mem_dotEdges _ _).1 ((strict_sub _).subset hf)
    subst he
    subst hf'
    simp only [Prod.mk.injEq] at hs
    have e1 := h1 p' c hp' (hp.child hc) hs.1
    have e2 := h1 c' p (hp'.child hc') hp hs.2
    subst e1 e2
    have := DObj.sizeOf_lt_of_child hc
    have := DObj.sizeOf_lt_of_child hc'
    omega

/-- **C102** The drawing hangs together: every node is reached from the root's node along edges drawn, from parent to child. -/
theorem C102_connected (o : DObj) (h1 : OneObject o) (strict : Bool) (a : ℕ) (l : String) (h : (a, l) ∈ o.dotNodes) :
    Relation.ReflTransGen (fun x y => (x, y) ∈ o.drawn strict) o.addr a := by
  obtain ⟨p, hp, rfl, -⟩ := (C102_nodes o a l).1 h
  have key : ∀ p, InDraw o p → Relation.ReflTransGen (fun x y => (x, y) ∈ o.drawn false) o.addr p.addr := by
    intro p hp
    induction hp with
    | root => exact .refl
    | @child p c hp hc ih => exact ih.tail ((mem_dotEdges _ _).2 ⟨p, c, hp, hc, rfl⟩)
  cases strict with
  | false => exact key p hp
  | true =>
    exact Relation.ReflTransGen.mono (fun x y hxy => ((C102_multiplicity o).2.2.2.2 h1 (x, y)).2 hxy) _ _ (key p hp)

/-- **C102** No two objects share a node: nodes with one address are one object, with one label. -/
theorem C102_one_node_one_object (o : DObj) (h1 : OneObject o) (a : ℕ) (l l' : String) (h : (a, l) ∈ o.dotNodes)
    (h' : (a, l') ∈ o.dotNodes) : l = l' := by
  obtain ⟨p, hp, rfl, rfl⟩ := (C102_nodes o a l).1 h
  obtain ⟨q, hq, e, rfl⟩ := (C102_nodes o _ l').1 h'
  rw [h1 q p hq hp e]

theorem takeWhile_block (a : ℕ) (A B : List (ℕ × ℕ)) (hA : ∀ e ∈ A, e.1 ≠ a) (hB : ∀ e ∈ B.head?, e.1 = a) :
    (A ++ B).takeWhile (fun e => e.1 ≠ a) = A := by
  rw [List.takeWhile_append_of_pos (by simpa using hA)]
  cases B with
  | nil => simp
  | cons e B => simp [hB e (by simp)]

theorem edgesAll_head (a : ℕ) (cs : List DObj) : ∀ e ∈ (DObj.dotEdgesAll a cs).head?, e.1 = a := by
  cases cs <;> simp [DObj.dotEdgesAll]

/-- What is needed to read the edges back: below an object its address does not occur. -/
def Acyclic (o : DObj) : Prop := ∀ p c q, InDraw o p → c ∈ p.children → InDraw c q → q.addr ≠ p.addr

theorem Acyclic.child {o c : DObj} (h : Acyclic o) (hc : c ∈ o.children) : Acyclic c :=
  fun p d q hp hd hq => h p d q ((InDraw.root.child hc).trans hp) hd hq

theorem acyclic_src {o c : DObj} (h : Acyclic o) (hc : c ∈ o.children) : ∀ e ∈ c.dotEdges, e.1 ≠ o.addr := by
  intro e he
  obtain ⟨p, d, hp, hd, rfl⟩ := (mem_dotEdges _ _).1 he
  exact h o c p .root hc hp

theorem read_all (f : ℕ → String) (a : ℕ) : ∀ cs ds : List DObj,
    (∀ c ∈ cs, ∀ e ∈ c.dotEdges, e.1 ≠ a) → (∀ d ∈ ds, ∀ e ∈ d.dotEdges, e.1 ≠ a) →
    (∀ c ∈ cs, ∀ d, d.addr = c.addr → d ∈ ds → c.dotEdges = d.dotEdges → c.seen = d.seen) →
    DObj.dotEdgesAll a cs = DObj.dotEdgesAll a ds → cs.map DObj.seen = ds.map DObj.seen
  | [], [], _, _, _, _ => rfl
  | [], d :: ds, _, _, _, h => by simp [DObj.dotEdgesAll] at h
  | c :: cs, [], _, _, _, h => by simp [DObj.dotEdgesAll] at h
  | c :: cs, d :: ds, h1, h2, h3, h => by
      simp only [DObj.dotEdgesAll, List.cons.injEq, Prod.mk.injEq, true_and] at h
      obtain ⟨ha, h⟩ := h
      have e1 := takeWhile_block a c.dotEdges (DObj.dotEdgesAll a cs) (h1 c (by simp)) (edgesAll_head a cs)
      have e2 := takeWhile_block a d.dotEdges (DObj.dotEdgesAll a ds) (h2 d (by simp)) (edgesAll_head a ds)
      have e : c.dotEdges = d.dotEdges := by rw [← e1, ← e2, h]
      rw [e] at h
      have := read_all f a cs ds (fun x hx => h1 x (by simp [hx])) (fun x hx => h2 x (by simp [hx]))
        (fun x hx y hy hyd => h3 x (by simp [hx]) y hy (by simp [hyd])) (List.append_cancel_left h)
      rw [List.map_cons, List.map_cons, this, h3 c (by simp) d ha.symm (by simp) e]

theorem read_back (f : ℕ → String) (o p : DObj) (ho : Acyclic o) (hp : Acyclic p) (fo : ∀ q, InDraw o q → q.label = f q.addr)
    (fp : ∀ q, InDraw p q → q.label = f q.addr) (ha : o.addr = p.addr) (he : o.dotEdges = p.dotEdges) : o.seen = p.seen := by
  rw [seen_eq, seen_eq, fo o .root, fp p .root, ha]
  congr 1
  rw [dotEdges_eq, dotEdges_eq p, ← ha] at he
  refine read_all f o.addr _ _ (fun c hc => acyclic_src ho hc) (fun d hd => ha ▸ acyclic_src hp hd) ?_ he
  intro c hc d hd hdp hcd
  have := DObj.sizeOf_lt_of_child hc
  exact read_back f c d (ho.child hc) (hp.child hdp) (fun q hq => fo q ((InDraw.root.child hc).trans hq))
    (fun q hq => fp q ((InDraw.root.child hdp).trans hq)) hd.symm hcd
termination_by sizeOf o

/-- **C102** The drawing that is not strict shows everything: two trees with the same nodes and the same edges are the same tree, with
the same labels and the children in the same order. -/
theorem C102_readable (o p : DObj) (ho : OneObject o) (hp : OneObject p) (hn : o.dotNodes = p.dotNodes)
    (he : o.drawn false = p.drawn false) : o.seen = p.seen := by
  have look : ∀ r : DObj, OneObject r → ∀ q, InDraw r q → q.label = (r.dotNodes.lookup q.addr).getD "" := by
    intro r hr q hq
    have hm : (q.addr, q.label) ∈ r.dotNodes := (C102_nodes r _ _).2 ⟨q, hq, rfl, rfl⟩
    cases hl : r.dotNodes.lookup q.addr with
    | none =>
      exfalso
      rw [List.lookup_eq_none_iff] at hl
      simpa using hl _ hm
    | some l =>
      have : (q.addr, l) ∈ r.dotNodes := by
        rw [List.lookup_eq_some_iff] at hl
        obtain ⟨l1, l2, h, -⟩ := hl
        rw [h]; simp
      exact C102_one_node_one_object r hr _ _ _ hm this
  have acy : ∀ r : DObj, OneObject r → Acyclic r := fun r hr q c s hq hc hs => below_ne hr hq hc hs
  refine read_back (fun a => (o.dotNodes.lookup a).getD "") o p (acy o ho) (acy p hp) (look o ho) ?_ ?_ he
  · rw [hn]; exact look p hp
  · have e1 : o.dotNodes.head? = some (o.addr, o.label) := by simp [DObj.dotNodes, walk]
    have e2 : p.dotNodes.head? = some (p.addr, p.label) := by simp [DObj.dotNodes, walk]
    rw [hn, e2] at e1
    simp only [Option.some.injEq, Prod.mk.injEq] at e1
    exact e1.1.symm

/-- `(x + 2) / (y * 2)` with `x` under a condition: Python has one object for both numbers 2. -/
def dotEx : DObj :=
  .metric 1 "sum(x) + 2 / sum(y) * 2" []
    [.metric 2 "sum(x) + 2" [] [.metric 4 "sum(x)" ["a > 0"] [], .other 6 "2"],
     .metric 3 "sum(y) * 2" [] [.metric 5 "sum(y)" [] [], .other 6 "2"]]

theorem dotEx_one : OneObject dotEx := by
  have occ : ∀ p, InDraw dotEx p → p ∈ walk [dotEx] := fun p hp => (mem_walk _ _).2 ⟨_, by simp, hp⟩
  have w : walk [dotEx] = [dotEx, .metric 2 "sum(x) + 2" [] [.metric 4 "sum(x)" ["a > 0"] [], .other 6 "2"],
      .metric 3 "sum(y) * 2" [] [.metric 5 "sum(y)" [] [], .other 6 "2"], .metric 4 "sum(x)" ["a > 0"] [], .other 6 "2",
      .metric 5 "sum(y)" [] [], .other 6 "2"] := by
    simp [walk, dotEx, DObj.children]
  intro p q hp hq h
  have hp := occ p hp
  have hq := occ q hq
  rw [w] at hp hq
  simp only [List.mem_cons, List.not_mem_nil, or_false] at hp hq
  rcases hp with rfl | rfl | rfl | rfl | rfl | rfl | rfl <;> rcases hq with rfl | rfl | rfl | rfl | rfl | rfl | rfl <;>
    first | rfl | (simp [dotEx, DObj.addr] at h)

/-- The hypotheses are met; the shared number has two edges. -/
example : OneObject dotEx ∧ (4, "sum(x) where a > 0") ∈ dotEx.dotNodes ∧
    dotEx.drawn true = [(1, 2), (2, 4), (2, 6), (1, 3), (3, 5), (3, 6)] := by
  refine ⟨dotEx_one, ?_, ?_⟩
  · rw [C102_nodes]
    refine ⟨.metric 4 "sum(x)" ["a > 0"] [], ?_, rfl, by decide⟩
    exact (InDraw.root.child (c := .metric 2 "sum(x) + 2" [] [.metric 4 "sum(x)" ["a > 0"] [], .other 6 "2"]) (by simp [dotEx, DObj.children])).child
      (by simp [DObj.children])
  · decide

/-- **C102 violated** for strict drawings: that `x` is in a list of metrics twice is not seen. -/
theorem C102_strict_violation :
    ∃ o p : DObj, OneObject o ∧ OneObject p ∧ (∀ n, n ∈ o.dotNodes ↔ n ∈ p.dotNodes) ∧ o.drawn true = p.drawn true ∧ o.seen ≠ p.seen := by
  let x : DObj := .metric 2 "x" [] []
  let y : DObj := .metric 3 "y" [] []
  have wo : ∀ p, InDraw (.metric 1 "m" [] [x, x, y]) p → p = .metric 1 "m" [] [x, x, y] ∨ p = x ∨ p = y := by
    intro p hp
    have := (mem_walk [.metric 1 "m" [] [x, x, y]] p).2 ⟨_, List.mem_singleton.2 rfl, hp⟩
    simpa [walk, DObj.children, x, y] using this
  have wp : ∀ p, InDraw (.metric 1 "m" [] [x, y]) p → p = .metric 1 "m" [] [x, y] ∨ p = x ∨ p = y := by
    intro p hp
    have := (mem_walk [.metric 1 "m" [] [x, y]] p).2 ⟨_, List.mem_singleton.2 rfl, hp⟩
    simpa [walk, DObj.children, x, y] using this
  refine ⟨.metric 1 "m" [] [x, x, y], .metric 1 "m" [] [x, y], ?_, ?_, ?_, by decide, ?_⟩
  · intro p q hp hq h
    rcases wo p hp with rfl | rfl | rfl <;> rcases wo q hq with rfl | rfl | rfl <;> first | rfl | (simp [x, y, DObj.addr] at h)
  · intro p q hp hq h
    rcases wp p hp with rfl | rfl | rfl <;> rcases wp q hq with rfl | rfl | rfl <;> first | rfl | (simp [x, y, DObj.addr] at h)
  · intro n
    simp [DObj.dotNodes, walk, DObj.children, x, y, DObj.addr, DObj.label, Fp.whereText]
  · rw [seen_eq, seen_eq]
    simp [DObj.children]

/-- **C102 violated** A label does not tell a condition from a part of a name. -/
theorem C102_label_violation :
    (DObj.metric 1 "x" ["a > 0"] []).label = (DObj.metric 2 "x where a > 0" [] []).label := by decide

end Verif
