import Verif.Spec.MixedMode
import Verif.Lemmas.SqlAgreeRun
import Mathlib.Data.List.Perm.Basic
import Mathlib.Data.List.Nodup

/-!
# Operations respect the order of rows (for C76)
-/

namespace Verif

theorem PyVal.add_comm' (a b : PyVal) : a.add b = b.add a := by
  cases a <;> cases b <;> simp [PyVal.add, add_comm]

theorem PyVal.add_assoc' (a b c : PyVal) : (a.add b).add c = a.add (b.add c) := by
  cases a <;> cases b <;> cases c <;> simp [PyVal.add, add_assoc]

theorem pySum_perm {xs ys : List PyVal} (h : xs.Perm ys) : pySum xs = pySum ys := by
  unfold pySum
  have : RightCommutative PyVal.add := ⟨fun a b c => by
    rw [PyVal.add_assoc', PyVal.add_comm' b c, ← PyVal.add_assoc']⟩
  exact (h.filter _).foldl_eq _

theorem Tbl.Same.symm {t t' : Tbl} (h : Tbl.Same t t') : Tbl.Same t' t :=
  ⟨h.1.symm, (h.1.map Prod.fst).nodup_iff.1 h.2⟩

theorem Tbl.get_of_mem {t : Tbl} (hn : (t.map Prod.fst).Nodup) {k : Key} {x : PyVal} (h : (k, x) ∈ t) : t.get k = some x := by
  unfold Tbl.get
  induction t with
  | nil => simp at h
  | cons p t ih =>
    rw [List.find?_cons]
    rw [List.map_cons, List.nodup_cons] at hn
    rcases List.mem_cons.1 h with rfl | h
    · simp
    · have : p.1 ≠ k := by
        rintro rfl
        exact hn.1 (List.mem_map.2 ⟨_, h, rfl⟩)
      simp only [this, decide_false]
      exact ih hn.2 h

theorem Tbl.mem_of_get {t : Tbl} {k : Key} {x : PyVal} (h : t.get k = some x) : (k, x) ∈ t := by
  unfold Tbl.get at h
  obtain ⟨p, hp, rfl⟩ := Option.map_eq_some_iff.1 h
  have h1 := List.find?_some hp
  simp only [decide_eq_true_eq] at h1
  subst h1
  exact List.mem_of_find?_eq_some hp

theorem Tbl.Same.get {t t' : Tbl} (h : Tbl.Same t t') (k : Key) : t.get k = t'.get k := by
  rcases hx : t.get k with _ | x
  · rcases hy : t'.get k with _ | y
    · rfl
    · have := Tbl.get_of_mem h.2 (h.1.mem_iff.2 (Tbl.mem_of_get hy))
      rw [hx] at this; cases this
  · rw [Tbl.get_of_mem h.symm.2 (h.1.mem_iff.1 (Tbl.mem_of_get hx))]

theorem same_align (op : PyVal → PyVal → PyVal) {a a' b b' : Tbl} (ha : Tbl.Same a a') (hb : Tbl.Same b b') :
    Tbl.Same (Tbl.align op a b) (Tbl.align op a' b') := by
  unfold Tbl.align
  refine ⟨?_, ?_⟩
  · simp only [ha.get, hb.get]
    exact (((ha.1.map _).append (hb.1.map _)).dedup).map _
  · rw [List.map_map]
    simp only [Function.comp_def, List.map_id']
    exact List.nodup_dedup _

theorem same_mapVal (g : Key × PyVal → PyVal) {t t' : Tbl} (h : Tbl.Same t t') :
    Tbl.Same (t.map fun p => (p.1, g p)) (t'.map fun p => (p.1, g p)) := by
  refine ⟨h.1.map _, ?_⟩
  rw [List.map_map]
  exact h.2

theorem same_distTbl (n : Nat) {t t' : Tbl} (h : Tbl.Same t t') : Tbl.Same (distTbl n t) (distTbl n t') := by
  have e : distTbl n t' = t'.map fun p => (p.1, p.2.div (pySum ((t.filter fun p' => p'.1.take n = p.1.take n).map Prod.snd))) := by
    unfold distTbl
    refine List.map_congr_left fun p _ => ?_
    rw [pySum_perm ((h.1.filter _).map Prod.snd)]
  rw [e]
  exact same_mapVal (fun p => p.2.div (pySum ((t.filter fun p' => p'.1.take n = p.1.take n).map Prod.snd))) h

theorem same_hhiTbl (n : Nat) {t t' : Tbl} (h : Tbl.Same t t') : Tbl.Same (hhiTbl n t) (hhiTbl n t') := by
  have hd := same_distTbl n h
  unfold hhiTbl
  simp only
  generalize distTbl n t = d at *
  generalize distTbl n t' = d' at *
  have hf : (fun k => (k, pySum ((d'.filter fun p => p.1.take n = k).map fun p => p.2.mul p.2))) =
      fun k => (k, pySum ((d.filter fun p => p.1.take n = k).map fun p => p.2.mul p.2)) := by
    funext k
    rw [pySum_perm ((hd.1.filter _).map _)]
  rw [hf]
  refine ⟨List.Perm.map _ ?_, ?_⟩
  · split
    · rfl
    · exact (hd.1.map _).dedup
  · rw [List.map_map]
    simp only [Function.comp_def, List.map_id']
    split
    · simp
    · exact List.nodup_dedup _

/-- Both succeed with related results, or both fail with the same error. -/
inductive ExRel {α : Type} (R : α → α → Prop) : Except Err α → Except Err α → Prop
  | ok {a b} : R a b → ExRel R (.ok a) (.ok b)
  | error (e) : ExRel R (.error e) (.error e)

theorem same_filter (q : Key × PyVal → Bool) {t t' : Tbl} (h : Tbl.Same t t') : Tbl.Same (t.filter q) (t'.filter q) :=
  ⟨h.1.filter _, h.2.sublist ((List.filter_sublist).map _)⟩

theorem same_changeTbl (f : PyVal → PyVal → PyVal) (n c : Nat) (base : Key) (incl : Bool) {t t' : Tbl} (h : Tbl.Same t t') :
    ExRel Tbl.Same (changeTbl f n c base incl t) (changeTbl f n c base incl t') := by
  have ha : (t'.any fun p => decide (condOf n c p.1 = base)) = t.any fun p => decide (condOf n c p.1 = base) := by
    rw [Bool.eq_iff_iff]
    simp only [List.any_eq_true]
    exact ⟨fun ⟨p, hp, e⟩ => ⟨p, h.1.mem_iff.2 hp, e⟩, fun ⟨p, hp, e⟩ => ⟨p, h.1.mem_iff.1 hp, e⟩⟩
  unfold changeTbl
  rw [ha]
  split
  · refine .ok ?_
    have hm : Tbl.Same (t.map fun p => (p.1, f p.2 ((t.get (baseKey n c base p.1)).getD .nan)))
        (t'.map fun p => (p.1, f p.2 ((t'.get (baseKey n c base p.1)).getD .nan))) := by
      simp only [← h.get]
      exact same_mapVal (fun p => f p.2 ((t.get (baseKey n c base p.1)).getD .nan)) h
    split
    · exact hm
    · exact same_filter _ hm
  · exact .error _

theorem same_onTbl (o : Oper) (n : Nat) {t t' : Tbl} (h : Tbl.Same t t') : ExRel Tbl.Same (o.onTbl n t) (o.onTbl n t') := by
  cases o with
  | dist _ => exact .ok (same_distTbl n h)
  | hhi _ => exact .ok (same_hhiTbl n h)
  | pctChange => exact same_changeTbl _ _ _ _ _ h
  | absChange => exact same_changeTbl _ _ _ _ _ h

theorem same_mapM (g : Tbl → Except Err Tbl) (hg : ∀ t t', Tbl.Same t t' → ExRel Tbl.Same (g t) (g t')) {cs cs' : List Tbl}
    (h : List.Forall₂ Tbl.Same cs cs') : ExRel (List.Forall₂ Tbl.Same) (cs.mapM g) (cs'.mapM g) := by
  induction h with
  | nil => exact .ok .nil
  | cons ht _ ih =>
    rw [List.mapM_cons, List.mapM_cons]
    have := hg _ _ ht
    revert this
    generalize g _ = x
    generalize g _ = y
    intro hxy
    cases hxy with
    | error e => exact .error e
    | ok hr =>
      revert ih
      generalize List.mapM g _ = x
      generalize List.mapM g _ = y
      intro hxy
      cases hxy with
      | error e => exact .error e
      | ok hrs => exact .ok (.cons hr hrs)

theorem same_onRes (o : Oper) (n : Nat) {r r' : Res} (h : Res.Same r r') : ExRel Res.Same (o.onRes n r) (o.onRes n r') := by
  cases r with
  | num a =>
    cases r' with
    | num b => exact .error _
    | tbl => exact h.elim
  | tbl ex cs =>
    cases r' with
    | num b => exact h.elim
    | tbl ex' cs' =>
      obtain ⟨rfl, h⟩ := h
      have := same_mapM (o.onTbl n) (fun _ _ => same_onTbl o n) h
      unfold Oper.onRes
      revert this
      simp only
      generalize List.mapM (o.onTbl n) cs = x
      generalize List.mapM (o.onTbl n) cs' = y
      intro hxy
      cases hxy with
      | error e => exact .error e
      | ok h => exact .ok ⟨rfl, h⟩

theorem same_zipCols (op : Tbl → Tbl → Tbl) (hop : ∀ a a' b b', Tbl.Same a a' → Tbl.Same b b' → Tbl.Same (op a b) (op a' b'))
    {as as' bs bs' : List Tbl} (ha : List.Forall₂ Tbl.Same as as') (hb : List.Forall₂ Tbl.Same bs bs') :
    ExRel (List.Forall₂ Tbl.Same) (zipCols op as bs) (zipCols op as' bs') := by
  have single : ∀ {a a' : Tbl} {bs bs'}, Tbl.Same a a' → List.Forall₂ Tbl.Same bs bs' →
      List.Forall₂ Tbl.Same (bs.map (op a)) (bs'.map (op a')) := by
    intro a a' bs bs' h hb
    induction hb with
    | nil => exact .nil
    | cons h1 _ ih => exact .cons (hop _ _ _ _ h h1) ih
  have single' : ∀ {b b' : Tbl} {as as'}, Tbl.Same b b' → List.Forall₂ Tbl.Same as as' →
      List.Forall₂ Tbl.Same (as.map fun a => op a b) (as'.map fun a => op a b') := by
    intro b b' as as' h hb
    induction hb with
    | nil => exact .nil
    | cons h1 _ ih => exact .cons (hop _ _ _ _ h1 h) ih
  have zip : ∀ {as as' bs bs'}, List.Forall₂ Tbl.Same as as' → List.Forall₂ Tbl.Same bs bs' →
      List.Forall₂ Tbl.Same (List.zipWith op as bs) (List.zipWith op as' bs') := by
    intro as as' bs bs' ha
    induction ha generalizing bs bs' with
    | nil => intro _; exact .nil
    | cons h1 _ ih =>
      intro hb
      cases hb with
      | nil => exact .nil
      | cons h2 hb => exact .cons (hop _ _ _ _ h1 h2) (ih hb)
  have la := ha.length_eq
  have lb := hb.length_eq
  rcases ha with _ | ⟨h1, _ | ⟨h2, ha⟩⟩
  · rcases hb with _ | ⟨g1, _ | ⟨g2, hb⟩⟩
    · exact .ok .nil
    · exact .ok .nil
    · simp only [zipCols, List.length_nil, List.length_cons]
      rw [if_neg (by omega), if_neg (by omega)]
      exact .error _
  · exact .ok (single h1 hb)
  · rcases hb with _ | ⟨g1, _ | ⟨g2, hb⟩⟩
    · simp only [zipCols, List.length_nil, List.length_cons]
      rw [if_neg (by omega), if_neg (by omega)]
      exact .error _
    · exact .ok (single' g1 (.cons h1 (.cons h2 ha)))
    · simp only [zipCols]
      rw [la, lb]
      split
      · exact .ok (zip (.cons h1 (.cons h2 ha)) (.cons g1 (.cons g2 hb)))
      · exact .error _

theorem same_combine (op : PyVal → PyVal → PyVal) {r r' s s' : Res} (hr : Res.Same r r') (hs : Res.Same s s') :
    ExRel Res.Same (combine op r s) (combine op r' s') := by
  have mapAll : ∀ (g : Key × PyVal → PyVal) {cs cs' : List Tbl}, List.Forall₂ Tbl.Same cs cs' →
      List.Forall₂ Tbl.Same (cs.map fun t => t.map fun p => (p.1, g p)) (cs'.map fun t => t.map fun p => (p.1, g p)) := by
    intro g cs cs' h
    induction h with
    | nil => exact .nil
    | cons h1 _ ih => exact .cons (same_mapVal g h1) ih
  cases r with
  | num a =>
    cases r' with
    | tbl => exact hr.elim
    | num a' =>
      cases hr
      cases s with
      | num b => cases s' with
        | num b' => exact .error _
        | tbl => exact hs.elim
      | tbl ex cs => cases s' with
        | num b' => exact hs.elim
        | tbl ex' cs' =>
          obtain ⟨rfl, h⟩ := hs
          exact .ok ⟨rfl, mapAll (fun p => op (.fin a) p.2) h⟩
  | tbl ex cs =>
    cases r' with
    | num => exact hr.elim
    | tbl ex' cs' =>
      obtain ⟨rfl, h⟩ := hr
      cases s with
      | num b => cases s' with
        | num b' => cases hs; exact .ok ⟨rfl, mapAll (fun p => op p.2 (.fin b)) h⟩
        | tbl => exact hs.elim
      | tbl ex1 ds => cases s' with
        | num b' => exact hs.elim
        | tbl ex1' ds' =>
          obtain ⟨rfl, g⟩ := hs
          unfold combine
          simp only
          split
          · have := same_zipCols (Tbl.align op) (fun _ _ _ _ => same_align op) h g
            revert this
            generalize zipCols _ cs ds = x
            generalize zipCols _ cs' ds' = y
            intro hxy
            cases hxy with
            | error e => exact .error e
            | ok h => exact .ok ⟨rfl, h⟩
          · exact .error _

theorem same_joinRes : ∀ {rs rs' : List Res}, List.Forall₂ Res.Same rs rs' → ExRel Res.Same (joinRes rs) (joinRes rs')
  | _, _, .nil => .error _
  | [r], [r'], .cons h .nil => by
    cases r <;> cases r'
    · exact .error _
    · exact h.elim
    · exact h.elim
    · exact .ok h
  | r :: r1 :: rs, r' :: r1' :: rs', .cons h (.cons h1 hs) => by
    have ih := same_joinRes (List.Forall₂.cons h1 hs)
    have e1 : ∀ (r r1 : Res) (rs : List Res), joinRes (r :: r1 :: rs) = match r, joinRes (r1 :: rs) with
      | .tbl ex cs, .ok (.tbl ex' cs') =>
          if ex = ex' then .ok (.tbl ex (cs ++ cs')) else .error .unsupported
      | _, .error e => .error e
      | _, _ => .error .valueError := fun _ _ _ => rfl
    rw [e1, e1]
    revert ih
    generalize joinRes (r1 :: rs) = x
    generalize joinRes (r1' :: rs') = y
    intro ih
    cases ih with
    | error e =>
      cases r <;> cases r'
      · exact .error _
      · exact h.elim
      · exact h.elim
      · exact .error _
    | @ok a b hab =>
      cases r <;> cases r'
      · cases a <;> cases b
        · exact .error _
        · exact hab.elim
        · exact hab.elim
        · exact .error _
      · exact h.elim
      · exact h.elim
      · cases a <;> cases b
        · exact .error _
        · exact hab.elim
        · exact hab.elim
        · obtain ⟨rfl, h⟩ := h
          obtain ⟨rfl, hab⟩ := hab
          simp only
          split
          · exact .ok ⟨rfl, List.rel_append h hab⟩
          · exact .error _

end Verif
