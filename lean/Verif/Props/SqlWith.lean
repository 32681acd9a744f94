import Verif.Props.SqlColumns
import Verif.Spec.SqlWith
import Verif.Lemmas.SqlWith

/-!
# C24 Named subqueries are never confused
-/

namespace Verif

/-- A WITH clause as the code builds it: names are unique and every query's columns satisfy C22. -/
structure With.Ok (w : With) : Prop where
  names : w.namesOk
  cols : ∀ p ∈ w, ∀ q, p.2 = .sql q → ColsOk q.cols

/-- The columns of the requested tables have names and satisfy C22 on their own. -/
def WTbl.Ok (t : WTbl) : Prop := ∀ q, t = .sql q → ColsOk q.cols

/-- The two WITH clauses have the same names in order (plus further ones in the second), and each table
of the first is kept or only extended. -/
def With.Keeps (w w' : With) : Prop :=
  w.map Prod.fst <+: w'.map Prod.fst ∧
    ∀ n t, w.lookup n = some t → ∃ t', w'.lookup n = some t' ∧ t.Extends t'

/-! ## Lemmas -/

theorem WTbl.Extends.refl' (t : WTbl) : t.Extends t := Or.inl (.refl _)

theorem WTbl.Extends.trans {a b c : WTbl} (h1 : a.Extends b) (h2 : b.Extends c) : a.Extends c := by
  rcases h1 with rfl | ⟨q, q', rfl, rfl, h1⟩
  · exact h2
  · rcases h2 with rfl | ⟨r, r', hr, rfl, h2⟩
    · exact Or.inr ⟨q, q', by trivial, by trivial, h1⟩
    · cases hr
      exact Or.inr ⟨q, r', by trivial, by trivial, h2.1.trans h1.1, h2.2.1.trans h1.2.1, h2.2.2.1.trans h1.2.2.1,
        h1.2.2.2.trans h2.2.2.2⟩

theorem With.Keeps.refl (w : With) : w.Keeps w :=
  ⟨List.prefix_rfl, fun _ t h => ⟨t, h, WTbl.Extends.refl' t⟩⟩

theorem With.Keeps.trans {a b c : With} (h1 : a.Keeps b) (h2 : b.Keeps c) : a.Keeps c := by
  refine ⟨h1.1.trans h2.1, fun n t h => ?_⟩
  obtain ⟨t', h3, h4⟩ := h1.2 n t h
  obtain ⟨t'', h5, h6⟩ := h2.2 n t' h3
  exact ⟨t'', h5, h4.trans h6⟩

theorem WTbl.Serves.extend {t' t'' t : WTbl} (h : t'.Serves t) (he : t'.Extends t'') : t''.Serves t := by
  rcases he with rfl | ⟨q, q', rfl, rfl, h1, _, h3, h4⟩
  · exact h
  · cases t with
    | raw x => cases h
    | sql r =>
      obtain ⟨q1, hq, ha⟩ := h
      cases hq
      refine ⟨q', .refl _, h1.trans ha.1, h3.trans ha.2.1, fun c hc => ?_⟩
      obtain ⟨s, hs⟩ := h4
      rw [← hs, List.map_append]
      exact List.mem_append_left _ (ha.2.2 c hc)

theorem Qry.same_iff {a b : Qry} : a.same b = true ↔
    a.key = b.key ∧ a.order = b.order ∧ a.distinct = b.distinct ∧
      a.cols.map SCol.text = b.cols.map SCol.text := by
  unfold Qry.same
  simp [Bool.and_eq_true, and_assoc]

theorem Qry.same_answers {a b : Qry} (h : a.same b = true) : a.Answers b ∧ b.Answers a := by
  rw [Qry.same_iff] at h
  have hexp : a.cols.map SCol.expr = b.cols.map SCol.expr := by
    have := congrArg (List.map Prod.fst) h.2.2.2
    simpa [List.map_map, Function.comp_def, SCol.text] using this
  refine ⟨⟨h.1, h.2.2.1, fun c hc => ?_⟩, ⟨h.1.symm, h.2.2.1.symm, fun c hc => ?_⟩⟩
  · rw [hexp]; exact List.mem_map.2 ⟨c, hc, .refl _⟩
  · rw [← hexp]; exact List.mem_map.2 ⟨c, hc, .refl _⟩

theorem WTbl.same_serves {a b : WTbl} (h : a.same b = true) : a.Serves b ∧ b.Serves a := by
  cases a with
  | raw x =>
    cases b with
    | raw y => simp [WTbl.same] at h; subst h; exact ⟨by trivial, by trivial⟩
    | sql q => cases h
  | sql p =>
    cases b with
    | raw y => cases h
    | sql q =>
      obtain ⟨h1, h2⟩ := Qry.same_answers (h : p.same q = true)
      exact ⟨⟨p, .refl _, h1⟩, ⟨q, .refl _, h2⟩⟩

theorem WTbl.serves_self (t : WTbl) : t.Serves t := by
  cases t with
  | raw x => trivial
  | sql q => exact ⟨q, .refl _, .refl _, .refl _, fun c hc => List.mem_map.2 ⟨c, hc, .refl _⟩⟩

/-- What merging does to the receiver. -/
theorem Qry.merge_spec {a b a' : Qry} {cs : List SCol} (ha : ColsOk a.cols) (hb : ∀ c ∈ b.cols, c.named)
    (h : a.merge b = some (some (a', cs))) :
    ColsOk a'.cols ∧ (WTbl.sql a).Extends (.sql a') ∧ a'.Answers b := by
  unfold Qry.merge at h
  split at h
  · rename_i hs
    cases h
    exact ⟨ha, WTbl.Extends.refl' _, (Qry.same_answers hs).1⟩
  · split at h
    · cases h
    · rename_i hc
      cases h1 : addColumns a.cols b.cols with
      | none => rw [h1] at h; cases h
      | some r =>
        obtain ⟨cols, cs'⟩ := r
        rw [h1] at h
        cases h
        have hc' : a.key = b.key ∧ a.distinct = false ∧ b.distinct = false := by
          unfold Qry.compatible at hc
          simpa [Bool.and_eq_true, and_assoc] using hc
        obtain ⟨k1, k3, k4, _⟩ := addColumns_ok b.cols a.cols cols cs ha hb h1
        exact ⟨k1, Or.inr ⟨a, _, .refl _, .refl _, .refl _, .refl _, .refl _, k3⟩,
          hc'.1, by simp [hc'.2.1, hc'.2.2], k4⟩

theorem setTable_names (w : With) (a : Txt) (t : WTbl) : (setTable w a t).map Prod.fst = w.map Prod.fst := by
  unfold setTable
  rw [List.map_map]
  apply List.map_congr_left
  intro p _
  simp only [Function.comp]
  split <;> rfl

theorem setTable_lookup (w : With) (a n : Txt) (t : WTbl) :
    (setTable w a t).lookup n = if n = a then (w.lookup a).map fun _ => t else w.lookup n := by
  unfold setTable
  induction w with
  | nil => simp [List.lookup]
  | cons p w ih =>
    obtain ⟨b, s⟩ := p
    rw [List.map_cons]
    by_cases hp : b = a
    · subst hp
      by_cases hn : n = b
      · subst hn; simp
      · have hb : (n == b) = false := beq_eq_false_iff_ne.2 hn
        simp only [if_true, List.lookup_cons, ih, hn, if_false, hb]
    · by_cases hn : n = a
      · subst hn
        have hb : (n == b) = false := beq_eq_false_iff_ne.2 (fun h => hp h.symm)
        simp only [hp, if_false, List.lookup_cons, ih, if_true, hb]
      · simp only [hp, if_false, List.lookup_cons, ih, hn]

theorem setTable_ok {w : With} (hw : w.Ok) {a : Txt} {q q1 : Qry} (hl : w.lookup a = some (.sql q))
    (h1 : ColsOk q1.cols) (he : (WTbl.sql q).Extends (.sql q1)) :
    (setTable w a (.sql q1)).Ok ∧ w.Keeps (setTable w a (.sql q1)) ∧
      (setTable w a (.sql q1)).lookup a = some (.sql q1) := by
  refine ⟨⟨?_, ?_⟩, ⟨by rw [setTable_names], ?_⟩, by rw [setTable_lookup, hl]; simp⟩
  · unfold With.namesOk; rw [setTable_names]; exact hw.names
  · intro p hp r hr
    unfold setTable at hp
    obtain ⟨p0, hp0, rfl⟩ := List.mem_map.1 hp
    split at hr
    · cases hr; exact h1
    · exact hw.cols p0 hp0 r hr
  · intro n t hn
    rw [setTable_lookup]
    split
    · rename_i h
      subst h
      rw [hl] at hn ⊢
      cases hn
      exact ⟨_, rfl, he⟩
    · exact ⟨t, hn, WTbl.Extends.refl' t⟩

theorem append_ok {w : With} (hw : w.Ok) {n : Txt} {t : WTbl} (hn : w.lookup n = none) (ht : t.Ok) :
    With.Ok (w ++ [(n, t)]) ∧ w.Keeps (w ++ [(n, t)]) ∧ (w ++ [(n, t)]).lookup n = some t := by
  refine ⟨⟨?_, ?_⟩, ⟨by rw [List.map_append]; exact List.prefix_append _ _, ?_⟩, lookup_append_new t hn⟩
  · unfold With.namesOk
    rw [List.map_append]
    exact List.nodup_append.2 ⟨hw.names, by simp, by
      intro x hx y hy hxy
      have h2 : y = n := by simpa using hy
      exact lookup_none_notMem hn (h2 ▸ hxy ▸ hx)⟩
  · intro p hp q hq
    rcases List.mem_append.1 hp with hp | hp
    · exact hw.cols p hp q hq
    · rw [List.mem_singleton.1 hp] at hq; exact ht q hq
  · intro m t0 h
    refine ⟨t0, ?_, WTbl.Extends.refl' t0⟩
    rw [List.lookup_append, h]; rfl

theorem addTable_spec {w : With} (hw : w.Ok) : ∀ (fuel : Nat) (al : Txt) (t : WTbl) (w' : With) (n : Txt), t.Ok →
    addTable w fuel al t = some (w', n) →
    w'.Ok ∧ w.Keeps w' ∧ (w' = w ∨ w' = w ++ [(n, t)]) ∧
      ∃ t', w'.lookup n = some t' ∧ (t' = t ∨ t'.same t = true ∨ t.same t' = true) := by
  intro fuel
  induction fuel with
  | zero => intro al t w' n _ h; cases h
  | succ fuel ih =>
    intro al t w' n ht h
    rw [addTable] at h
    cases hl : w.lookup al with
    | none =>
      rw [hl] at h
      simp only at h
      split at h
      · cases h
        obtain ⟨h1, h2, h3⟩ := append_ok hw hl ht
        exact ⟨h1, h2, Or.inr rfl, t, h3, Or.inl rfl⟩
      · rename_i p hf
        cases h
        refine ⟨hw, With.Keeps.refl w, Or.inl rfl, p.2, lookup_of_find hw.names (List.mem_of_find?_eq_some hf), ?_⟩
        exact Or.inr (Or.inl (by simpa using List.find?_some hf))
    | some t0 =>
      rw [hl] at h
      simp only at h
      split at h
      · rename_i hs
        cases h
        exact ⟨hw, With.Keeps.refl w, Or.inl rfl, t0, hl, Or.inr (Or.inr hs)⟩
      · exact ih _ _ _ _ ht h

theorem lookup_mem {w : With} {n : Txt} {t : WTbl} (h : w.lookup n = some t) : (n, t) ∈ w := by
  induction w with
  | nil => cases h
  | cons p w ih =>
    rw [List.lookup_cons] at h
    by_cases hp : n = p.1
    · subst hp
      simp at h
      subst h
      simp
    · rw [beq_eq_false_iff_ne.2 hp] at h
      exact List.mem_cons_of_mem _ (ih h)

theorem mergeInto_spec {w : With} (hw : w.Ok) {q : Qry} (hq : ∀ c ∈ q.cols, c.named) (skip : Txt) :
    ∀ (rest : With), (∀ p ∈ rest, p ∈ w) → ∀ (w' : With) (n : Txt),
    mergeInto w q skip rest = some (some (w', n)) →
    w'.Ok ∧ w.Keeps w' ∧ ∃ q1, w'.lookup n = some (.sql q1) ∧ q1.Answers q := by
  intro rest
  induction rest with
  | nil => intro _ w' n h; cases h
  | cons p rest ih =>
    intro hsub w' n h
    obtain ⟨a, t⟩ := p
    have hsub' : ∀ p ∈ rest, p ∈ w := fun p hp => hsub p (by simp [hp])
    cases t with
    | raw x => exact ih hsub' w' n h
    | sql q0 =>
      rw [mergeInto] at h
      split at h
      · exact ih hsub' w' n h
      · cases hm : q0.merge q with
        | none => rw [hm] at h; cases h
        | some o =>
          cases o with
          | none => rw [hm] at h; exact ih hsub' w' n h
          | some r =>
            obtain ⟨q1, cs⟩ := r
            rw [hm] at h
            cases h
            have hmem := hsub (n, .sql q0) (by simp)
            have hl := lookup_of_find hw.names hmem
            obtain ⟨k1, k2, k3⟩ := Qry.merge_spec (hw.cols _ hmem q0 rfl) hq hm
            obtain ⟨m1, m2, m3⟩ := setTable_ok hw hl k1 k2
            exact ⟨m1, m2, q1, m3, k3⟩

/-! ## C24 -/

/-- **C24** `add` always ends (no alias can be tried twice), whatever the names look like. -/
theorem C24_add_terminates (w : With) (al : Txt) (t : WTbl) : (addOne w al t).isSome := by
  by_contra hn
  rw [Option.not_isSome_iff_eq_none] at hn
  exact exists_free (w.map Prod.fst) al (w.length + 2) (by simp) (addTable_none _ _ _ hn)

/-- **C24** The loop of `merge` that looks for a free name always ends with a free one. -/
theorem C24_free_name_terminates (w : With) (al : Txt) :
    ∃ n, freeName w (w.length + 2) al = some n ∧ n ∉ w.map Prod.fst := by
  cases h : freeName w (w.length + 2) al with
  | none => exact (exists_free (w.map Prod.fst) al (w.length + 2) (by simp) (freeName_none _ _ h)).elim
  | some n => exact ⟨n, rfl, lookup_none_notMem (freeName_spec _ _ _ h)⟩

/-- **C24** `add` returns a name under which a table that prints the same is found; the tables stored
earlier stay as they are, and at most the new one is added at the end. -/
theorem C24_add (w : With) (al : Txt) (t : WTbl) (w' : With) (n : Txt) (hw : w.Ok) (ht : t.Ok)
    (h : addOne w al t = some (w', n)) :
    w'.namesOk ∧ (w' = w ∨ w' = w ++ [(n, t)]) ∧ ∃ t', w'.lookup n = some t' ∧ t'.Serves t ∧ t.Serves t' := by
  obtain ⟨h1, _, h3, t', h4, h5⟩ := addTable_spec hw _ _ _ _ _ ht h
  refine ⟨h1.names, h3, t', h4, ?_⟩
  rcases h5 with rfl | h5 | h5
  · exact ⟨WTbl.serves_self _, WTbl.serves_self _⟩
  · exact WTbl.same_serves h5
  · exact (WTbl.same_serves h5).symm

theorem mergeTable_spec (w : With) (al : Txt) (q : Qry) (w' : With) (n : Txt) (hw : w.Ok)
    (hq : ColsOk q.cols) (h : mergeTable w al q = some (w', n)) :
    w'.Ok ∧ w.Keeps w' ∧ ∃ q1, w'.lookup n = some (.sql q1) ∧ q1.Answers q := by
  have fresh : ∀ (w' : With) (n : Txt), (match mergeInto w q al w with
      | none => none
      | some (some r) => some r
      | some none =>
          match freeName w (w.length + 2) al with
          | none => none
          | some n => some (w ++ [(n, .sql q)], n)) = some (w', n) →
      w'.Ok ∧ w.Keeps w' ∧ ∃ q1, w'.lookup n = some (.sql q1) ∧ q1.Answers q := by
    intro w' n h
    cases hm : mergeInto w q al w with
    | none => rw [hm] at h; cases h
    | some o =>
      cases o with
      | some r =>
        obtain ⟨w1, n1⟩ := r
        rw [hm] at h
        cases h
        exact mergeInto_spec hw hq.named al w (fun p hp => hp) _ _ hm
      | none =>
        rw [hm] at h
        simp only at h
        split at h
        · cases h
        · rename_i m hf
          cases h
          obtain ⟨a1, a2, a3⟩ := append_ok (t := .sql q) hw (freeName_spec _ _ _ hf)
            (by intro r hr; cases hr; exact hq)
          exact ⟨a1, a2, q, a3, rfl, rfl, fun c hc => List.mem_map.2 ⟨c, hc, rfl⟩⟩
  unfold mergeTable at h
  simp only at h
  split at h
  · rename_i q0 hl
    cases hm : q0.merge q with
    | none => rw [hm] at h; cases h
    | some o =>
      cases o with
      | none => rw [hm] at h; exact fresh _ _ h
      | some r =>
        obtain ⟨q1, cs⟩ := r
        rw [hm] at h
        cases h
        obtain ⟨k1, k2, k3⟩ := Qry.merge_spec (hw.cols _ (lookup_mem hl) q0 rfl) hq.named hm
        obtain ⟨m1, m2, m3⟩ := setTable_ok hw hl k1 k2
        exact ⟨m1, m2, q1, m3, k3⟩
  · exact fresh _ _ h

/-- **C24** For every sequence of `add` and `merge` requests: names stay unique; names given
earlier stay (in order) and their tables only get further columns; and at the end each request's
name is the name of a table that can be read in its place, although later requests may have been merged into
it. -/
theorem C24_history (ops : List WOp) : ∀ (w w' : With) (ns : List Txt), w.Ok → (∀ op ∈ ops, op.table.Ok) →
    runOps w ops = some (w', ns) →
    w'.namesOk ∧ w.Keeps w' ∧
      List.Forall₂ (fun op n => ∃ t', w'.lookup n = some t' ∧ t'.Serves op.table) ops ns := by
  have key : ∀ (w w' : With) (ns : List Txt), w.Ok → (∀ op ∈ ops, op.table.Ok) →
      runOps w ops = some (w', ns) →
      w'.Ok ∧ w.Keeps w' ∧
        List.Forall₂ (fun op n => ∃ t', w'.lookup n = some t' ∧ t'.Serves op.table) ops ns := by
    induction ops with
    | nil => intro w w' ns hw _ h; cases h; exact ⟨hw, With.Keeps.refl w, .nil⟩
    | cons op ops ih =>
      intro w w' ns hw hops h
      rw [runOps] at h
      cases h1 : op.run w with
      | none => rw [h1] at h; cases h
      | some r =>
        obtain ⟨w1, n⟩ := r
        rw [h1] at h
        simp only at h
        cases h2 : runOps w1 ops with
        | none => rw [h2] at h; cases h
        | some s =>
          obtain ⟨w2, ns2⟩ := s
          rw [h2] at h
          cases h
          have hstep : w1.Ok ∧ w.Keeps w1 ∧ ∃ t', w1.lookup n = some t' ∧ t'.Serves op.table := by
            have ht := hops op (by simp)
            cases op with
            | add al t =>
              obtain ⟨a1, a2, _, t', a4, a5⟩ := addTable_spec hw _ _ _ _ _ ht (h1 : addOne w al t = _)
              refine ⟨a1, a2, t', a4, ?_⟩
              rcases a5 with rfl | a5 | a5
              · exact WTbl.serves_self _
              · exact (WTbl.same_serves a5).1
              · exact (WTbl.same_serves a5).2
            | merge al q =>
              obtain ⟨a1, a2, q1, a3, a4⟩ := mergeTable_spec w al q w1 n hw (ht q rfl) h1
              exact ⟨a1, a2, _, a3, q1, rfl, a4⟩
          obtain ⟨b1, b2, t', b3, b4⟩ := hstep
          obtain ⟨c1, c2, c3⟩ := ih w1 _ ns2 b1 (fun o ho => hops o (by simp [ho])) h2
          refine ⟨c1, b2.trans c2, .cons ?_ c3⟩
          obtain ⟨t'', d1, d2⟩ := c2.2 n t' b3
          exact ⟨t'', d1, b4.extend d2⟩
  intro w w' ns hw hops h
  obtain ⟨h1, h2, h3⟩ := key w w' ns hw hops h
  exact ⟨h1.names, h2, h3⟩

/-- The hypotheses are met: `B` is requested twice for different data, then columns are merged into the
first. -/
example :
    let q (k c : String) : Qry := ⟨k.toList, [], false, [⟨c.toList, some c.toList, 0⟩]⟩
    (With.Ok []) ∧
    (∀ op ∈ [WOp.merge "B".toList (q "t" "a"), .merge "B".toList (q "u" "a"), .merge "C".toList (q "t" "b")],
      op.table.Ok) ∧
    (runOps [] [WOp.merge "B".toList (q "t" "a"), .merge "B".toList (q "u" "a"),
      .merge "C".toList (q "t" "b")]).map Prod.snd = some ["B".toList, "B_1".toList, "B".toList] := by
  refine ⟨⟨by simp [With.namesOk], by simp⟩, ?_, by decide⟩
  have ok : ∀ (k c : String) (f : Char) (fs : Txt), c.toList = f :: fs → (escapeAlias c.toList).isSome →
      ColsOk [⟨c.toList, some c.toList, 0⟩] := by
    intro k c f fs hc he
    obtain ⟨b, hb⟩ := Option.isSome_iff_exists.1 he
    refine ⟨?_, by simp, [some b], ?_, by simp⟩
    · intro d hd; rw [List.mem_singleton.1 hd]; exact ⟨f, fs, by simp [hc]⟩
    · simp [aliasesOf, SCol.alias, hb]
  intro op hop r hr
  simp only [List.mem_cons, List.not_mem_nil, or_false] at hop
  rcases hop with rfl | rfl | rfl <;> cases hr
  · exact ok "t" "a" 'a' [] rfl (by decide)
  · exact ok "u" "a" 'a' [] rfl (by decide)
  · exact ok "t" "b" 'b' [] rfl (by decide)

theorem addColumns_isSome (cs : List SCol) : ∀ (cols : List SCol), ColsOk cols → (∀ c ∈ cs, c.named) →
    (∀ c ∈ cs, c.alias ≠ none) → (addColumns cols cs).isSome := by
  induction cs with
  | nil => intro _ _ _ _; rfl
  | cons c cs ih =>
    intro cols hok hn ha
    obtain ⟨as, has, _⟩ := hok.aliases
    obtain ⟨⟨cols1, c1⟩, h1⟩ := Option.isSome_iff_exists.1
      (C22_add_terminates cols c (by rw [has]; rfl) (ha c (by simp)))
    have hok1 := (addColumn_ok hok (hn c (by simp)) h1).1
    obtain ⟨⟨cols2, cs2⟩, h2⟩ := Option.isSome_iff_exists.1
      (ih cols1 hok1 (fun d hd => hn d (by simp [hd])) (fun d hd => ha d (by simp [hd])))
    rw [addColumns, h1]
    simp [h2]

theorem ColsOk.alias {cols : List SCol} (h : ColsOk cols) : ∀ c ∈ cols, c.alias ≠ none := by
  obtain ⟨as, has, _⟩ := h.aliases
  intro c hc
  obtain ⟨a, _, ha⟩ := (mapM_alias_mem has).2 c hc
  rw [ha]; simp

theorem Qry.merge_isSome {a b : Qry} (ha : ColsOk a.cols) (hb : ColsOk b.cols) : (a.merge b).isSome := by
  unfold Qry.merge
  split
  · rfl
  · split
    · rfl
    · obtain ⟨r, hr⟩ := Option.isSome_iff_exists.1 (addColumns_isSome b.cols a.cols ha hb.named hb.alias)
      rw [hr]; rfl

theorem mergeInto_isSome {w : With} {q : Qry} (hq : ColsOk q.cols) (skip : Txt) :
    ∀ rest : With, (∀ p ∈ rest, ∀ r, p.2 = .sql r → ColsOk r.cols) → (mergeInto w q skip rest).isSome := by
  intro rest
  induction rest with
  | nil => intro _; rfl
  | cons p rest ih =>
    intro h
    obtain ⟨a, t⟩ := p
    have ih' := ih (fun p hp => h p (by simp [hp]))
    cases t with
    | raw x => exact ih'
    | sql q0 =>
      rw [mergeInto]
      split
      · exact ih'
      · obtain ⟨o, ho⟩ := Option.isSome_iff_exists.1 (Qry.merge_isSome (h (a, .sql q0) (by simp) q0 rfl) hq)
        rw [ho]
        cases o with
        | none => exact ih'
        | some r => rfl

/-- **C24** Every sequence of requests is carried out: nothing raises and no search for a name runs on for
ever. -/
theorem C24_history_total (ops : List WOp) : ∀ (w : With), w.Ok → (∀ op ∈ ops, op.table.Ok) →
    (runOps w ops).isSome := by
  have one : ∀ (w : With) (op : WOp), w.Ok → op.table.Ok → (op.run w).isSome := by
    intro w op hw ht
    cases op with
    | add al t => exact C24_add_terminates w al t
    | merge al q =>
      have hq := ht q rfl
      have fresh : (match mergeInto w q al w with
        | none => none
        | some (some r) => some r
        | some none =>
            match freeName w (w.length + 2) al with
            | none => none
            | some n => some (w ++ [(n, WTbl.sql q)], n)).isSome := by
        obtain ⟨o, ho⟩ := Option.isSome_iff_exists.1 (mergeInto_isSome (w := w) hq al w hw.cols)
        obtain ⟨n, hn, _⟩ := C24_free_name_terminates w al
        rw [ho, hn]
        cases o <;> rfl
      show (mergeTable w al q).isSome
      unfold mergeTable
      simp only
      split
      · rename_i q0 hl
        obtain ⟨o, ho⟩ := Option.isSome_iff_exists.1 (Qry.merge_isSome (hw.cols _ (lookup_mem hl) q0 rfl) hq)
        rw [ho]
        cases o with
        | none => exact fresh
        | some r => rfl
      · exact fresh
  induction ops with
  | nil => intro _ _ _; rfl
  | cons op ops ih =>
    intro w hw ht
    obtain ⟨⟨w1, n⟩, h1⟩ := Option.isSome_iff_exists.1 (one w op hw (ht op (by simp)))
    have hw1 : w1.Ok := by
      have ht' := ht op (by simp)
      cases op with
      | add al t => exact (addTable_spec hw _ _ _ _ _ ht' (h1 : addOne w al t = _)).1
      | merge al q => exact (mergeTable_spec w al q w1 n hw (ht' q rfl) h1).1
    obtain ⟨⟨w2, ns⟩, h2⟩ := Option.isSome_iff_exists.1 (ih w1 hw1 (fun o ho => ht o (by simp [ho])))
    rw [runOps, h1]
    simp [h2]

/-! ### extend -/

/-- **C24** (violated for `extend`, which renames one table after the other): `B` reads the tables `A` and
`A_1` of its own WITH clause; after it was combined with another WITH clause that has a different `A`, it reads
the former `A_1` twice. -/
theorem C24_extend_violation :
    extendWith 3 [("A".toList, .raw ["x".toList])]
      [("A".toList, ["y".toList]), ("A_1".toList, ["z".toList]), ("B".toList, ["A".toList, "A_1".toList])]
    = some [("A".toList, .raw ["x".toList]), ("A_1".toList, .raw ["y".toList]),
        ("A_2".toList, .raw ["z".toList]), ("B".toList, .raw ["A_2".toList, "A_2".toList])] := by
  decide

/-- **C24** `extend` when no name and no table of the other WITH clause is there already: the
tables are appended, unchanged.
Missing: the general case, in which it can fail (previous theorem). -/
theorem C24_extend_partial (other : List (Txt × List Txt)) : ∀ (w : With),
    (∀ p ∈ other, p.1 ∉ w.map Prod.fst ∧ ∀ s ∈ w, s.2 ≠ .raw p.2) →
    (other.map Prod.fst).Nodup → (other.map Prod.snd).Nodup →
    extendWith other.length w other = some (w ++ other.map fun p => (p.1, .raw p.2)) := by
  induction other with
  | nil => intro w _ _ _; simp [extendWith]
  | cons p rest ih =>
    intro w h h1 h2
    obtain ⟨a, t⟩ := p
    rw [List.map_cons, List.nodup_cons] at h1 h2
    obtain ⟨hn, ht⟩ := h (a, t) (by simp)
    have hl : w.lookup a = none := by
      cases hl : w.lookup a with
      | none => rfl
      | some s => exact absurd (with_lookup_mem.1 (by rw [hl]; rfl)) hn
    have hf : w.find? (fun p => p.2.same (.raw t)) = none := by
      rw [List.find?_eq_none]
      intro s hs hsame
      have := ht s hs
      cases hs2 : s.2 with
      | raw x => rw [hs2] at hsame this; simp [WTbl.same] at hsame; exact this (by rw [hsame])
      | sql q => rw [hs2] at hsame; cases hsame
    rw [List.length_cons, extendWith, addOne, addTable, hl]
    simp only [hf, if_true]
    rw [ih]
    · simp
    · intro r hr
      obtain ⟨h3, h4⟩ := h r (by simp [hr])
      refine ⟨?_, ?_⟩
      · rw [List.map_append, List.mem_append]
        rintro (h5 | h5)
        · exact h3 h5
        · have : r.1 = a := by simpa using h5
          exact h1.1 (this ▸ List.mem_map.2 ⟨r, hr, rfl⟩)
      · intro s hs
        rcases List.mem_append.1 hs with hs | hs
        · exact h4 s hs
        · rw [List.mem_singleton.1 hs]
          intro h5
          have : t = r.2 := by simpa using h5
          exact h2.1 (this ▸ List.mem_map.2 ⟨r, hr, rfl⟩)
    · exact h1.2
    · exact h2.2

/-- The hypotheses are met. -/
example : extendWith 2 [("A".toList, .raw ["x".toList])]
      [("B".toList, ["y".toList]), ("C".toList, ["B".toList])]
    = some [("A".toList, .raw ["x".toList]), ("B".toList, .raw ["y".toList]), ("C".toList, .raw ["B".toList])] :=
  C24_extend_partial [("B".toList, ["y".toList]), ("C".toList, ["B".toList])] _ (by decide) (by decide) (by decide)

end Verif
