import Verif.Lemmas.SqlAgree

namespace Verif

theorem addCols_nodup {es : List SqlE} (h : es.Nodup) : addCols [] es = es := by
  have := addCols_eq es [] (by simpa using h)
  simpa using this

/-- Column by column, the Python table at `v` has the value of the SQL expression. -/
def ColsAgree (env : Env) (spow : Cell → Cell → Cell) (f : Frame) (glob sb : List String) (v : Key)
    (cs : List Tbl) (es : List SqlE) : Prop :=
  List.Forall₂ (fun t e =>
    t.get v = some (PyVal.ofCell (e.eval env spow (groupRows env f glob sb v)))) cs es

/-- What is needed to hand the filter bookkeeping to the children. -/
theorem loc_step {wh loc glob above : List String} (h1 : ∀ w ∈ loc, w ∈ above)
    (h2 : ∀ w ∈ above, w ∈ loc ∨ w ∈ glob) :
    (∀ w ∈ localFilter wh loc glob, w ∈ above ++ wh) ∧
    (∀ w ∈ above ++ wh, w ∈ localFilter wh loc glob ∨ w ∈ glob) := by
  constructor
  · intro w hw
    rw [localFilter_mem] at hw
    rw [List.mem_append]
    rcases hw.1 with h | h
    · exact Or.inr h
    · exact Or.inl (h1 w h)
  · intro w hw
    by_cases hg : w ∈ glob
    · exact Or.inr hg
    · left
      rw [localFilter_mem]
      rw [List.mem_append] at hw
      refine ⟨?_, hg⟩
      rcases hw with h | h
      · rcases h2 w h with h | h
        · exact Or.inr h
        · exact absurd h hg
      · exact Or.inl h

section
variable (env : Env) (spow : Cell → Cell → Cell) (f : Frame) (sb : List String) (v : Key)
  (glob : List String)
  (hpow : ∀ a b : Cell, (env.pow (.ofCell a) (.ofCell b)).isInf = false →
      env.pow (.ofCell a) (.ofCell b) = .ofCell (spow a b))

include hpow

theorem align_agree (op : BinOp) {a b : Tbl} {e1 e2 : SqlE}
    (ha : a.get v = some (PyVal.ofCell (e1.eval env spow (groupRows env f glob sb v))))
    (hb : b.get v = some (PyVal.ofCell (e2.eval env spow (groupRows env f glob sb v))))
    (hinf : ∀ x, (Tbl.align (op.py env) a b).get v = some x → x.isInf = false) :
    (Tbl.align (op.py env) a b).get v
      = some (PyVal.ofCell ((SqlE.bin op e1 e2).eval env spow (groupRows env f glob sb v))) := by
  have h := Tbl.get_align (op := op.py env) ha hb
  rw [h, op_agree env spow hpow op e1 e2 _ (hinf _ h)]

theorem lit_left_agree (op : BinOp) (q : Rat) {b : Tbl} {e : SqlE}
    (hb : b.get v = some (PyVal.ofCell (e.eval env spow (groupRows env f glob sb v))))
    (hinf : ∀ x, Tbl.get (b.map (fun p => (p.1, op.py env (.fin q) p.2))) v = some x →
      x.isInf = false) :
    Tbl.get (b.map (fun p => (p.1, op.py env (.fin q) p.2))) v
      = some (PyVal.ofCell ((SqlE.bin op (.lit q) e).eval env spow (groupRows env f glob sb v))) := by
  have h := Tbl.get_map_val (op.py env (.fin q)) hb
  have h' := hinf _ h
  rw [h, ← op_agree env spow hpow op (.lit q) e _ (by simpa [SqlE.eval, PyVal.ofCell] using h')]
  simp [SqlE.eval, PyVal.ofCell]

theorem lit_right_agree (op : BinOp) (q : Rat) {b : Tbl} {e : SqlE}
    (hb : b.get v = some (PyVal.ofCell (e.eval env spow (groupRows env f glob sb v))))
    (hinf : ∀ x, Tbl.get (b.map (fun p => (p.1, op.py env p.2 (.fin q)))) v = some x →
      x.isInf = false) :
    Tbl.get (b.map (fun p => (p.1, op.py env p.2 (.fin q)))) v
      = some (PyVal.ofCell ((SqlE.bin op e (.lit q)).eval env spow (groupRows env f glob sb v))) := by
  have h := Tbl.get_map_val (fun y => op.py env y (.fin q)) hb
  have h' := hinf _ h
  rw [h, ← op_agree env spow hpow op e (.lit q) _ (by simpa [SqlE.eval, PyVal.ofCell] using h')]
  simp [SqlE.eval, PyVal.ofCell]

omit hpow in
theorem forall₂_map_l {α β γ : Type} {R : α → β → Prop} {g : γ → α} {h : γ' → β}
    {xs : List γ} {ys : List γ'} (H : List.Forall₂ (fun x y => R (g x) (h y)) xs ys) :
    List.Forall₂ R (xs.map g) (ys.map h) := by
  induction H with
  | nil => exact .nil
  | cons h _ ih => exact .cons h ih

omit hpow in
theorem forall₂_imp_mem {α β : Type} {R S : α → β → Prop} {xs : List α} {ys : List β}
    (H : List.Forall₂ R xs ys) (h : ∀ x ∈ xs, ∀ y, R x y → S x y) : List.Forall₂ S xs ys := by
  induction H with
  | nil => exact .nil
  | cons h1 _ ih =>
    exact .cons (h _ (by simp) _ h1) (ih (fun x hx => h x (by simp [hx])))

omit hpow in
theorem forall₂_zipWith {as : List Tbl} {bs : List Tbl} {es gs : List SqlE}
    {R R' S : Tbl → SqlE → Prop} {opT : Tbl → Tbl → Tbl} {opE : SqlE → SqlE → SqlE}
    (H1 : List.Forall₂ R as es) (H2 : List.Forall₂ R' bs gs)
    (h : ∀ a b e g, opT a b ∈ List.zipWith opT as bs → R a e → R' b g → S (opT a b) (opE e g)) :
    List.Forall₂ S (List.zipWith opT as bs) (List.zipWith opE es gs) := by
  induction H1 generalizing bs gs with
  | nil => simp
  | cons h1 _ ih =>
    cases H2 with
    | nil => simp
    | cons h2 t2 =>
      simp only [List.zipWith_cons_cons]
      exact .cons (h _ _ _ _ (by simp) h1 h2)
        (ih t2 (fun a b e g hm => h a b e g (by simp [hm])))

omit hpow in
theorem nodup_zipWith_bin (op : BinOp) : ∀ (es gs : List SqlE), es.Nodup →
    (List.zipWith (SqlE.bin op) es gs).Nodup := by
  intro es
  induction es with
  | nil => simp
  | cons e es ih =>
    intro gs h
    cases gs with
    | nil => simp
    | cons g gs =>
      rw [List.nodup_cons] at h
      simp only [List.zipWith_cons_cons, List.nodup_cons]
      refine ⟨?_, ih gs h.2⟩
      intro hm
      obtain ⟨i, hi, heq⟩ := List.mem_iff_getElem.1 hm
      rw [List.getElem_zipWith] at heq
      simp only [SqlE.bin.injEq, true_and] at heq
      exact h.1 (heq.1 ▸ List.getElem_mem _)

/-- Pairing of columns: Python's and SQL's agree. -/
theorem zip_agree (op : BinOp) {as bs : List Tbl} {es gs hs : List SqlE}
    (ha : ColsAgree env spow f glob sb v as es) (hb : ColsAgree env spow f glob sb v bs gs)
    (nes : es.Nodup) (ngs : gs.Nodup) (hz : zipSql op es gs = .ok hs)
    (hinf : ∀ cs, zipCols (Tbl.align (op.py env)) as bs = .ok cs →
      ∀ t ∈ cs, ∀ x, t.get v = some x → x.isInf = false) :
    hs.Nodup ∧ ∃ cs, zipCols (Tbl.align (op.py env)) as bs = .ok cs ∧
      ColsAgree env spow f glob sb v cs hs := by
  have l1 : as.length = es.length := ha.length_eq
  have l2 : bs.length = gs.length := hb.length_eq
  unfold zipSql at hz
  split at hz
  · -- one left column
    rename_i e
    have nd : (gs.map (SqlE.bin op e)).Nodup := by
      apply List.Nodup.map _ ngs
      intro x y h; simpa using h
    rw [addCols_nodup nd] at hz
    simp only [Except.ok.injEq] at hz
    subst hz
    refine ⟨nd, ?_⟩
    match as, l1 with
    | [a], _ =>
      have e0 : zipCols (Tbl.align (op.py env)) [a] bs = .ok (bs.map (Tbl.align (op.py env) a)) := by
        simp [zipCols]
      refine ⟨_, e0, ?_⟩
      have hA := (List.forall₂_cons.1 ha).1
      apply forall₂_map_l
      apply forall₂_imp_mem hb
      intro b hbm g hg
      exact align_agree env spow f sb v glob hpow op hA hg
        (hinf _ e0 _ (List.mem_map.2 ⟨b, hbm, rfl⟩))
  · rename_i e hne
    have nd : (es.map (fun a => SqlE.bin op a e)).Nodup := by
      apply List.Nodup.map _ nes
      intro x y h; simpa using h
    rw [addCols_nodup nd] at hz
    simp only [Except.ok.injEq] at hz
    subst hz
    refine ⟨nd, ?_⟩
    match bs, l2 with
    | [b], _ =>
      have e0 : zipCols (Tbl.align (op.py env)) as [b]
          = .ok (as.map (fun a => Tbl.align (op.py env) a b)) := by
        unfold zipCols
        split
        · rename_i h1; simp
        · rename_i h1 h2; simp at h2; subst h2; rfl
        · rename_i h1 h2; exact absurd rfl (h2 b)
      refine ⟨_, e0, ?_⟩
      have hB := (List.forall₂_cons.1 hb).1
      apply forall₂_map_l
      apply forall₂_imp_mem ha
      intro a ham g hg
      exact align_agree env spow f sb v glob hpow op hg hB
        (hinf _ e0 _ (List.mem_map.2 ⟨a, ham, rfl⟩))
  · rename_i hn1 hn2
    split at hz
    · rename_i hlen
      have nd := nodup_zipWith_bin op es gs nes
      rw [addCols_nodup nd] at hz
      simp only [Except.ok.injEq] at hz
      subst hz
      refine ⟨nd, ?_⟩
      have e0 : zipCols (Tbl.align (op.py env)) as bs
          = .ok (List.zipWith (Tbl.align (op.py env)) as bs) := by
        unfold zipCols
        split
        · rename_i a
          exfalso
          match es, l1 with
          | [e], _ => exact hn1 e rfl
        · rename_i b hh
          exfalso
          match gs, l2 with
          | [e], _ => exact hn2 e rfl
        · rw [if_pos (by omega)]
      refine ⟨_, e0, ?_⟩
      exact forall₂_zipWith ha hb (fun a b e g hm h1 h2 =>
        align_agree env spow f sb v glob hpow op h1 h2 (hinf _ e0 _ hm))
    · simp at hz

omit hpow in
theorem asConst_some {m : M} {q : Rat} (h : m.asConst = some q) : m = .const q := by
  cases m <;> simp_all [M.asConst]

mutual
theorem compile_agree (hsb : ∀ c ∈ sb, c ∈ f.cols) : ∀ (m : M) (above loc : List String)
    (es : List SqlE), (∀ w ∈ loc, w ∈ above) → (∀ w ∈ above, w ∈ loc ∨ w ∈ glob) →
    (∀ x ∈ m.leafConds above, ∀ w ∈ glob, w ∈ x.2) →
    SqlSafe env f sb v glob m above loc → m.compile glob loc = .ok es →
    es.Nodup ∧ ∃ cs, m.run env (f.query env above) sb = .ok (.tbl [] cs) ∧
      ColsAgree env spow f glob sb v cs es
  | .const q, above, loc, es, _, _, _, _, h => by simp [M.compile] at h
  | .leaf k wh, above, loc, es, h1, h2, h3, hs, h => by
      simp only [M.compile, Except.ok.injEq] at h
      subst h
      refine ⟨by simp, ?_⟩
      obtain ⟨hc, hv, hval, hinf⟩ := hs
      simp only [M.run, query_query]
      have hall : ((k.vars ++ sb).all fun c => (f.query env (above ++ wh)).cols.contains c) = true := by
        rw [List.all_eq_true]
        intro c hcm
        rw [List.contains_iff_mem]
        rcases List.mem_append.1 hcm with h | h
        · exact hc c h
        · exact hsb c h
      refine ⟨_, by unfold Leaf.run; rw [if_pos hall], ?_⟩
      apply List.Forall₂.cons _ .nil
      rw [Tbl.get_map_keys _ (fun key => k.agg (rowsAt sb key (f.query env (above ++ wh)).rows)) hv]
      rw [leaf_agree env f sb v k glob (localFilter wh loc glob) (above ++ wh) _ hval hinf]
      · simp [SqlE.eval]
      · intro w
        constructor
        · intro hw
          have := (loc_step (wh := wh) h1 h2).2 w hw
          exact this.symm
        · rintro (hw | hw)
          · exact h3 (k, above ++ wh) (by simp [M.leafConds]) w hw
          · exact (loc_step (wh := wh) h1 h2).1 w hw
  | .comp op l r wh, above, loc, es, h1, h2, h3, hs, h => by
      obtain ⟨hsl, hsr, hinf⟩ := hs
      have hl := loc_step (wh := wh) h1 h2
      simp only [M.leafConds] at h3
      simp only [M.compile] at h
      simp only [M.run, query_query] at hinf ⊢
      split at h
      · -- number on the left
        rename_i q hq
        have hlq := asConst_some hq
        subst hlq
        split at h
        · simp at h
        · rename_i gs hgs
          have ih := compile_agree hsb r (above ++ wh) _ gs hl.1 hl.2
            (fun x hx => h3 x (by simp [hx])) hsr hgs
          obtain ⟨nd, bs, hrun, hag⟩ := ih
          have nd' : (gs.map (SqlE.bin op (.lit q))).Nodup := by
            apply List.Nodup.map _ nd
            intro x y hh; simpa using hh
          rw [addCols_nodup nd'] at h
          simp only [Except.ok.injEq] at h
          subst h
          refine ⟨nd', ?_⟩
          simp only [M.run, hrun, combine] at hinf ⊢
          refine ⟨_, rfl, ?_⟩
          apply forall₂_map_l
          apply forall₂_imp_mem hag
          intro b hbm g hg
          exact lit_left_agree env spow f sb v glob hpow op q hg
            (hinf _ _ rfl _ (List.mem_map.2 ⟨b, hbm, rfl⟩))
      · rename_i q hnone hq
        have hrq := asConst_some hq
        subst hrq
        split at h
        · simp at h
        · rename_i gs hgs
          have ih := compile_agree hsb l (above ++ wh) _ gs hl.1 hl.2
            (fun x hx => h3 x (by simp [hx])) hsl hgs
          obtain ⟨nd, bs, hrun, hag⟩ := ih
          have nd' : (gs.map (fun e => SqlE.bin op e (.lit q))).Nodup := by
            apply List.Nodup.map _ nd
            intro x y hh; simpa using hh
          rw [addCols_nodup nd'] at h
          simp only [Except.ok.injEq] at h
          subst h
          refine ⟨nd', ?_⟩
          simp only [M.run, hrun, combine] at hinf ⊢
          refine ⟨_, rfl, ?_⟩
          apply forall₂_map_l
          apply forall₂_imp_mem hag
          intro b hbm g hg
          exact lit_right_agree env spow f sb v glob hpow op q hg
            (hinf _ _ rfl _ (List.mem_map.2 ⟨b, hbm, rfl⟩))
      · split at h
        · simp at h
        · rename_i ls hls
          split at h
          · simp at h
          · rename_i gs hgs
            obtain ⟨nd1, as, hrun1, hag1⟩ := compile_agree hsb l (above ++ wh) _ ls hl.1 hl.2
              (fun x hx => h3 x (by simp [hx])) hsl hls
            obtain ⟨nd2, bs, hrun2, hag2⟩ := compile_agree hsb r (above ++ wh) _ gs hl.1 hl.2
              (fun x hx => h3 x (by simp [hx])) hsr hgs
            simp only [hrun1, hrun2, combine, if_true] at hinf ⊢
            obtain ⟨nd, cs, hz, hag⟩ := zip_agree env spow f sb v glob hpow op hag1 hag2 nd1 nd2 h
              (fun cs hcs => by
                simp only [hcs] at hinf
                exact hinf _ _ rfl)
            refine ⟨nd, cs, ?_, hag⟩
            simp [hz]
  | .list ms wh, above, loc, es, h1, h2, h3, hs, h => by
      obtain ⟨hne, hnd, hall⟩ := hs
      have hl := loc_step (wh := wh) h1 h2
      simp only [M.leafConds] at h3
      simp only [M.compile] at h
      simp only [M.run, query_query]
      obtain ⟨e1, rs, e2, e3⟩ := compileAll_agree hsb ms (above ++ wh) _ [] es hl.1 hl.2 h3 hall
        (by simpa using hnd) h
      simp only [List.nil_append] at e1
      subst e1
      refine ⟨hnd, ?_⟩
      rw [e2]; exact e3 hne
  | .oper o c wh, above, loc, es, _, _, _, hs, h => by simp [SqlSafe] at hs
theorem compileAll_agree (hsb : ∀ c ∈ sb, c ∈ f.cols) : ∀ (ms : List M) (above loc : List String)
    (acc es : List SqlE), (∀ w ∈ loc, w ∈ above) → (∀ w ∈ above, w ∈ loc ∨ w ∈ glob) →
    (∀ x ∈ leafCondsAll above ms, ∀ w ∈ glob, w ∈ x.2) →
    SqlSafeAll env f sb v glob ms above loc → (acc ++ listCols glob loc ms).Nodup →
    compileAll glob ms loc acc = .ok es →
    es = acc ++ listCols glob loc ms ∧
      ∃ rs, runAll env ms (f.query env above) sb = rs ∧
        (ms ≠ [] → ∃ cs, joinRes rs = .ok (.tbl [] cs) ∧
          ColsAgree env spow f glob sb v cs (listCols glob loc ms))
  | [], above, loc, acc, es, _, _, _, _, _, h => by
      simp only [compileAll, Except.ok.injEq] at h
      subst h
      exact ⟨by simp [listCols], _, rfl, by simp⟩
  | m :: ms, above, loc, acc, es, h1, h2, h3, hs, hnd, h => by
      obtain ⟨hs1, hs2⟩ := hs
      simp only [leafCondsAll] at h3
      simp only [compileAll] at h
      split at h
      · simp at h
      · rename_i gs hgs
        obtain ⟨nd, cs, hrun, hag⟩ := compile_agree hsb m above loc gs h1 h2
          (fun x hx => h3 x (by simp [hx])) hs1 hgs
        have hlc : listCols glob loc (m :: ms) = gs ++ listCols glob loc ms := by
          simp [listCols, hgs]
        rw [hlc] at hnd ⊢
        have hacc : addCols acc gs = acc ++ gs := by
          apply addCols_eq
          rw [← List.append_assoc] at hnd
          exact (List.nodup_append.1 hnd).1
        rw [hacc] at h
        obtain ⟨e1, rs, e2, e3⟩ := compileAll_agree hsb ms above loc (acc ++ gs) es h1 h2
          (fun x hx => h3 x (by simp [hx])) hs2 (by simpa using hnd) h
        refine ⟨by simpa using e1, _, rfl, ?_⟩
        intro _
        simp only [runAll, hrun, e2]
        match ms, e2, e3 with
        | [], e2, _ =>
          simp only [runAll] at e2
          subst e2
          refine ⟨cs, by simp [joinRes], ?_⟩
          simpa [listCols] using hag
        | m' :: ms', _, e3 =>
          obtain ⟨cs', hj, hag'⟩ := e3 (by simp)
          refine ⟨cs ++ cs', ?_, ?_⟩
          · match rs, hj with
            | [], hj => simp [joinRes] at hj
            | r :: rs', hj => simp only [joinRes, hj, if_true]
          · exact List.rel_append hag hag'
end
end

end Verif
