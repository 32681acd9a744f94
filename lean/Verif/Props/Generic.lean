import Verif.Spec.Generic
import Verif.Props.HashKey

/-!
# C91: metrics defined by their `compute()`
-/

namespace Verif

open Fp

namespace Gen

variable {V : Type}

/-! ## Dicts of slice values -/

theorem mem_sortItems {d : List (String × ℚ)} {p : String × ℚ} : p ∈ sortItems d ↔ p ∈ d :=
  (List.perm_insertionSort _ d).mem_iff

theorem mem_setItem {r : Row} {d : List (String × ℚ)} {c : String} {v : ℚ} (hd : ∀ p ∈ d, r p.1 = some p.2)
    (hc : r c = some v) {p : String × ℚ} : p ∈ setItem d c v ↔ p = (c, v) ∨ p ∈ d := by
  induction d with
  | nil => simp [setItem]
  | cons q qs ih =>
    rw [setItem]
    split
    · next e =>
      have : q = (c, v) := by
        have h1 := hd q (by simp)
        rw [e, hc] at h1
        exact Prod.ext e (Option.some.inj h1).symm
      simp [this]
    · rw [List.mem_cons, ih fun p hp => hd p (by simp [hp]), List.mem_cons]
      tauto

theorem mem_foldSet {r : Row} (l : List (String × ℚ)) (hl : ∀ p ∈ l, r p.1 = some p.2) : ∀ (d : List (String × ℚ)),
    (∀ p ∈ d, r p.1 = some p.2) → ∀ p, p ∈ l.foldl (fun d p => setItem d p.1 p.2) d ↔ p ∈ l ∨ p ∈ d := by
  induction l with
  | nil => simp
  | cons q qs ih =>
    intro d hd p
    have hq : r q.1 = some q.2 := hl q (by simp)
    rw [List.foldl_cons, ih (fun p hp => hl p (by simp [hp]))]
    · rw [mem_setItem hd hq, List.mem_cons]; tauto
    · intro p hp
      rcases (mem_setItem hd hq).1 hp with rfl | hp
      · exact hq
      · exact hd p hp

theorem mem_dictOf {r : Row} {l : List (String × ℚ)} (hl : ∀ p ∈ l, r p.1 = some p.2) (p : String × ℚ) :
    p ∈ dictOf l ↔ p ∈ l := by
  rw [dictOf, mem_foldSet l hl [] (by simp)]
  simp

theorem joinSlice_some {r : Row} (old : List (String × ℚ)) (ho : ∀ p ∈ old, r p.1 = some p.2) : ∀ (new : List (String × ℚ)),
    (∀ p ∈ new, r p.1 = some p.2) → ∃ d, joinSlice new old = some d ∧ ∀ p, p ∈ d ↔ p ∈ new ∨ p ∈ old := by
  induction old with
  | nil => intro new _; exact ⟨new, rfl, by simp⟩
  | cons q qs ih =>
    intro new hn
    have hq : r q.1 = some q.2 := ho q (by simp)
    have hno : ¬ (new.any fun p => decide (p.1 = q.1 ∧ p.2 ≠ q.2)) = true := by
      simp only [List.any_eq_true, decide_eq_true_eq, not_exists, not_and, not_not]
      intro p hp e
      have := hn p hp
      rw [e, hq] at this
      exact (Option.some.inj this).symm
    have hn' : ∀ p ∈ setItem new q.1 q.2, r p.1 = some p.2 := by
      intro p hp
      rcases (mem_setItem hn hq).1 hp with rfl | hp
      · exact hq
      · exact hn p hp
    obtain ⟨d, hd, hm⟩ := ih (fun p hp => ho p (by simp [hp])) _ hn'
    refine ⟨d, by rw [joinSlice, if_neg hno, hd], fun p => ?_⟩
    rw [hm, mem_setItem hn hq, List.mem_cons]
    tauto

/-! ## Keys and rows -/

theorem keyOf_zip {r : Row} : ∀ {sb : List String} {k : Key},
    keyOf sb r = some k ↔ k.length = sb.length ∧ ∀ p ∈ sb.zip k, r p.1 = some p.2 := by
  intro sb
  induction sb with
  | nil => intro k; cases k <;> simp [keyOf]
  | cons c sb ih =>
    intro k
    have ih' : ∀ {k : Key}, List.mapM r sb = some k ↔ k.length = sb.length ∧ ∀ p ∈ sb.zip k, r p.1 = some p.2 := ih
    cases k with
    | nil =>
      refine ⟨fun e => ?_, fun e => by simp at e⟩
      rcases h1 : r c with _ | a <;> rcases h2 : List.mapM r sb with _ | l <;> simp [keyOf, List.mapM_cons, h1, h2] at e
    | cons q k =>
      simp only [keyOf, List.mapM_cons, Option.bind_eq_bind, Option.bind_eq_some_iff, Option.pure_def, Option.some.injEq,
        List.cons.injEq, List.length_cons, List.zip_cons_cons, List.mem_cons, forall_eq_or_imp, Nat.add_right_cancel_iff]
      constructor
      · rintro ⟨q', hq, k', hk, rfl, rfl⟩
        exact ⟨(ih'.1 hk).1, hq, (ih'.1 hk).2⟩
      · rintro ⟨hl, hq, hz⟩
        exact ⟨q, hq, k, ih'.2 ⟨hl, hz⟩, rfl, rfl⟩

theorem mem_sortedKeys {sb : List String} {rows : List Row} {k : Key} :
    k ∈ sortedKeys sb rows ↔ ∃ r ∈ rows, keyOf sb r = some k := by
  rw [sortedKeys, (List.perm_insertionSort _ _).mem_iff, List.mem_dedup, List.mem_filterMap]

/-- The rows a key is about. -/
def ctx (env : Env) (df : List Row) (k : GKey) : List Row :=
  df.filter fun r => (k.wh.all fun w => env.query w r) && k.slice.all fun p => decide (r p.1 = some p.2)

/-- The columns fixed by a key. -/
def dom (k : GKey) : Set String := {c | ∃ v, (c, v) ∈ k.slice}

open Classical in
/-- The split a key is about. -/
noncomputable def tsplit (k : GKey) : List String := if ∀ c ∈ k.splitBy, c ∈ dom k then [] else k.splitBy

theorem ctx_congr {env : Env} {df : List Row} {k k' : GKey} (hw : ∀ w, w ∈ k.wh ↔ w ∈ k'.wh)
    (hs : ∀ p, p ∈ k.slice ↔ p ∈ k'.slice) : ctx env df k = ctx env df k' := by
  refine List.filter_congr fun r _ => ?_
  rw [Bool.eq_iff_iff]
  simp only [Bool.and_eq_true, List.all_eq_true, decide_eq_true_eq, hw, hs]

theorem mem_sortDedup {l l' : List String} (h : sortStr l.dedup = sortStr l'.dedup) (w : String) : w ∈ l ↔ w ∈ l' := by
  have p1 := List.perm_insertionSort (· ≤ ·) l.dedup
  have p2 := List.perm_insertionSort (· ≤ ·) l'.dedup
  rw [← List.mem_dedup, ← p1.mem_iff, show l.dedup.insertionSort (· ≤ ·) = l'.dedup.insertionSort (· ≤ ·) from h,
    p2.mem_iff, List.mem_dedup]

section
variable {H : Type} (env : Env) {h : PyHash H} (P : Pd V) (F : AV → List String → List Row → Except Exn V) (C : Set String)
  (df : List Row) (dn : ℕ)

/-- Everything in the cache is the value of what its key is about. -/
def Inv (cache : List (GKey × V)) : Prop :=
  ∀ e ∈ cache, e.1.hkey.small dn ∧ F e.1.fp (tsplit e.1) (ctx env df e.1) = .ok e.2

variable {env F df dn}

theorem look_value (hdn : Denominator dn) (hi : h.Ideal) {cache : List (GKey × V)} (hc : Inv env F df dn cache) {k : GKey} (hk : k.hkey.small dn) {v : V}
    (hl : look h cache k = some v) : F k.fp (tsplit k) (ctx env df k) = .ok v := by
  unfold look at hl
  rw [Option.map_eq_some_iff] at hl
  obtain ⟨e, he, rfl⟩ := hl
  have h1 := List.find?_some he
  obtain ⟨hs, hv⟩ := hc e (List.mem_of_find?_eq_some he)
  simp only [decide_eq_true_eq] at h1
  have hk' := (C75_no_confusion_partial h hi hdn _ _ hs hk).1 h1
  simp only [GKey.hkey, HKey.mk.injEq, and_true] at hk'
  obtain ⟨e1, -, e3, e4, e5⟩ := hk'
  have e4' : e.1.slice = k.slice := by
    refine List.map_injective_iff.2 ?_ e4
    rintro ⟨a, b⟩ ⟨a', b'⟩ e
    simpa using e
  have ed : dom e.1 = dom k := by simp [dom, e4']
  have et : tsplit e.1 = tsplit k := by unfold tsplit; rw [ed, e3]
  rw [← e1, ← et, ctx_congr (k' := e.1) (fun w => (mem_sortDedup e5 w).symm) (fun p => by rw [e4']), hv]

/-- The numbers of a key other than those in the fingerprint. -/
def RS (dn : ℕ) (k : GKey) : Prop := k.raw.small dn ∧ ∀ p ∈ k.slice, (AV.num p.2).small dn

theorem RS.small {k : GKey} (hk : RS dn k) (hf : k.fp.small dn) : k.hkey.small dn := by
  refine ⟨hf, hk.1, ?_⟩
  intro p hp
  obtain ⟨q, hq, rfl⟩ := List.mem_map.1 hp
  exact hk.2 q hq

theorem addSlice_some {k : GKey} {sb : List String} {v : Key} (hv : v ∈ sortedKeys sb (ctx env df k)) :
    ∃ k', k.addSlice sb v = some k' ∧ k'.fp = k.fp ∧ k'.raw = k.raw ∧ k'.splitBy = k.splitBy ∧ k'.wh = k.wh ∧
      ∀ p, p ∈ k'.slice ↔ p ∈ sb.zip v ∨ p ∈ k.slice := by
  obtain ⟨r, hr, hk⟩ := mem_sortedKeys.1 hv
  have hz := (keyOf_zip.1 hk).2
  rw [ctx, List.mem_filter] at hr
  simp only [Bool.and_eq_true, List.all_eq_true, decide_eq_true_eq] at hr
  have hd : ∀ p ∈ dictOf (sb.zip v), r p.1 = some p.2 := fun p hp => hz p ((mem_dictOf hz p).1 hp)
  obtain ⟨d, e, hm⟩ := joinSlice_some k.slice hr.2.2 _ hd
  refine ⟨{ k with slice := sortItems d }, by rw [GKey.addSlice, e, Option.map_some], rfl, rfl, rfl, rfl, fun p => ?_⟩
  show p ∈ sortItems d ↔ _
  rw [mem_sortItems, hm, mem_dictOf hz]

theorem rowsAt_ctx {k k' : GKey} {sb : List String} {v : Key} (hl : v.length = sb.length) (hw : k'.wh = k.wh)
    (hs : ∀ p, p ∈ k'.slice ↔ p ∈ sb.zip v ∨ p ∈ k.slice) : rowsAt sb v (ctx env df k) = ctx env df k' := by
  rw [rowsAt, ctx, ctx, List.filter_filter]
  refine List.filter_congr fun r _ => ?_
  rw [Bool.eq_iff_iff]
  simp only [Bool.and_eq_true, List.all_eq_true, decide_eq_true_eq, hw, hs, keyOf_zip, hl, true_and]
  constructor
  · rintro ⟨a, b, c⟩
    exact ⟨b, fun p hp => hp.elim (a p) (c p)⟩
  · rintro ⟨b, c⟩
    exact ⟨fun p hp => c p (.inl hp), b, fun p hp => c p (.inr hp)⟩

theorem eachSlice_inv {S : Type} {I : S → Prop} {step : Key → S → Except Exn V × S} {f : Key → Except Exn V} :
    ∀ (ks : List Key), (∀ k ∈ ks, ∀ s, I s → (step k s).1 = f k ∧ I (step k s).2) → ∀ s, I s →
      (eachSlice step ks s).1 = onSlices f ks ∧ I (eachSlice step ks s).2 := by
  intro ks
  induction ks with
  | nil => intro _ s hs; exact ⟨rfl, hs⟩
  | cons k ks ih =>
    intro hk s hs
    obtain ⟨h1, h2⟩ := hk k (by simp) s hs
    rw [eachSlice, onSlices]
    rcases e : step k s with ⟨r, s'⟩
    rw [e] at h1 h2
    simp only at h1 h2
    rw [← h1]
    cases r with
    | error e => exact ⟨rfl, h2⟩
    | ok v =>
      obtain ⟨h3, h4⟩ := ih (fun k hk' => hk k (by simp [hk'])) s' h2
      simp only
      rcases e' : eachSlice step ks s' with ⟨r', s''⟩
      rw [e'] at h3 h4
      simp only at h3 h4
      rw [← h3]
      cases r' with
      | error e => exact ⟨rfl, h4⟩
      | ok cs => exact ⟨rfl, h4⟩

omit C in
theorem gather_fst {S : Type} (sb : List String) (p : Except Exn (List (Key × V)) × S) :
    (gather P sb p).1 = together P sb p.1 := by
  rcases p with ⟨_ | _, _⟩ <;> rfl

theorem gather_snd {S : Type} (sb : List String) (p : Except Exn (List (Key × V)) × S) : (gather P sb p).2 = p.2 := by
  rcases p with ⟨_ | _, _⟩ <;> rfl

theorem save_inv {key : GKey} (hk : key.hkey.small dn) {x : Except Exn V} (hv : F key.fp (tsplit key) (ctx env df key) = x)
    {p : Except Exn V × List (GKey × V)} (hp : p.1 = x) (hc : Gen.Inv env F df dn p.2) :
    (save key p).1 = x ∧ Gen.Inv env F df dn (save key p).2 := by
  rcases p with ⟨e | v, c⟩
  · exact ⟨hp, hc⟩
  · refine ⟨hp, ?_⟩
    intro e he
    rcases List.mem_cons.1 he with rfl | he
    · exact ⟨hk, hv.trans hp.symm⟩
    · exact hc e he

variable {P C}

mutual
theorem um_run (hdn : Denominator dn) (hi : h.Ideal) (hC : SmallKeys dn C df) : ∀ (m : UM V) (key : GKey) (sb : List String) (rows : List Row)
    (cache : List (GKey × V)), key.fp = m.fp → tsplit key = sb → filt env m.wh rows = ctx env df key →
    UM.Well env P F C dn m (dom key) key.splitBy sb → RS dn key → Inv env F df dn cache →
    (m.run env h P key sb rows cache).1 = m.value env P sb rows ∧ Inv env F df dn (m.run env h P key sb rows cache).2
  | .whole fp wh prog, key, sb, rows, cache, hf, ht, hr, hw, hs, hc => by
    obtain ⟨w1, w2, w3, w4⟩ := hw
    have hr' : filt env wh rows = ctx env df key := hr
    have hf' : key.fp = fp := hf
    have hval : F key.fp (tsplit key) (ctx env df key) = UM.value env P (.whole fp wh prog) sb rows := by
      rw [hf', ht, ← hr', w3, UM.value]
    rw [UM.run]
    split
    · next v hl => exact ⟨by rw [← hval, look_value hdn hi hc (hs.small (hf' ▸ w1)) hl], hc⟩
    · obtain ⟨h1, h2⟩ := prog_run hdn hi hC (prog sb (filt env wh rows)) key (filt env wh rows) cache hr' (w4 _) hs hc
      refine save_inv (hs.small (hf' ▸ w1)) hval ?_ h2
      rw [h1, UM.value]
  | .sliced fp wh first prog, key, sb, rows, cache, hf, ht, hr, hw, hs, hc => by
    obtain ⟨w1, w2, w3, w0, w4⟩ := hw
    have hr' : filt env wh rows = ctx env df key := hr
    have hf' : key.fp = fp := hf
    have hval : F key.fp (tsplit key) (ctx env df key) = UM.value env P (.sliced fp wh first prog) sb rows := by
      rw [hf', ht, ← hr', w3, UM.value]
    rw [UM.run]
    split
    · next v hl => exact ⟨by rw [← hval, look_value hdn hi hc (hs.small (hf' ▸ w1)) hl], hc⟩
    · obtain ⟨h1, h2⟩ := prog_run hdn hi hC (first sb (filt env wh rows)) key (filt env wh rows) cache hr' (w0 _) hs hc
      rcases e0 : Prog.run env h P (first sb (filt env wh rows)) key (filt env wh rows) cache with ⟨r, cache'⟩
      rw [e0] at h1 h2
      simp only at h1 h2 ⊢
      by_cases hn : notImpl r
      · rw [if_pos hn]
        split
        · next hsb =>
          have w5 : Prog.Well env P F C dn (prog (filt env wh rows)) (dom key) key.splitBy := by
            have := w4 (filt env wh rows)
            rwa [show dom key ∪ {c | c ∈ sb} = dom key by ext c; simp [hsb]] at this
          obtain ⟨h3, h4⟩ := prog_run hdn hi hC (prog (filt env wh rows)) key (filt env wh rows) cache' hr' w5 hs h2
          refine save_inv (hs.small (hf' ▸ w1)) hval ?_ h4
          rw [h3, UM.value, unlessDone, ← h1, if_pos hn, if_pos hsb]
        · next hsb =>
          have main := eachSlice_inv (I := Gen.Inv env F df dn)
            (step := fun k c => withKey (key.addSlice sb k) c fun key' =>
              Prog.run env h P (prog (rowsAt sb k (filt env wh rows))) key' (rowsAt sb k (filt env wh rows)) c)
            (f := fun k => Prog.value env P (prog (rowsAt sb k (filt env wh rows))) (rowsAt sb k (filt env wh rows)))
            (sortedKeys sb (filt env wh rows))
            (fun k hk c hc => by
              have hk' : k ∈ sortedKeys sb (ctx env df key) := hr' ▸ hk
              obtain ⟨key', e, -, k2, k3, k4, k5⟩ := addSlice_some hk'
              obtain ⟨r, hrm, hkr⟩ := mem_sortedKeys.1 hk'
              have hrd : r ∈ df := (List.mem_filter.1 hrm).1
              obtain ⟨hlen, hz⟩ := keyOf_zip.1 hkr
              simp only [e, withKey]
              have hd : dom key' = dom key ∪ {c | c ∈ sb} := by
                ext c
                simp only [dom, Set.mem_setOf_eq, Set.mem_union, k5]
                constructor
                · rintro ⟨v, hv | hv⟩
                  · exact .inr (List.of_mem_zip hv).1
                  · exact .inl ⟨v, hv⟩
                · rintro (⟨v, hv⟩ | hc)
                  · exact ⟨v, .inr hv⟩
                  · obtain ⟨i, hi, rfl⟩ := List.mem_iff_getElem.1 hc
                    refine ⟨k[i]'(hlen ▸ hi), .inl ?_⟩
                    rw [List.mem_iff_getElem]
                    exact ⟨i, by rw [List.length_zip, hlen]; simpa using hi, by simp⟩
              refine prog_run hdn hi hC _ key' _ c ?_ ?_ ?_ hc
              · rw [hr', rowsAt_ctx hlen k4 k5]
              · rw [hd, k3]; exact w4 _
              · refine ⟨k2 ▸ hs.1, fun p hp => ?_⟩
                rcases (k5 p).1 hp with hp | hp
                · exact hC r hrd p.1 (w2 _ (List.of_mem_zip hp).1) _ (hz p hp)
                · exact hs.2 p hp)
            cache' h2
          obtain ⟨h3, h4⟩ := main
          refine save_inv (hs.small (hf' ▸ w1)) hval ?_ (gather_snd P sb _ ▸ h4)
          rw [gather_fst, h3, UM.value, unlessDone, ← h1, if_pos hn, if_neg hsb]
      · rw [if_neg hn]
        refine save_inv (hs.small (hf' ▸ w1)) hval ?_ h2
        rw [UM.value, unlessDone, ← h1, if_neg hn]
theorem prog_run (hdn : Denominator dn) (hi : h.Ideal) (hC : SmallKeys dn C df) : ∀ (p : Prog V) (key : GKey) (rows : List Row)
    (cache : List (GKey × V)), rows = ctx env df key → Prog.Well env P F C dn p (dom key) key.splitBy → RS dn key →
    Inv env F df dn cache →
    (p.run env h P key rows cache).1 = p.value env P rows ∧ Inv env F df dn (p.run env h P key rows cache).2
  | .ret v, key, rows, cache, _, _, _, hc => ⟨by rw [Prog.run, Prog.value], by rw [Prog.run]; exact hc⟩
  | .raise e, key, rows, cache, _, _, _, hc => ⟨by rw [Prog.run, Prog.value], by rw [Prog.run]; exact hc⟩
  | .ask m sb k, key, rows, cache, hr, hw, hs, hc => by
    obtain ⟨w1, w2, w3⟩ := hw
    have hdom : dom (key.child m sb) = dom key := by
      ext c; simp [dom, GKey.child, mem_sortItems]
    have hsp : (key.child m sb).splitBy = if sb = [] then key.splitBy else sb := rfl
    obtain ⟨h1, h2⟩ := um_run hdn hi hC m (key.child m sb) sb rows cache rfl
      (by
        unfold tsplit
        rw [hdom, hsp]
        by_cases hsb : sb = []
        · rw [if_pos hsb] at w1 ⊢
          rw [if_pos w1, hsb]
        · rw [if_neg hsb] at w1 ⊢
          rw [if_neg]
          obtain ⟨c, hc, hn⟩ := w1
          exact fun hall => hn (hall c hc))
      (by
        rw [hr, filt, ctx, ctx, List.filter_filter]
        refine List.filter_congr fun r _ => ?_
        rw [Bool.eq_iff_iff]
        simp only [Bool.and_eq_true, List.all_eq_true, decide_eq_true_eq, GKey.child, List.mem_append, mem_sortItems]
        constructor
        · rintro ⟨a, b, c⟩
          exact ⟨fun w hw => hw.elim (b w) (a w), c⟩
        · rintro ⟨a, b⟩
          exact ⟨fun w hw => a w (.inr hw), fun w hw => a w (.inl hw), b⟩)
      (by rw [hdom, hsp]; exact w2)
      ⟨hs.1, fun p hp => hs.2 p (mem_sortItems.1 hp)⟩ hc
    rw [Prog.run, Prog.value]
    rcases e : UM.run env h P m (key.child m sb) sb rows cache with ⟨r, c'⟩
    rw [e] at h1 h2
    simp only at h1 h2 ⊢
    rw [← h1]
    exact prog_run hdn hi hC (k r) key rows c' hr (w3 r) hs h2
end

end

theorem sorted_sortedKeys (sb : List String) (rows : List Row) : (sortedKeys sb rows).Pairwise (· < ·) := by
  have h1 : (sortedKeys sb rows).Pairwise (· ≤ ·) := List.pairwise_insertionSort (· ≤ ·) _
  have h2 : (sortedKeys sb rows).Nodup := (List.perm_insertionSort _ _).nodup_iff.2 (List.nodup_dedup _)
  exact (h1.and h2).imp fun h => lt_of_le_of_ne h.1 h.2

theorem onSlices_ok {f : Key → Except Exn V} : ∀ {ks : List Key}, (∀ k ∈ ks, ∃ v, f k = .ok v) →
    ∃ cs, onSlices f ks = .ok cs ∧ cs.map Prod.fst = ks ∧ ∀ c ∈ cs, f c.1 = .ok c.2
  | [], _ => ⟨[], rfl, rfl, by simp⟩
  | k :: ks, h => by
    obtain ⟨v, hv⟩ := h k (by simp)
    obtain ⟨cs, e, h1, h2⟩ := onSlices_ok (ks := ks) fun k hk => h k (by simp [hk])
    refine ⟨(k, v) :: cs, by rw [onSlices, hv, e], by simp [h1], ?_⟩
    intro c hc
    rcases List.mem_cons.1 hc with rfl | hc
    · exact hv
    · exact h2 c hc

theorem onSlices_error {f : Key → Except Exn V} {e : Exn} : ∀ {ks : List Key}, onSlices f ks = .error e →
    ∃ l k r, ks = l ++ k :: r ∧ f k = .error e ∧ ∀ k' ∈ l, ∃ v, f k' = .ok v
  | [], h => by simp [onSlices] at h
  | k :: ks, h => by
    rw [onSlices] at h
    split at h
    · next e' he => cases h; exact ⟨[], k, ks, rfl, he, by simp⟩
    · next v hv =>
      split at h
      · next e' he =>
        cases h
        obtain ⟨l, k', r, rfl, h1, h2⟩ := onSlices_error he
        refine ⟨k :: l, k', r, rfl, h1, ?_⟩
        intro x hx
        rcases List.mem_cons.1 hx with rfl | hx
        · exact ⟨v, hv⟩
        · exact h2 x hx
      · cases h

theorem eachSlice_pure {S : Type} {step : Key → S → Except Exn V × S} {f : Key → Except Exn V} (ks : List Key) (s : S)
    (hk : ∀ k ∈ ks, step k s = (f k, s)) : eachSlice step ks s = (onSlices f ks, s) := by
  have := eachSlice_inv (I := fun t => t = s) (step := step) (f := f) ks (fun k h t ht => by subst ht; rw [hk k h]; exact ⟨rfl, rfl⟩) s rfl
  exact Prod.ext this.1 this.2

theorem rootKey_addSlice (m : UM V) (raw : AV) (sb sb' : List String) (k : Key) :
    ∃ k', (m.rootKey raw sb).addSlice sb' k = some k' := by
  rw [GKey.addSlice, UM.rootKey, joinSlice]
  exact ⟨_, rfl⟩

/-- A metric without helpers computes what it computes without a cache, whatever the hashes. -/
theorem plain_computeOn {H : Type} (env : Env) (h : PyHash H) (P : Pd V) (fp raw : AV) (wh : List String)
    (f : List Row → Except Exn V) (sb : List String) (rows : List Row) (hsb : sb ≠ []) :
    (plainMetric fp wh f).computeOn env h P raw sb rows =
      together P sb (onSlices (fun k => f (rowsAt sb k (filt env wh rows))) (sortedKeys sb (filt env wh rows))) := by
  have hs : ∀ (key : GKey) (p : Except Exn V × List (GKey × V)), (save key p).1 = p.1 := by
    rintro key ⟨_ | _, _⟩ <;> rfl
  rw [UM.computeOn, plainMetric, UM.run]
  simp only [look, List.find?_nil, Option.map_none, if_neg hsb, Prog.run, notImpl, if_true, hs, gather_fst]
  rw [eachSlice_pure (f := fun k => f (rowsAt sb k (filt env wh rows)))]
  intro k _
  obtain ⟨k', e⟩ := rootKey_addSlice (.sliced fp wh (fun _ _ => .raise .notImplemented) fun rows => ofResult (f rows)) raw sb sb k
  rw [e, withKey]
  rcases f (rowsAt sb k (filt env wh rows)) with e | v <;> simp only [ofResult, Prog.run]

end Gen

open Gen

/-- **C91** A metric defined by a function `f` for `compute()`, with filters `wh`, split by `sb`: if `f` gives a value (that is not a
DataFrame or Series) for every combination of values of the split columns that occurs in a row that passes the filters, the result has
exactly one value for each of these combinations, in increasing order, and it is `f` of the rows with that combination, in their order. -/
theorem C91_slices {V H : Type} (env : Env) (h : PyHash H) (P : Pd V) (fp raw : AV) (wh : List String)
    (f : List Row → Except Exn V) (sb : List String) (rows : List Row) (hsb : sb ≠ [])
    (hex : ∃ r ∈ rows, (∀ w ∈ wh, env.query w r = true) ∧ ∀ c ∈ sb, r c ≠ none)
    (hf : ∀ k : Key, (∃ r ∈ rows, (∀ w ∈ wh, env.query w r = true) ∧ keyOf sb r = some k) →
      ∃ x, f (rows.filter fun r => (wh.all fun w => env.query w r) && decide (keyOf sb r = some k)) = .ok x ∧
        P.isFrame x = false) :
    ∃ cells : List (Key × V), (plainMetric fp wh f).computeOn env h P raw sb rows = .ok (P.series cells) ∧
      (cells.map Prod.fst).Pairwise (· < ·) ∧
      ∀ k x, (k, x) ∈ cells ↔ (∃ r ∈ rows, (∀ w ∈ wh, env.query w r = true) ∧ keyOf sb r = some k) ∧
        f (rows.filter fun r => (wh.all fun w => env.query w r) && decide (keyOf sb r = some k)) = .ok x := by
  have hocc : ∀ k, k ∈ sortedKeys sb (filt env wh rows) ↔
      ∃ r ∈ rows, (∀ w ∈ wh, env.query w r = true) ∧ keyOf sb r = some k := by
    intro k
    rw [mem_sortedKeys]
    simp only [filt, List.mem_filter, List.all_eq_true]
    constructor
    · rintro ⟨r, ⟨a, b⟩, c⟩; exact ⟨r, a, b, c⟩
    · rintro ⟨r, a, b, c⟩; exact ⟨r, ⟨a, b⟩, c⟩
  have hrows : ∀ k, rowsAt sb k (filt env wh rows) =
      rows.filter fun r => (wh.all fun w => env.query w r) && decide (keyOf sb r = some k) := by
    intro k
    rw [rowsAt, filt, List.filter_filter]
    exact List.filter_congr fun r _ => Bool.and_comm _ _
  obtain ⟨cs, e, h1, h2⟩ := onSlices_ok (f := fun k => f (rowsAt sb k (filt env wh rows)))
    (ks := sortedKeys sb (filt env wh rows)) (fun k hk => by
      obtain ⟨x, hx, -⟩ := hf k ((hocc k).1 hk)
      exact ⟨x, by rw [hrows, hx]⟩)
  have hmem : ∀ k x, (k, x) ∈ cs ↔ k ∈ sortedKeys sb (filt env wh rows) ∧ f (rowsAt sb k (filt env wh rows)) = .ok x := by
    intro k x
    constructor
    · intro hm
      exact ⟨h1 ▸ List.mem_map.2 ⟨_, hm, rfl⟩, h2 _ hm⟩
    · rintro ⟨hk, hx⟩
      rw [← h1] at hk
      obtain ⟨⟨k', x'⟩, hm, rfl⟩ := List.mem_map.1 hk
      have := h2 _ hm
      simp only at this
      rw [hx] at this
      cases this
      exact hm
  refine ⟨cs, ?_, h1 ▸ sorted_sortedKeys _ _, fun k x => by rw [hmem, hocc, hrows]⟩
  rw [plain_computeOn env h P fp raw wh f sb rows hsb, e, together]
  obtain ⟨r, hr, hw, hn⟩ := hex
  have : ∃ k, keyOf sb r = some k := by
    clear hf hocc hrows e h1 h2 hmem hsb
    induction sb with
    | nil => exact ⟨[], rfl⟩
    | cons c sb ih =>
      obtain ⟨k, hk⟩ := ih fun c hc => hn c (by simp [hc])
      obtain ⟨q, hq⟩ := Option.ne_none_iff_exists'.1 (hn c (by simp))
      refine ⟨q :: k, ?_⟩
      have hk' : List.mapM r sb = some k := hk
      simp [keyOf, List.mapM_cons, hq, hk']
  obtain ⟨k, hk⟩ := this
  have hk' : k ∈ cs.map Prod.fst := h1 ▸ (hocc k).2 ⟨r, hr, hw, hk⟩
  cases cs with
  | nil => simp at hk'
  | cons c cs =>
    obtain ⟨x, hx, hfr⟩ := hf c.1 ((hocc _).1 (h1 ▸ List.mem_map.2 ⟨c, by simp, rfl⟩))
    have := h2 c (by simp)
    simp only [hrows, hx, Except.ok.injEq] at this
    rw [finish, ← this, hfr]
    rfl

/-- **C91** If it raises, it raises what `f` raises on the first combination (in increasing order) on which `f` raises, or there is no
combination at all (IndexError), or the results could not be put together. -/
theorem C91_error {V H : Type} (env : Env) (h : PyHash H) (P : Pd V) (fp raw : AV) (wh : List String)
    (f : List Row → Except Exn V) (sb : List String) (rows : List Row) (hsb : sb ≠ []) (hP : ∀ v, P.isFrame v = false) (e : Exn)
    (he : (plainMetric fp wh f).computeOn env h P raw sb rows = .error e) :
    (∃ k, (∃ r ∈ rows, (∀ w ∈ wh, env.query w r = true) ∧ keyOf sb r = some k) ∧
      f (rows.filter fun r => (wh.all fun w => env.query w r) && decide (keyOf sb r = some k)) = .error e ∧
      ∀ k' < k, (∃ r ∈ rows, (∀ w ∈ wh, env.query w r = true) ∧ keyOf sb r = some k') →
        ∃ x, f (rows.filter fun r => (wh.all fun w => env.query w r) && decide (keyOf sb r = some k')) = .ok x) ∨
    (e = .indexError ∧ ∀ r ∈ rows, (∀ w ∈ wh, env.query w r = true) → keyOf sb r = none) := by
  have hocc : ∀ k, k ∈ sortedKeys sb (filt env wh rows) ↔
      ∃ r ∈ rows, (∀ w ∈ wh, env.query w r = true) ∧ keyOf sb r = some k := by
    intro k
    rw [mem_sortedKeys]
    simp only [filt, List.mem_filter, List.all_eq_true]
    constructor
    · rintro ⟨r, ⟨a, b⟩, c⟩; exact ⟨r, a, b, c⟩
    · rintro ⟨r, a, b, c⟩; exact ⟨r, ⟨a, b⟩, c⟩
  have hrows : ∀ k, rowsAt sb k (filt env wh rows) =
      rows.filter fun r => (wh.all fun w => env.query w r) && decide (keyOf sb r = some k) := by
    intro k
    rw [rowsAt, filt, List.filter_filter]
    exact List.filter_congr fun r _ => Bool.and_comm _ _
  rw [plain_computeOn env h P fp raw wh f sb rows hsb] at he
  rcases hs : onSlices (fun k => f (rowsAt sb k (filt env wh rows))) (sortedKeys sb (filt env wh rows)) with e' | cs
  · rw [hs, together] at he
    cases he
    obtain ⟨l, k, r, hl, h1, h2⟩ := onSlices_error hs
    refine .inl ⟨k, (hocc k).1 (by rw [hl]; simp), by rw [← hrows]; exact h1, fun k' hk' ho => ?_⟩
    have hm := (hocc k').2 ho
    rw [hl, List.mem_append, List.mem_cons] at hm
    have hsort := sorted_sortedKeys sb (filt env wh rows)
    rw [hl, List.pairwise_append, List.pairwise_cons] at hsort
    rw [← hrows]
    rcases hm with hm | rfl | hm
    · exact h2 k' hm
    · exact (lt_irrefl _ hk').elim
    · exact (lt_asymm hk' (hsort.2.1.1 k' hm)).elim
  · rw [hs, together] at he
    cases cs with
    | nil =>
      right
      rw [finish] at he
      cases he
      refine ⟨rfl, fun r hr hw => ?_⟩
      rcases hk : keyOf sb r with _ | k
      · rfl
      · have hm := (hocc k).2 ⟨r, hr, hw, hk⟩
        have : sortedKeys sb (filt env wh rows) = [] := by
          cases hsk : sortedKeys sb (filt env wh rows) with
          | nil => rfl
          | cons a as =>
            rw [hsk, onSlices] at hs
            split at hs
            · cases hs
            · split at hs <;> cases hs
        rw [this] at hm
        cases hm
    | cons c cs =>
      rw [finish, hP] at he
      cases he

/-- **C91** (partial: the values of the split columns are multiples of one fraction 1/dn below (2^61 - 1)/dn in size other than -1, helpers are not asked for the split that is running, see the
violations) Whatever programs `compute()` and `compute_slices()` are, however they nest helper metrics, filters, splits and slices in
slices, whatever they raise and catch: with the cache, every metric gives the result it gives when everything is computed afresh. -/
theorem C91_cache_partial {V H : Type} (env : Env) (h : PyHash H) {dn : ℕ} (hdn : Denominator dn) (hi : h.Ideal) (P : Pd V)
    (F : AV → List String → List Row → Except Exn V) (C : Set String) (m : UM V) (raw : AV) (hraw : raw.small dn)
    (sb : List String) (rows : List Row) (hC : SmallKeys dn C rows) (hw : m.Well env P F C dn ∅ sb sb) :
    m.computeOn env h P raw sb rows = m.value env P sb rows := by
  have hd : dom (m.rootKey raw sb) = ∅ := by ext c; simp [dom, UM.rootKey]
  refine (um_run (F := F) (C := C) (df := rows) hdn hi hC m (m.rootKey raw sb) sb rows [] rfl ?_ ?_ ?_ ⟨hraw, by simp [UM.rootKey]⟩
    (by simp [Gen.Inv])).1
  · unfold tsplit
    rw [hd]
    cases sb with
    | nil => rw [if_pos]; simp [UM.rootKey]
    | cons a as => rw [if_neg]; · rfl
                   · intro hall; exact hall a (by simp [UM.rootKey])
  · refine List.filter_congr fun r _ => ?_
    simp [UM.rootKey]
  · rw [hd]; exact hw

/-- **C91** Computed afresh, the value of a slice is the value of the metric on the rows of the slice alone (for metrics without
children). -/
theorem C91_slice_alone {V : Type} (env : Env) (P : Pd V) (fp : AV) (wh : List String) (prog : List Row → Prog V)
    (sb : List String) (hsb : sb ≠ []) (rows : List Row) :
    (UM.sliced fp wh (fun _ _ => .raise .notImplemented) prog).value env P sb rows =
      together P sb (onSlices
        (fun k => (UM.sliced fp wh (fun _ _ => .raise .notImplemented) prog).value env P [] (rowsAt sb k rows))
        (sortedKeys sb (filt env wh rows))) := by
  simp only [UM.value, if_neg hsb, Prog.value, unlessDone, notImpl, if_true]
  congr 2
  funext k
  have : filt env wh (rowsAt sb k rows) = rowsAt sb k (filt env wh rows) := by
    rw [filt, filt, rowsAt, rowsAt, List.filter_filter, List.filter_filter]
    exact List.filter_congr fun r _ => Bool.and_comm _ _
  rw [this]

/-! ## Violations -/

/-- **C91** (violation) No combination occurs (no rows, or the split columns are missing everywhere): IndexError, for every metric
defined by `compute()`, whatever it computes. -/
theorem C91_empty_violation {V H : Type} (env : Env) (h : PyHash H) (P : Pd V) (fp raw : AV) (wh : List String)
    (prog : List Row → Prog V) (sb : List String) (rows : List Row) (hsb : sb ≠ [])
    (h0 : ∀ r ∈ rows, (∀ w ∈ wh, env.query w r = true) → keyOf sb r = none) :
    (UM.sliced fp wh (fun _ _ => .raise .notImplemented) prog).computeOn env h P raw sb rows = .error .indexError := by
  have hk : sortedKeys sb (filt env wh rows) = [] := by
    rw [List.eq_nil_iff_forall_not_mem]
    intro k hk
    obtain ⟨r, hr, e⟩ := mem_sortedKeys.1 hk
    simp only [filt, List.mem_filter, List.all_eq_true] at hr
    rw [h0 r hr.1 hr.2] at e
    cases e
  rw [UM.computeOn, UM.run]
  simp only [look, List.find?_nil, Option.map_none, if_neg hsb, hk, Prog.run, notImpl, if_true, eachSlice, gather,
    finish, save]

/-- **C91** (violation) If pandas cannot put the results of the slices together (ValueError) and the split is by several columns, the
error is lost: the result is None. -/
theorem C91_concat_violation {V H : Type} (env : Env) (h : PyHash H) (P : Pd V) (fp raw : AV) (wh : List String)
    (f : List Row → Except Exn V) (sb : List String) (rows : List Row) (hsb : 1 < sb.length)
    (hex : ∃ r ∈ rows, (∀ w ∈ wh, env.query w r = true) ∧ ∃ k, keyOf sb r = some k)
    (hf : ∀ rs, ∃ x, f rs = .ok x ∧ P.isFrame x = true) (hc : ∀ cs, P.concat cs = .error .valueError) :
    (plainMetric fp wh f).computeOn env h P raw sb rows = .ok P.none := by
  have hsb' : sb ≠ [] := by rintro rfl; simp at hsb
  rw [plain_computeOn env h P fp raw wh f sb rows hsb']
  obtain ⟨cs, e, h1, h2⟩ := onSlices_ok (f := fun k => f (rowsAt sb k (filt env wh rows)))
    (ks := sortedKeys sb (filt env wh rows)) (fun k _ => (hf _).imp fun x hx => hx.1)
  obtain ⟨r, hr, hw, k, hk⟩ := hex
  have hm : k ∈ cs.map Prod.fst :=
    h1 ▸ mem_sortedKeys.2 ⟨r, List.mem_filter.2 ⟨hr, List.all_eq_true.2 hw⟩, hk⟩
  rw [e, together]
  cases cs with
  | nil => simp at hm
  | cons c cs =>
    obtain ⟨x, hx, hfr⟩ := hf (rowsAt sb c.1 (filt env wh rows))
    have := h2 c (by simp)
    simp only [hx, Except.ok.injEq] at this
    rw [finish, ← this, hfr, hc]
    simp only [if_true]
    rw [if_neg (by omega)]

namespace Gen

/-- `compute_slices()` of a share of the total: the helper with the split, then the helper without it. -/
def shareOfTotal {V : Type} (fp : AV) (helper : UM V) (combine : V → V → V) : UM V :=
  .whole fp [] fun sb _ =>
    .ask helper sb fun r => match r with
      | .error e => .raise e
      | .ok a => .ask helper [] fun r => match r with
        | .error e => .raise e
        | .ok b => .ret (combine a b)

/-- `compute()` that is the value of a helper. -/
def viaHelper {V : Type} (fp : AV) (helper : UM V) : UM V := 
  .sliced fp [] (fun _ _ => .raise .notImplemented) fun _ => .ask helper [] ofResult

/-- A vectorised metric: `b` of the split and the rows. -/
def vectorised {V : Type} (fp : AV) (b : List String → List Row → V) : UM V := .whole fp [] fun sb rows => .ret (b sb rows)

theorem filt_nil (env : Env) (rows : List Row) : filt env [] rows = rows := by simp [filt]

end Gen

/-- **C91** (violation) A share of the total as one would write it, "the sum by group, divided by the sum": for every split and all
data, the total is not the total but the sums by group again, because the key of the helper without split says the running split. Every
share is 1. -/
theorem C91_split_violation {V H : Type} (env : Env) (h : PyHash H) (P : Pd V) (fp hfp raw : AV)
    (b : List String → List Row → V) (combine : V → V → V) (sb : List String) (hsb : sb ≠ []) (rows : List Row) :
    (shareOfTotal fp (vectorised hfp b) combine).computeOn env h P raw sb rows = .ok (combine (b sb rows) (b sb rows)) ∧
    (shareOfTotal fp (vectorised hfp b) combine).value env P sb rows = .ok (combine (b sb rows) (b [] rows)) := by
  constructor
  · rw [UM.computeOn, shareOfTotal, UM.run]
    simp only [look, List.find?_nil, Option.map_none, filt_nil, Prog.run, UM.run, vectorised, GKey.child, UM.rootKey, UM.fp, UM.wh,
      if_neg hsb, if_true, List.find?_cons, HKey.same, decide_true, Option.map_some, save]
  · simp only [shareOfTotal, vectorised, UM.value, Prog.value, filt_nil]

/-- **C91** (violation) The slices -2 and -1 have the same hash: a metric defined by `compute()` through a helper gives the value of the
slice -2 for both, whatever the hashes of texts and tuples are. -/
theorem C91_hash_violation {V H : Type} (env : Env) (h : PyHash H) (P : Pd V) (fp hfp raw : AV)
    (b : List String → List Row → V) (hP : ∀ v, P.isFrame v = false) (g : String) (r1 r2 : Row)
    (h1 : r1 g = some (-2)) (h2 : r2 g = some (-1)) :
    (viaHelper fp (vectorised hfp b)).computeOn env h P raw [g] [r1, r2] =
      .ok (P.series [([-2], b [] [r1]), ([-1], b [] [r1])]) ∧
    (viaHelper fp (vectorised hfp b)).value env P [g] [r1, r2] =
      .ok (P.series [([-2], b [] [r1]), ([-1], b [] [r2])]) := by
  have k1 : keyOf [g] r1 = some [-2] := by simp [keyOf, List.mapM_cons, h1]
  have k2 : keyOf [g] r2 = some [-1] := by simp [keyOf, List.mapM_cons, h2]
  have hk : sortedKeys [g] [r1, r2] = [[-2], [-1]] := by
    simp only [sortedKeys, List.filterMap_cons, k1, k2, List.filterMap_nil]
    decide +kernel
  have e1 : rowsAt [g] [-2] [r1, r2] = [r1] := by
    simp only [rowsAt, List.filter_cons, k1, k2, List.filter_nil]
    norm_num
  have e2 : rowsAt [g] [-1] [r1, r2] = [r2] := by
    simp only [rowsAt, List.filter_cons, k1, k2, List.filter_nil]
    norm_num
  constructor
  · have hh := hash_minus_one h
    rw [UM.computeOn, viaHelper, UM.run]
    simp only [look, List.find?_nil, Option.map_none, filt_nil, hk, eachSlice, GKey.addSlice, UM.rootKey, joinSlice, dictOf,
      List.zip_cons_cons, List.zip_nil_right, List.foldl_cons, List.foldl_nil, setItem, Option.map_some, sortItems,
      List.insertionSort_cons, List.insertionSort_nil, List.orderedInsert_nil, withKey, Prog.run, vectorised, UM.run, e1, e2,
      GKey.child, UM.fp, UM.wh, GKey.hkey, HKey.same, HKey.hash, List.map_cons, List.map_nil, hh, List.find?_cons, decide_true,
      ofResult, if_true, finish, hP, save, gather, notImpl]
    simp [save]
  · simp only [viaHelper, vectorised, UM.value, Prog.value, filt_nil, hk, onSlices, e1, e2, ofResult, together, finish, hP,
      unlessDone, notImpl]
    simp

/-- **C91** (violation) A metric that should be computed from its child: if the child raises NotImplementedError (say, because of a
function it uses), the exception is dropped and `compute()`, meant for the result of the child, is called on the data instead. -/
theorem C91_fallback_violation {V H : Type} (env : Env) (h : PyHash H) (P : Pd V) (fp cfp raw : AV) (f : List Row → V)
    (prog : V → Prog V) (rows : List Row) :
    (UM.sliced fp [] (fun sb _ => .ask (.whole cfp [] fun _ _ => .raise .notImplemented) sb fun r => match r with
        | .ok v => prog v
        | .error e => .raise e) fun rows => .ret (f rows)).computeOn env h P raw [] rows = .ok (f rows) := by
  rw [UM.computeOn, UM.run]
  simp only [look, List.find?_nil, Option.map_none, filt_nil, Prog.run, UM.run, save, notImpl, if_true]

/-- **C91** Any other exception of the child is the user's to see. -/
theorem C91_child_error {V H : Type} (env : Env) (h : PyHash H) (P : Pd V) (fp cfp raw : AV) (f : List Row → V)
    (prog : V → Prog V) (rows : List Row) (e : Exn) (he : e ≠ .notImplemented) :
    (UM.sliced fp [] (fun sb _ => .ask (.whole cfp [] fun _ _ => .raise e) sb fun r => match r with
        | .ok v => prog v
        | .error e => .raise e) fun rows => .ret (f rows)).computeOn env h P raw [] rows = .error e := by
  have hn : notImpl (.error e : Except Exn V) = false := by cases e <;> first | rfl | exact (he rfl).elim
  rw [UM.computeOn, UM.run]
  simp only [look, List.find?_nil, Option.map_none, filt_nil, Prog.run, UM.run, save, hn]
  simp [save]

/-! ## Concrete cases -/

namespace Gen

/-- What the two metrics of the example compute, by fingerprint. -/
def exF {V : Type} (env : Env) (P : Pd V) (b : List String → List Row → V) : AV → List String → List Row → Except Exn V
  | .str "Sum" => fun sb rows => .ok (b sb rows)
  | _ => fun sb rows => (viaHelper (.str "Mine") (vectorised (.str "Sum") b)).value env P sb rows

end Gen

/-- The hypotheses of `C91_cache_partial` are met by a `compute()` that asks a vectorised helper on its slice, split by `g`, on all data
whose `g` are ordinary integers: no slice gets the sum of another slice. -/
example {V H : Type} (env : Env) (h : PyHash H) {dn : ℕ} (hdn : Denominator dn) (hi : h.Ideal) (P : Pd V) (b : List String → List Row → V) (rows : List Row)
    (hg : ∀ r ∈ rows, ∀ q, r "g" = some q → (AV.num q).small dn) :
    (viaHelper (.str "Mine") (vectorised (.str "Sum") b)).computeOn env h P (.str "df") ["g"] rows =
      (viaHelper (.str "Mine") (vectorised (.str "Sum") b)).value env P ["g"] rows := by
  refine C91_cache_partial env h hdn hi P (exF env P b) {"g"} _ (.str "df") trivial _ _ ?_ ?_
  · rintro r hr c rfl q hq
    exact hg r hr q hq
  · refine ⟨trivial, by simp, ?_, ?_, ?_⟩
    · intro rows
      simp [exF, viaHelper, UM.value, filt_nil]
    · intro rows; trivial
    · intro rows
      refine ⟨by simp, ⟨trivial, by simp, fun rows => ?_, fun rows => trivial⟩, fun r => ?_⟩
      · simp [exF, Prog.value]
      · cases r <;> trivial

namespace Gen

/-- Results as lists of labelled numbers. -/
def exPd : Pd (List (Key × ℚ)) :=
  ⟨fun cs => cs.flatMap fun c => c.2.map fun p => (c.1 ++ p.1, p.2), fun _ => false, fun _ => .error .valueError, fun _ => [], []⟩

/-- A row with `g` and `x`. -/
def exRow (g : Option ℚ) (x : ℚ) : Row := fun c => if c = "g" then g else if c = "x" then some x else none

end Gen

/-- The number of rows by `g` as a metric defined by `compute()` with the filter `x > 0`: one row counts for `g = 1` and two for
`g = 2`; the row without `g` belongs to no slice and the one with `x = 0` is filtered out. The hypotheses of `C91_slices` are met. -/
example {H : Type} (h : PyHash H) :
    (plainMetric (.str "Mine") ["x > 0"] fun rows => .ok [([], (rows.length : ℚ))]).computeOn
      ⟨fun _ r => (r "x").elim false (0 < ·), fun a _ => a⟩ h exPd (.str "df") ["g"]
      [exRow (some 2) 1, exRow (some 1) 1, exRow none 1, exRow (some 2) 3, exRow (some 1) 0] = .ok [([1], 1), ([2], 2)] := by
  rw [plain_computeOn _ h _ _ _ _ _ _ _ (by simp)]
  decide +kernel

example : (∃ r ∈ [exRow (some 2) 1, exRow (some 1) 1, exRow none 1, exRow (some 2) 3, exRow (some 1) 0],
    (∀ w ∈ ["x > 0"], (fun (_ : String) (r : Row) => (r "x").elim false (0 < ·)) w r = true) ∧ ∀ c ∈ ["g"], r c ≠ none) ∧
    ∀ rs : List Row, ∃ x : List (Key × ℚ), (Except.ok [([], (rs.length : ℚ))] : Except Exn _) = .ok x ∧ exPd.isFrame x = false :=
  ⟨⟨exRow (some 2) 1, by simp, by decide +kernel, by decide +kernel⟩, fun rs => ⟨_, rfl, rfl⟩⟩

/-- `C91_hash_violation` on two rows with `x` 10 and 20: both slices show 10. -/
example {H : Type} (h : PyHash H) (env : Env) :
    (viaHelper (.str "Mine") (vectorised (.str "Sum") fun _ rows => [([], ((rows.filterMap fun r => r "x").sum : ℚ))])).computeOn
      env h exPd (.str "df") ["g"] [exRow (some (-2)) 10, exRow (some (-1)) 20] = .ok [([-2], 10), ([-1], 10)] := by
  rw [(C91_hash_violation env h exPd _ _ _ _ (fun _ => rfl) "g" _ _ rfl rfl).1]
  decide +kernel

end Verif
