import Verif.Lemmas.Slice
import Verif.Spec.Slice

namespace Verif

theorem slice_query (env : Env) (f : Frame) (sb : List String) (v : Key) (wh : List String) :
    (f.slice sb v).query env wh = (f.query env wh).slice sb v := by
  unfold Frame.slice Frame.query rowsAt
  simp only [List.filter_filter, Frame.mk.injEq, true_and]
  apply List.filter_congr
  intro r _
  exact Bool.and_comm _ _

theorem mapM_onTbl_at (o : Oper) (v : Key) (m : Nat) (hv : v ≠ [])
    (cs : List Tbl) (hcov : ∀ over, o = .hhi over → m = 0 → ∀ t ∈ cs, t.at v ≠ []) :
    ∀ {cs' : List Tbl}, (cs.map (Tbl.at · v)).mapM (o.onTbl m) = Except.ok cs' →
      ∃ Cs, cs.mapM (o.onTbl (v.length + m)) = Except.ok Cs ∧ Cs.map (Tbl.at · v) = cs' := by
  induction cs with
  | nil =>
    intro cs' h
    simp only [List.map_nil, List.mapM_nil] at h ⊢
    injection h with h
    exact ⟨[], rfl, by simp [← h]⟩
  | cons t cs ih =>
    intro cs' h
    simp only [List.map_cons, List.mapM_cons] at h ⊢
    cases ht : o.onTbl m (t.at v) with
    | error e => rw [ht] at h; cases h
    | ok t' =>
      rw [ht] at h
      cases hcs : (cs.map (Tbl.at · v)).mapM (o.onTbl m) with
      | error e => rw [hcs] at h; cases h
      | ok ts =>
        rw [hcs] at h
        injection h with h
        obtain ⟨Cs, h1, h2⟩ := ih (fun over ho hm t ht => hcov over ho hm t (by simp [ht])) hcs
        have : ∃ T, o.onTbl (v.length + m) t = .ok T ∧ T.at v = t' := by
          cases o with
          | dist over =>
            simp only [Oper.onTbl] at ht ⊢
            injection ht with ht
            exact ⟨_, rfl, by rw [distTbl_at, ht]⟩
          | hhi over =>
            simp only [Oper.onTbl] at ht ⊢
            injection ht with ht
            refine ⟨_, rfl, ?_⟩
            rw [hhiTbl_at t v m hv, ht]
            by_cases hm : m = 0
            · exact Or.inr (hcov over rfl hm t (by simp))
            · exact Or.inl hm
          | pctChange cond base incl => exact changeTbl_at _ _ _ _ _ _ _ ht
          | absChange cond base incl => exact changeTbl_at _ _ _ _ _ _ _ ht
        obtain ⟨T, hT1, hT2⟩ := this
        rw [hT1, h1]
        refine ⟨T :: Cs, rfl, ?_⟩
        rw [← h]
        simp [hT2, h2]

theorem onRes_at (o : Oper) (v : Key) (m : Nat) (hv : v ≠ []) (R : Res)
    (hcov : ∀ over, o = .hhi over → m = 0 → ∀ ex' cs, R = .tbl ex' cs → ∀ t ∈ cs, t.at v ≠ [])
    {r : Res} (h : o.onRes m (R.at v) = .ok r) :
    ∃ R', o.onRes (v.length + m) R = .ok R' ∧ R'.at v = r := by
  cases R with
  | num q => simp [Res.at, Oper.onRes] at h
  | tbl ex cs =>
    simp only [Res.at, Oper.onRes] at h ⊢
    cases hm : (cs.map (Tbl.at · v)).mapM (o.onTbl m) with
    | error e => rw [hm] at h; cases h
    | ok cs' =>
      rw [hm] at h
      obtain ⟨Cs, h1, h2⟩ := mapM_onTbl_at o v m hv cs
        (fun over ho hm t ht => hcov over ho hm ex cs rfl t ht) hm
      rw [h1]
      refine ⟨_, rfl, ?_⟩
      injection h with h
      rw [← h]
      simp [h2]

theorem joinRes_at (v : Key) : ∀ (Rs : List Res) {r : Res},
    joinRes (Rs.map (Res.at · v)) = .ok r → ∃ R, joinRes Rs = .ok R ∧ R.at v = r := by
  intro Rs
  induction Rs with
  | nil => intro r h; simp [joinRes] at h
  | cons R Rs ih =>
    intro r h
    cases Rs with
    | nil =>
      cases R with
      | num q => simp [joinRes, Res.at] at h
      | tbl ex cs =>
        simp [joinRes, Res.at] at h ⊢
        exact h
    | cons R2 Rs =>
      simp only [List.map_cons] at h ih
      cases R with
      | num q =>
        simp only [Res.at, joinRes] at h
        split at h <;> simp_all
      | tbl ex cs =>
        simp only [Res.at, joinRes] at h
        cases hj : joinRes (Res.at R2 v :: Rs.map (Res.at · v)) with
        | error e => simp only [Res.at] at hj; rw [hj] at h; cases h
        | ok r' =>
          obtain ⟨R', h1, h2⟩ := ih hj
          simp only [Res.at] at hj
          rw [hj] at h
          cases r' with
          | num q => cases h
          | tbl ex' cs' =>
            simp only at h
            cases R' with
            | num q => simp [Res.at] at h2
            | tbl EX CS =>
              simp only [Res.at, Res.tbl.injEq] at h2
              obtain ⟨rfl, rfl⟩ := h2
              split at h
              · rename_i hex
                subst hex
                injection h with h
                refine ⟨.tbl ex (cs ++ CS), ?_, ?_⟩
                · simp only [joinRes]
                  rw [h1]
                  simp
                · rw [← h]; simp [Res.at]
              · cases h

mutual
theorem run_slice_aux (env : Env) (sb : List String) (v : Key) (hv : v.length = sb.length)
    (hsb : sb ≠ []) : ∀ (m : M) (f : Frame) (ex : List String),
    (∀ c ∈ sb, c ∈ f.cols) → SliceCovered env sb v m f ex →
    ∀ r, m.run env (f.slice sb v) ex = .ok r →
      ∃ R, m.run env f (sb ++ ex) = .ok R ∧ R.at v = r
  | .const q, f, ex, _, _, r, h => by
      simp only [M.run] at h ⊢
      injection h with h
      exact ⟨_, rfl, by simp [Res.at, ← h]⟩
  | .leaf k wh, f, ex, hc, hcov, r, h => by
      simp only [M.run, slice_query] at h ⊢
      simp only [SliceCovered] at hcov
      unfold Leaf.run at h ⊢
      split at h
      · rename_i hall
        have hall' : (k.vars ++ (sb ++ ex)).all
            (fun c => (f.query env wh).cols.contains c) = true := by
          rw [List.all_eq_true] at hall ⊢
          intro c hcm
          simp only [List.mem_append] at hcm
          have hcols : ((f.query env wh).slice sb v).cols = (f.query env wh).cols := rfl
          rw [hcols] at hall
          rcases hcm with h1 | h1 | h1
          · exact hall c (by simp [h1])
          · have := hc c h1
            simpa [Frame.query] using this
          · exact hall c (by simp [h1])
        rw [if_pos hall']
        injection h with h
        refine ⟨_, rfl, ?_⟩
        rw [← h]
        simp only [Res.at, List.map_cons, List.map_nil, Res.tbl.injEq, List.cons.injEq, true_and,
          and_true]
        exact Leaf.slice_tbl k hv hsb (f.query env wh).rows hcov
      · cases h
  | .comp op l r' wh, f, ex, hc, hcov, r, h => by
      simp only [M.run, slice_query] at h ⊢
      simp only [SliceCovered] at hcov
      cases hl : l.run env ((f.query env wh).slice sb v) ex with
      | error e => rw [hl] at h; cases h
      | ok a =>
        rw [hl] at h
        obtain ⟨A, hA1, hA2⟩ := run_slice_aux env sb v hv hsb l (f.query env wh) ex hc hcov.1 a hl
        rw [hA1]
        simp only at h ⊢
        cases hr : r'.run env ((f.query env wh).slice sb v) ex with
        | error e => rw [hr] at h; cases h
        | ok b =>
          rw [hr] at h
          obtain ⟨B, hB1, hB2⟩ := run_slice_aux env sb v hv hsb r' (f.query env wh) ex hc hcov.2 b hr
          rw [hB1]
          simp only at h ⊢
          rw [← hA2, ← hB2] at h
          exact combine_at _ A B v h
  | .list ms wh, f, ex, hc, hcov, r, h => by
      simp only [M.run, slice_query] at h ⊢
      simp only [SliceCovered] at hcov
      rw [runAll_slice_aux env sb v hv hsb ms (f.query env wh) ex hc hcov] at h
      exact joinRes_at v _ h
  | .oper o c wh, f, ex, hc, hcov, r, h => by
      simp only [M.run, slice_query] at h ⊢
      simp only [SliceCovered] at hcov
      cases hl : c.run env ((f.query env wh).slice sb v) (ex ++ o.splitBy) with
      | error e => rw [hl] at h; cases h
      | ok a =>
        rw [hl] at h
        obtain ⟨A, hA1, hA2⟩ := run_slice_aux env sb v hv hsb c (f.query env wh)
          (ex ++ o.splitBy) hc hcov.1 a hl
        rw [List.append_assoc, hA1]
        simp only at h ⊢
        have hvne : v ≠ [] := by
          intro hve
          rw [hve] at hv
          exact hsb (List.length_eq_zero_iff.1 hv.symm)
        rw [← hA2] at h
        have := onRes_at o v ex.length hvne A (fun over ho hm ex' cs hA t ht => ?_) h
        · rw [List.length_append, ← hv]; exact this
        · have hex : ex = [] := List.length_eq_zero_iff.1 hm
          have h2 := hcov.2 over ho hex ex' (cs.map (Tbl.at · v))
            (by rw [hl, ← hA2, hA]; rfl)
          exact h2 _ (List.mem_map.2 ⟨t, ht, rfl⟩)
theorem runAll_slice_aux (env : Env) (sb : List String) (v : Key) (hv : v.length = sb.length)
    (hsb : sb ≠ []) : ∀ (ms : List M) (f : Frame) (ex : List String),
    (∀ c ∈ sb, c ∈ f.cols) →
    (∀ m ∈ ms, SliceCovered env sb v m f ex ∧
      ((∃ r, m.run env (f.slice sb v) ex = .ok r) ∨
        ((∃ e, m.run env (f.slice sb v) ex = .error e) ∧
          ∃ e, m.run env f (sb ++ ex) = .error e))) →
    runAll env ms (f.slice sb v) ex = (runAll env ms f (sb ++ ex)).map (Res.at · v)
  | [], f, ex, _, _ => by simp [runAll]
  | m :: ms, f, ex, hc, hcov => by
      have ih := runAll_slice_aux env sb v hv hsb ms f ex hc
        (fun m' hm' => hcov m' (List.mem_cons_of_mem _ hm'))
      have hm := hcov m (List.mem_cons_self ..)
      simp only [runAll]
      rcases hm.2 with ⟨r, hr⟩ | ⟨⟨e, he⟩, ⟨e', he'⟩⟩
      · obtain ⟨R, hR1, hR2⟩ := run_slice_aux env sb v hv hsb m f ex hc hm.1 r hr
        rw [hr, hR1]
        simp only [List.map_cons, hR2, ih]
      · rw [he, he']
        simp only [ih]
end


/-! ### Index values that can occur -/

/-- All index values of a result begin with a group that occurs. -/
def Res.keysIn (r : Res) (n : Nat) (ks : List Key) : Prop :=
  match r with
  | .num _ => True
  | .tbl _ cs => ∀ t ∈ cs, ∀ p ∈ t, p.1.take n ∈ ks

theorem groupKeys_take {sb ex : List String} (hsb : sb ≠ []) (rs : List Row) {k : Key}
    (h : k ∈ groupKeys (sb ++ ex) rs) : k.take sb.length ∈ groupKeys sb rs := by
  unfold groupKeys at h ⊢
  rw [if_neg (by simp [hsb])] at h
  rw [if_neg hsb]
  rw [List.mem_dedup, List.mem_filterMap] at h ⊢
  obtain ⟨r, hr, hk⟩ := h
  refine ⟨r, hr, ?_⟩
  rw [keyOf_append] at hk
  cases h1 : keyOf sb r with
  | none => rw [h1] at hk; cases hk
  | some a =>
    rw [h1] at hk
    simp only [Option.bind_some, Option.map_eq_some_iff] at hk
    obtain ⟨b, hb, rfl⟩ := hk
    rw [← keyOf_length h1]
    simp

theorem groupKeys_query {sb : List String} (hsb : sb ≠ []) (env : Env) (f : Frame)
    (wh : List String) {k : Key} (h : k ∈ groupKeys sb (f.query env wh).rows) :
    k ∈ groupKeys sb f.rows := by
  unfold groupKeys at h ⊢
  rw [if_neg hsb] at h ⊢
  rw [List.mem_dedup, List.mem_filterMap] at h ⊢
  obtain ⟨r, hr, hk⟩ := h
  unfold Frame.query at hr
  exact ⟨r, (List.mem_filter.1 hr).1, hk⟩

theorem Res.keysIn_mono {r : Res} {n : Nat} {ks ks' : List Key} (h : r.keysIn n ks)
    (hk : ∀ k ∈ ks, k ∈ ks') : r.keysIn n ks' := by
  cases r with
  | num q => trivial
  | tbl ex cs => exact fun t ht p hp => hk _ (h t ht p hp)

theorem align_keysIn {op : PyVal → PyVal → PyVal} {a b : Tbl} {n : Nat} {ks : List Key}
    (ha : ∀ p ∈ a, p.1.take n ∈ ks) (hb : ∀ p ∈ b, p.1.take n ∈ ks) :
    ∀ p ∈ Tbl.align op a b, p.1.take n ∈ ks := by
  intro p hp
  unfold Tbl.align at hp
  rw [List.mem_map] at hp
  obtain ⟨k, hk, rfl⟩ := hp
  rw [List.mem_dedup, List.mem_append, List.mem_map, List.mem_map] at hk
  rcases hk with ⟨q, hq, rfl⟩ | ⟨q, hq, rfl⟩
  · exact ha q hq
  · exact hb q hq

theorem zipCols_keysIn {op : PyVal → PyVal → PyVal} {as bs cs : List Tbl} {n : Nat}
    {ks : List Key} (ha : ∀ t ∈ as, ∀ p ∈ t, p.1.take n ∈ ks)
    (hb : ∀ t ∈ bs, ∀ p ∈ t, p.1.take n ∈ ks)
    (h : zipCols (Tbl.align op) as bs = .ok cs) : ∀ t ∈ cs, ∀ p ∈ t, p.1.take n ∈ ks := by
  have key : ∀ t ∈ cs, ∃ a ∈ as, ∃ b ∈ bs, t = Tbl.align op a b := by
    intro t ht
    unfold zipCols at h
    split at h
    · injection h with h
      subst h
      obtain ⟨b, hb, rfl⟩ := List.mem_map.1 ht
      exact ⟨_, List.mem_cons_self .., b, hb, rfl⟩
    · injection h with h
      subst h
      obtain ⟨a, ha, rfl⟩ := List.mem_map.1 ht
      exact ⟨a, ha, _, List.mem_cons_self .., rfl⟩
    · split at h
      · injection h with h
        subst h
        rw [← List.map_uncurry_zip_eq_zipWith] at ht
        obtain ⟨⟨a, b⟩, hab, rfl⟩ := List.mem_map.1 ht
        have := List.of_mem_zip hab
        exact ⟨a, this.1, b, this.2, rfl⟩
      · cases h
  intro t ht p hp
  obtain ⟨a, haa, b, hbb, rfl⟩ := key t ht
  exact align_keysIn (ha a haa) (hb b hbb) p hp

theorem combine_keysIn {op : PyVal → PyVal → PyVal} {a b c : Res} {n : Nat} {ks : List Key}
    (ha : a.keysIn n ks) (hb : b.keysIn n ks) (h : combine op a b = .ok c) : c.keysIn n ks := by
  match a, b with
  | .num x, .num y => cases h
  | .num x, .tbl ex bs =>
    simp only [combine] at h
    injection h with h
    subst h
    intro t ht p hp
    obtain ⟨t0, ht0, rfl⟩ := List.mem_map.1 ht
    obtain ⟨p0, hp0, rfl⟩ := List.mem_map.1 hp
    exact hb t0 ht0 p0 hp0
  | .tbl ex as, .num y =>
    simp only [combine] at h
    injection h with h
    subst h
    intro t ht p hp
    obtain ⟨t0, ht0, rfl⟩ := List.mem_map.1 ht
    obtain ⟨p0, hp0, rfl⟩ := List.mem_map.1 hp
    exact ha t0 ht0 p0 hp0
  | .tbl ex as, .tbl ex' bs =>
    simp only [combine] at h
    split at h
    · cases hz : zipCols (Tbl.align op) as bs with
      | error e => rw [hz] at h; cases h
      | ok cs =>
        rw [hz] at h
        injection h with h
        subst h
        exact zipCols_keysIn ha hb hz
    · cases h

theorem onTbl_keys {o : Oper} {N n : Nat} (hn : n ≤ N) (hn0 : n ≠ 0) {t T : Tbl} {ks : List Key}
    (ht : ∀ p ∈ t, p.1.take n ∈ ks) (h : o.onTbl N t = .ok T) : ∀ p ∈ T, p.1.take n ∈ ks := by
  have hd : ∀ p ∈ distTbl N t, p.1.take n ∈ ks := by
    intro p hp
    unfold distTbl at hp
    obtain ⟨q, hq, rfl⟩ := List.mem_map.1 hp
    exact ht q hq
  have hchange : ∀ g c base incl, changeTbl g N c base incl t = .ok T →
      ∀ p ∈ T, p.1.take n ∈ ks := by
    intro g c base incl h p hp
    unfold changeTbl at h
    split at h
    · injection h with h
      subst h
      have : p ∈ t.map (fun p => (p.1, g p.2 ((t.get (baseKey N c base p.1)).getD .nan))) := by
        cases incl with
        | true => exact hp
        | false => exact (List.mem_filter.1 hp).1
      obtain ⟨q, hq, rfl⟩ := List.mem_map.1 this
      exact ht q hq
    · cases h
  cases o with
  | dist over =>
    simp only [Oper.onTbl] at h
    injection h with h
    subst h
    exact hd
  | hhi over =>
    simp only [Oper.onTbl] at h
    injection h with h
    subst h
    intro p hp
    unfold hhiTbl at hp
    simp only at hp
    rw [if_neg (by omega)] at hp
    obtain ⟨k, hk, rfl⟩ := List.mem_map.1 hp
    rw [List.mem_dedup] at hk
    obtain ⟨q, hq, rfl⟩ := List.mem_map.1 hk
    have := hd q hq
    simp only
    rwa [List.take_take, Nat.min_eq_left hn]
  | pctChange cond base incl => exact hchange _ _ _ _ h
  | absChange cond base incl => exact hchange _ _ _ _ h

theorem mapM_ok_mem {α β ε} {g : α → Except ε β} : ∀ {l : List α} {l' : List β},
    l.mapM g = Except.ok l' → ∀ b ∈ l', ∃ a ∈ l, g a = .ok b := by
  intro l
  induction l with
  | nil => intro l' h b hb; simp only [List.mapM_nil] at h; injection h with h; subst h; simp at hb
  | cons a l ih =>
    intro l' h b hb
    rw [List.mapM_cons] at h
    cases ha : g a with
    | error e => rw [ha] at h; cases h
    | ok x =>
      rw [ha] at h
      cases hl : l.mapM g with
      | error e => rw [hl] at h; cases h
      | ok xs =>
        rw [hl] at h
        injection h with h
        subst h
        rcases List.mem_cons.1 hb with rfl | hb
        · exact ⟨a, by simp, ha⟩
        · obtain ⟨a', ha', h'⟩ := ih hl b hb
          exact ⟨a', by simp [ha'], h'⟩

theorem joinRes_keysIn {n : Nat} {ks : List Key} : ∀ {rs : List Res} {r : Res},
    (∀ x ∈ rs, x.keysIn n ks) → joinRes rs = .ok r → r.keysIn n ks := by
  intro rs
  induction rs with
  | nil => intro r _ h; cases h
  | cons x rs ih =>
    intro r hx h
    cases rs with
    | nil =>
      cases x with
      | num q => cases h
      | tbl ex cs =>
        simp only [joinRes] at h
        injection h with h
        subst h
        exact hx (.tbl ex cs) (by simp)
    | cons y rs =>
      simp only [joinRes] at h
      cases x with
      | num q => split at h <;> simp_all
      | tbl ex cs =>
        cases hj : joinRes (y :: rs) with
        | error e => rw [hj] at h; cases h
        | ok r' =>
          rw [hj] at h
          have hr' := ih (fun z hz => hx z (List.mem_cons_of_mem _ hz)) hj
          cases r' with
          | num q => cases h
          | tbl ex' cs' =>
            simp only at h
            split at h
            · injection h with h
              subst h
              intro t ht
              rcases List.mem_append.1 ht with ht | ht
              · exact hx (.tbl ex cs) (by simp) t ht
              · exact hr' t ht
            · cases h

mutual
theorem run_keysIn (env : Env) (sb : List String) (hsb : sb ≠ []) :
    ∀ (m : M) (f : Frame) (ex : List String) (R : Res),
      m.run env f (sb ++ ex) = .ok R → R.keysIn sb.length (groupKeys sb f.rows)
  | .const q, f, ex, R, h => by
      simp only [M.run] at h
      injection h with h
      subst h
      trivial
  | .leaf k wh, f, ex, R, h => by
      simp only [M.run] at h
      unfold Leaf.run at h
      split at h
      · injection h with h
        subst h
        intro t ht p hp
        rw [List.mem_singleton] at ht
        subst ht
        obtain ⟨key, hkey, rfl⟩ := List.mem_map.1 hp
        exact groupKeys_query hsb env f wh (groupKeys_take hsb _ hkey)
      · cases h
  | .comp op l r wh, f, ex, R, h => by
      simp only [M.run] at h
      cases hl : l.run env (f.query env wh) (sb ++ ex) with
      | error e => rw [hl] at h; cases h
      | ok a =>
        rw [hl] at h
        simp only at h
        cases hr : r.run env (f.query env wh) (sb ++ ex) with
        | error e => rw [hr] at h; cases h
        | ok b =>
          rw [hr] at h
          have ha := run_keysIn env sb hsb l (f.query env wh) ex a hl
          have hb := run_keysIn env sb hsb r (f.query env wh) ex b hr
          exact Res.keysIn_mono (combine_keysIn ha hb h)
            (fun k hk => groupKeys_query hsb env f wh hk)
  | .list ms wh, f, ex, R, h => by
      simp only [M.run] at h
      exact Res.keysIn_mono
        (joinRes_keysIn (runAll_keysIn env sb hsb ms (f.query env wh) ex) h)
        (fun k hk => groupKeys_query hsb env f wh hk)
  | .oper o c wh, f, ex, R, h => by
      simp only [M.run] at h
      cases hl : c.run env (f.query env wh) (sb ++ ex ++ o.splitBy) with
      | error e => rw [hl] at h; cases h
      | ok a =>
        rw [hl] at h
        rw [List.append_assoc] at hl
        have ha := run_keysIn env sb hsb c (f.query env wh) (ex ++ o.splitBy) a hl
        simp only at h
        cases a with
        | num q => cases h
        | tbl ex' cs =>
          simp only [Oper.onRes] at h
          cases hm : cs.mapM (o.onTbl (sb ++ ex).length) with
          | error e => rw [hm] at h; cases h
          | ok cs' =>
            rw [hm] at h
            injection h with h
            subst h
            refine Res.keysIn_mono (fun t ht => ?_)
              (fun k hk => groupKeys_query hsb env f wh hk)
            obtain ⟨t0, ht0, hon⟩ := mapM_ok_mem hm t ht
            exact onTbl_keys (by simp) (by
              intro h0; exact hsb (List.length_eq_zero_iff.1 h0)) (ha t0 ht0) hon
theorem runAll_keysIn (env : Env) (sb : List String) (hsb : sb ≠ []) :
    ∀ (ms : List M) (f : Frame) (ex : List String),
      ∀ x ∈ runAll env ms f (sb ++ ex), x.keysIn sb.length (groupKeys sb f.rows)
  | [], f, ex, x, hx => by simp [runAll] at hx
  | m :: ms, f, ex, x, hx => by
      simp only [runAll] at hx
      cases hm : m.run env f (sb ++ ex) with
      | error e =>
        rw [hm] at hx
        exact runAll_keysIn env sb hsb ms f ex x hx
      | ok r =>
        rw [hm] at hx
        rcases List.mem_cons.1 hx with rfl | hx
        · exact run_keysIn env sb hsb m f ex _ hm
        · exact runAll_keysIn env sb hsb ms f ex x hx
end

theorem plain_covered (env : Env) (sb : List String) (v : Key) :
    ∀ (m : M) (f : Frame) (ex : List String), m.plain → v ∈ groupKeys sb f.rows →
      SliceCovered env sb v m f ex := by
  have hq : ∀ f : Frame, f.query env [] = f := by
    intro f
    simp [Frame.query]
  intro m
  induction m using M.plain.induct with
  | case1 q => intro f ex _ _; simp [SliceCovered]
  | case2 k wh =>
    intro f ex hp hv
    simp only [M.plain] at hp
    subst hp
    simp only [SliceCovered, hq]
    exact Or.inr hv
  | case3 op l r wh ihl ihr =>
    intro f ex hp hv
    simp only [M.plain] at hp
    obtain ⟨rfl, hl, hr⟩ := hp
    simp only [SliceCovered, hq]
    exact ⟨ihl f ex hl hv, ihr f ex hr hv⟩
  | case4 ms wh => intro f ex hp _; exact absurd hp (by simp [M.plain])
  | case5 o c wh ih =>
    intro f ex hp hv
    simp only [M.plain] at hp
    obtain ⟨rfl, ho, hc⟩ := hp
    simp only [SliceCovered, hq]
    exact ⟨ih f _ hc hv, fun over h => absurd h (ho over)⟩

end Verif
