import Verif.Spec.Cache
import Verif.Lemmas.Filters

namespace Verif

theorem mem_sortWh {wh : List String} {w : String} : w ∈ sortWh wh ↔ w ∈ wh := by
  unfold sortWh
  exact (List.perm_insertionSort _ _).mem_iff

theorem mem_canonWh {wh : List String} {w : String} : w ∈ canonWh wh ↔ w ∈ wh := by
  unfold canonWh
  rw [mem_sortWh, List.mem_dedup]

theorem query_sortWh (env : Env) (f : Frame) (wh : List String) :
    f.query env (sortWh wh) = f.query env wh := query_congr env f (fun _ => mem_sortWh)

theorem run_dropWh (env : Env) (m : M) (f : Frame) (sb : List String) :
    m.run env f sb = m.dropWh.run env (f.query env m.wh) sb := by
  cases m <;> simp only [M.dropWh, M.run, M.wh, query_nil]

theorem fp_comp (op : BinOp) (l r : M) (wh : List String) :
    (M.comp op l r wh).fp = .comp op l.fp r.fp (sortWh wh) ∨
    ∃ v w1 w2, l = .leaf (.sum v) w1 ∧ r = .leaf (.count v) w2 ∧
      (M.comp op l r wh).fp = .leaf (.mean v) (sortWh w1) := by
  rw [M.fp.eq_def]
  simp only
  split
  · rename_i v w1 v' w2
    split
    · rename_i h
      exact Or.inr ⟨v, w1, w2, rfl, by rw [h.1], rfl⟩
    · exact Or.inl rfl
  · exact Or.inl rfl

theorem groupKeys_nodup (sb : List String) (rs : List Row) : (groupKeys sb rs).Nodup := by
  unfold groupKeys
  split
  · simp
  · exact List.nodup_dedup _

theorem Tbl.get_map_keys' (ks : List Key) (g : Key → PyVal) {v : Key} (h : v ∈ ks) :
    Tbl.get (ks.map (fun k => (k, g k))) v = some (g v) := by
  unfold Tbl.get
  induction ks with
  | nil => simp at h
  | cons k ks ih =>
    by_cases hk : k = v
    · subst hk; simp
    · simp only [List.map_cons]
      rw [List.find?_cons_of_neg (by simpa using hk)]
      exact ih (by simpa [Ne.symm hk] using h)

/-- `Sum / Count` is `Mean`. -/
theorem mean_run (env : Env) (v : String) (f : Frame) (sb : List String) :
    (M.leaf (.mean v) []).run env f sb
      = (M.comp .div (.leaf (.sum v) []) (.leaf (.count v) []) []).run env f sb := by
  simp only [M.run, query_nil, Leaf.run, Leaf.vars]
  split
  · have : zipCols (Tbl.align (BinOp.py env .div))
        [(groupKeys sb f.rows).map (fun key => (key, Leaf.agg (.sum v) (rowsAt sb key f.rows)))]
        [(groupKeys sb f.rows).map (fun key => (key, Leaf.agg (.count v) (rowsAt sb key f.rows)))]
      = .ok [(groupKeys sb f.rows).map (fun key => (key, Leaf.agg (.mean v) (rowsAt sb key f.rows)))] := by
      simp only [zipCols, List.map_cons, List.map_nil, Tbl.align, List.map_map]
      congr 2
      have hid : (Prod.fst ∘ fun key => (key, Leaf.agg (.sum v) (rowsAt sb key f.rows))) = id := rfl
      have hid' : (Prod.fst ∘ fun key => (key, Leaf.agg (.count v) (rowsAt sb key f.rows))) = id := rfl
      rw [hid, hid', List.map_id, List.Subset.dedup_append_right (List.Subset.refl _),
        (groupKeys_nodup sb f.rows).dedup]
      apply List.map_congr_left
      intro k hk
      rw [Tbl.get_map_keys' _ (fun key => Leaf.agg (.sum v) (rowsAt sb key f.rows)) hk,
        Tbl.get_map_keys' _ (fun key => Leaf.agg (.count v) (rowsAt sb key f.rows)) hk]
      simp only [Option.getD_some, BinOp.py, Leaf.agg, PyVal.div, pyMean]
      congr 1
      generalize vals v (rowsAt sb k f.rows) = xs
      cases xs with
      | nil => simp [PyVal.infSign]
      | cons x xs =>
        have : ((x :: xs).length : Rat) ≠ 0 := by
          rw [List.length_cons, Nat.cast_ne_zero]; omega
        rw [if_neg this]
        simp
    show _ = combine _ _ _
    simp only [combine, if_true, this]
  · rfl

mutual
theorem fp_run (env : Env) : ∀ (m : M), m.fpClean → ∀ (f : Frame) (sb : List String),
    m.fp.run env f sb = m.run env f sb
  | .const q, _, f, sb => by simp [M.fp]
  | .leaf k wh, _, f, sb => by simp only [M.fp, M.run, query_sortWh]
  | .comp op l r wh, h, f, sb => by
      obtain ⟨h0, hl, hr⟩ := h
      rcases fp_comp op l r wh with e | ⟨v, w1, w2, e1, e2, e⟩
      · rw [e]
        simp only [M.run, query_sortWh, fp_run env l hl, fp_run env r hr]
      · obtain ⟨rfl, rfl, rfl, rfl⟩ := h0 v w1 w2 e1 e2
        rw [e, e1, e2]
        exact mean_run env v f sb
  | .list ms wh, h, f, sb => by
      simp only [M.fp, M.run, query_sortWh, fpAll_run env ms h]
  | .oper o c wh, h, f, sb => by
      simp only [M.fp, M.run, query_sortWh, fp_run env c h]
theorem fpAll_run (env : Env) : ∀ (ms : List M), fpCleanAll ms → ∀ (f : Frame) (sb : List String),
    runAll env (fpAll ms) f sb = runAll env ms f sb
  | [], _, f, sb => by simp [fpAll]
  | m :: ms, h, f, sb => by
      simp only [fpAll, runAll, fp_run env m h.1, fpAll_run env ms h.2]
end

theorem fp_dropWh_run (env : Env) (m : M) (h : m.fpClean) (f : Frame) (sb : List String) :
    m.fp.dropWh.run env f sb = m.dropWh.run env f sb := by
  have hd : m.dropWh.fpClean := by
    cases m <;> try exact h
    exact ⟨fun v w1 w2 e1 e2 => by
      obtain ⟨a, b, c, d⟩ := h.1 v w1 w2 e1 e2; exact ⟨a, b, c, rfl⟩, h.2⟩
  rw [← fp_run env m.dropWh hd]
  cases m with
  | const q => rfl
  | leaf k wh => rfl
  | comp op l r wh =>
    rcases fp_comp op l r wh with e | ⟨v, w1, w2, e1, e2, e⟩
    · rcases fp_comp op l r [] with e' | ⟨v, w1, w2, e1, e2, e'⟩
      · simp only [M.dropWh, e, e']; rfl
      · obtain ⟨rfl, rfl, rfl, rfl⟩ := h.1 v w1 w2 e1 e2
        have hc : sortWh [] = [] := rfl
        rw [e, e1, e2] at e'
        simp at e'
    · obtain ⟨rfl, rfl, rfl, rfl⟩ := h.1 v w1 w2 e1 e2
      simp only [M.dropWh, e]; rfl
  | list ms wh => rfl
  | oper o c wh => rfl

theorem Cache.find_mem {c : Cache} {k : CKey} {v : Res} (h : c.find k = some v) : (k, v) ∈ c := by
  unfold Cache.find at h
  induction c with
  | nil => simp at h
  | cons p c ih =>
    obtain ⟨k', v'⟩ := p
    rw [List.lookup_cons] at h
    split at h
    · rename_i hk
      simp only [beq_iff_eq] at hk
      simp only [Option.some.injEq] at h
      simp [hk, h]
    · simp [ih h]

/-- Every entry is the result of some clean metric on the data of its key. -/
def CacheOk (env : Env) (data : Nat → Frame) (c : Cache) : Prop :=
  ∀ k v, (k, v) ∈ c → ∃ m : M, m.fpClean ∧ k.metric = m.fp.dropWh ∧
    m.dropWh.run env ((data k.key).query env k.wh) k.splitBy = .ok v

/-- The key fits the metric, its data and its `split_by`. -/
structure KeyFits (env : Env) (data : Nat → Frame) (m : M) (key : CKey) (f : Frame)
    (sb : List String) : Prop where
  metric : key.metric = m.fp.dropWh
  splitBy : key.splitBy = sb
  sub : ∀ w ∈ m.wh, w ∈ key.wh
  data : f.query env m.wh = (data key.key).query env key.wh

theorem cached_ok (env : Env) (data : Nat → Frame) (m : M) (hm : m.fpClean) (key : CKey)
    (f : Frame) (sb : List String) (hk : KeyFits env data m key f sb)
    (compute : Cache → Except Err Res × Cache)
    (hc : ∀ c, CacheOk env data c →
      (compute c).1 = m.run env f sb ∧ CacheOk env data (compute c).2)
    (c : Cache) (h : CacheOk env data c) :
    (cached key compute c).1 = m.run env f sb ∧ CacheOk env data (cached key compute c).2 := by
  have hrun : m.run env f sb
      = m.dropWh.run env ((data key.key).query env key.wh) key.splitBy := by
    rw [run_dropWh, hk.data, hk.splitBy]
  unfold cached
  split
  · rename_i v hv
    refine ⟨?_, h⟩
    obtain ⟨m', hm', e1, e2⟩ := h _ _ (Cache.find_mem hv)
    rw [hrun, ← fp_dropWh_run env m hm, ← hk.metric, e1, fp_dropWh_run env m' hm', e2]
  · have := hc c h
    generalize compute c = p at this
    obtain ⟨r, c'⟩ := p
    cases r with
    | error e => exact this
    | ok v =>
      refine ⟨this.1, ?_⟩
      intro k w hkw
      rcases List.mem_cons.1 hkw with e | hmem
      · simp only [Prod.mk.injEq] at e
        obtain ⟨rfl, rfl⟩ := e
        exact ⟨m, hm, hk.metric, by rw [← hrun, ← this.1]⟩
      · exact this.2 k w hmem

theorem keyFits_child (env : Env) (data : Nat → Frame) {m : M} {key : CKey} {f : Frame}
    {sb : List String} (hk : KeyFits env data m key f sb) (ch : M) (ex : List String) :
    KeyFits env data ch ((key.extend m (sb ++ ex)).extend ch (sb ++ ex)) (f.query env m.wh)
      (sb ++ ex) := by
  refine ⟨rfl, ?_, ?_, ?_⟩
  · simp only [CKey.extend]
    split
    · rename_i h
      rw [h]
      simp only [List.append_eq_nil_iff] at h
      rw [hk.splitBy, h.1]
    · rfl
  · intro w hw
    simp only [CKey.extend, mem_canonWh, List.mem_append]
    exact Or.inr hw
  · rw [hk.data, query_query]
    apply query_congr
    intro w
    simp only [CKey.extend, mem_canonWh, List.mem_append]
    constructor
    · rintro (h | h)
      · exact Or.inl (Or.inl h)
      · exact Or.inr h
    · rintro ((h | h) | h)
      · exact Or.inl h
      · exact Or.inl (hk.sub w h)
      · exact Or.inr h

mutual
theorem runC_ok (env : Env) (data : Nat → Frame) : ∀ (m : M), m.fpClean →
    ∀ (key : CKey) (f : Frame) (sb : List String), KeyFits env data m key f sb →
    ∀ c, CacheOk env data c →
    (m.runC env key f sb c).1 = m.run env f sb ∧ CacheOk env data (m.runC env key f sb c).2
  | .const q, _, key, f, sb, _, c, h => by simpa [M.runC, M.run] using h
  | .leaf k wh, hm, key, f, sb, hk, c, h => by
      rw [M.runC]
      exact cached_ok env data _ hm key f sb hk _ (fun c hc => ⟨by simp [M.run], hc⟩) c h
  | .comp op l r wh, hm, key, f, sb, hk, c, h => by
      rw [M.runC]
      refine cached_ok env data _ hm key f sb hk _ (fun c hc => ?_) c h
      have kl := keyFits_child env data hk l []
      have kr := keyFits_child env data hk r []
      rw [List.append_nil] at kl kr
      have il := runC_ok env data l hm.2.1 _ _ _ kl c hc
      simp only [M.wh] at il kr
      rw [M.run]
      dsimp only
      generalize l.runC env ((key.extend (.comp op l r wh) sb).extend l sb) (f.query env wh) sb c
        = p at il ⊢
      obtain ⟨a, c1⟩ := p
      simp only at il ⊢
      rw [← il.1]
      cases a with
      | error e => exact ⟨rfl, il.2⟩
      | ok a =>
        have ir := runC_ok env data r hm.2.2 _ _ _ kr c1 il.2
        simp only
        generalize r.runC env ((key.extend (.comp op l r wh) sb).extend r sb) (f.query env wh) sb c1
          = p at ir ⊢
        obtain ⟨b, c2⟩ := p
        simp only at ir ⊢
        rw [← ir.1]
        cases b with
        | error e => exact ⟨rfl, ir.2⟩
        | ok b => exact ⟨rfl, ir.2⟩
  | .list ms wh, hm, key, f, sb, hk, c, h => by
      rw [M.runC]
      refine cached_ok env data _ hm key f sb hk _ (fun c hc => ?_) c h
      have ia := allC_ok env data ms hm (key.extend (.list ms wh) sb) (f.query env wh) sb
        (fun ch _ => by
          have kc := keyFits_child env data hk ch []
          rw [List.append_nil] at kc
          exact kc) c hc
      simp only [M.run]
      exact ⟨by rw [← ia.1], ia.2⟩
  | .oper o ch wh, hm, key, f, sb, hk, c, h => by
      rw [M.runC]
      refine cached_ok env data _ hm key f sb hk _ (fun c hc => ?_) c h
      have kl := keyFits_child env data hk ch o.splitBy
      have il := runC_ok env data ch hm _ _ _ kl c hc
      simp only [M.wh] at il
      rw [M.run]
      simp only
      generalize ch.runC env ((key.extend (.oper o ch wh) (sb ++ o.splitBy)).extend ch
        (sb ++ o.splitBy)) (f.query env wh) (sb ++ o.splitBy) c = p at il ⊢
      obtain ⟨a, c1⟩ := p
      simp only at il ⊢
      rw [← il.1]
      cases a <;> exact ⟨rfl, il.2⟩
theorem allC_ok (env : Env) (data : Nat → Frame) : ∀ (ms : List M), fpCleanAll ms →
    ∀ (pkey : CKey) (f : Frame) (sb : List String),
    (∀ ch ∈ ms, KeyFits env data ch (pkey.extend ch sb) f sb) →
    ∀ c, CacheOk env data c →
    (allC env ms pkey f sb c).1 = runAll env ms f sb ∧ CacheOk env data (allC env ms pkey f sb c).2
  | [], _, pkey, f, sb, _, c, h => by simpa [allC, runAll] using h
  | m :: ms, hm, pkey, f, sb, hk, c, h => by
      have i1 := runC_ok env data m hm.1 _ _ _ (hk m (by simp)) c h
      rw [allC, runAll]
      generalize m.runC env (pkey.extend m sb) f sb c = p at i1 ⊢
      obtain ⟨a, c1⟩ := p
      simp only at i1 ⊢
      rw [← i1.1]
      have i2 := allC_ok env data ms hm.2 pkey f sb (fun ch hch => hk ch (by simp [hch])) c1 i1.2
      cases a with
      | error e => exact i2
      | ok a => exact ⟨by rw [← i2.1], i2.2⟩
end

theorem keyFits_fresh (env : Env) (data : Nat → Frame) (k : Nat) (m : M) (sb : List String) :
    KeyFits env data m (CKey.fresh k m sb) (data k) sb :=
  ⟨rfl, rfl, fun w hw => by simpa [CKey.fresh, mem_canonWh] using hw,
    query_congr env _ (fun w => by simp [CKey.fresh, mem_canonWh])⟩

theorem runCalls_ok (env : Env) (data : Nat → Frame) : ∀ (calls : List Call),
    (∀ call ∈ calls, call.metric.fpClean) → ∀ c, CacheOk env data c →
    (runCalls env data calls c).1
      = calls.map (fun call => call.metric.run env (data call.key) call.splitBy) ∧
    CacheOk env data (runCalls env data calls c).2
  | [], _, c, h => by simpa [runCalls] using h
  | call :: calls, hm, c, h => by
      have i1 := runC_ok env data call.metric (hm call (by simp)) _ _ _
        (keyFits_fresh env data call.key call.metric call.splitBy) c h
      have i2 := runCalls_ok env data calls (fun x hx => hm x (by simp [hx])) _ i1.2
      simp only [runCalls, List.map_cons]
      exact ⟨by rw [i1.1, i2.1], i2.2⟩

end Verif
