import Verif.Spec.ChangeBase
import Verif.Spec.Comparison
import Verif.Props.Comparison
import Verif.Props.Cache
import Verif.Props.MetricValues

/-!
# C81: the values shown beside a change belong to it
-/

namespace Verif

/-! ## The table -/

theorem changeBase_ok {env : Env} {m : M} {wh cond : List String} {f : Frame} {sb : List String} {ex : List String} {cs : List Tbl}
    (h : changeBase env m wh cond f sb = .ok (.tbl ex cs)) : m.run env (f.query env wh) (sb ++ cond) = .ok (.tbl ex cs) := by
  unfold changeBase at h
  simp only [M.run, runAll] at h
  cases hm : m.run env (f.query env wh) (sb ++ cond) with
  | error e => rw [hm] at h; simp [joinRes] at h
  | ok r =>
    rw [hm] at h
    cases r with
    | num q => simp [joinRes] at h
    | tbl e c => simpa [joinRes] using h

/-- **C81** For a change of any metric, on any DataFrame, sliced by anything: the percent change in every row is the one from the value that
the attached table has for the control in this slice to the one it has for the row. The filters of the change apply to the table. -/
theorem C81_percent (env : Env) (m : M) (wh : List String) (f : Frame) (sb cond : List String) (base : Key) (incl : Bool)
    (ex ex' : List String) (cs cs' : List Tbl) (hc : changeBase env m wh cond f sb = .ok (.tbl ex cs))
    (h : (M.oper (.pctChange cond base incl) m wh).run env f sb = .ok (.tbl ex' cs')) :
    List.Forall₂ (fun t T => ∀ (slice c rest : Key) (v b : ℚ), slice.length = sb.length → c.length = cond.length →
      (slice ++ c ++ rest, PyVal.fin v) ∈ t → t.get (slice ++ base ++ rest) = some (.fin b) → b ≠ 0 → (incl = true ∨ c ≠ base) →
      (slice ++ c ++ rest, PyVal.fin ((v - b) / b * 100)) ∈ T) cs cs' :=
  C34_metric_percent env m wh f sb cond base incl ex ex' cs cs' (changeBase_ok hc) h

/-- **C81** The same for the absolute change. -/
theorem C81_absolute (env : Env) (m : M) (wh : List String) (f : Frame) (sb cond : List String) (base : Key) (incl : Bool)
    (ex ex' : List String) (cs cs' : List Tbl) (hc : changeBase env m wh cond f sb = .ok (.tbl ex cs))
    (h : (M.oper (.absChange cond base incl) m wh).run env f sb = .ok (.tbl ex' cs')) :
    List.Forall₂ (fun t T => ∀ (slice c rest : Key) (v b : ℚ), slice.length = sb.length → c.length = cond.length →
      (slice ++ c ++ rest, PyVal.fin v) ∈ t → t.get (slice ++ base ++ rest) = some (.fin b) → (incl = true ∨ c ≠ base) →
      (slice ++ c ++ rest, PyVal.fin (v - b)) ∈ T) cs cs' :=
  C34_metric_absolute env m wh f sb cond base incl ex ex' cs cs' (changeBase_ok hc) h

/-- **C81** Whenever the change has a result, so has the table: they fail together with the metric, and the table has the metric's columns. -/
theorem C81_exists (env : Env) (o : Oper) (m : M) (wh cond : List String) (hcond : o.splitBy = cond) (f : Frame) (sb ex' : List String)
    (cs' : List Tbl) (h : (M.oper o m wh).run env f sb = .ok (.tbl ex' cs')) :
    ∃ ex cs, changeBase env m wh cond f sb = .ok (.tbl ex cs) ∧ m.run env (f.query env wh) (sb ++ cond) = .ok (.tbl ex cs) := by
  subst hcond
  simp only [M.run] at h
  cases hm : m.run env (f.query env wh) (sb ++ o.splitBy) with
  | error e => rw [hm] at h; simp at h
  | ok r =>
    rw [hm] at h
    cases r with
    | num q => simp [Oper.onRes] at h
    | tbl ex cs => exact ⟨ex, cs, by simp [changeBase, M.run, runAll, hm, joinRes], rfl⟩

section
variable {S D K : Type} [DecidableEq S] [DecidableEq D] [Field K] [LinearOrder K]

theorem lookup_eq_of_mem_nodup {α β : Type} [BEq α] [LawfulBEq α] : ∀ {l : List (α × β)} {a : α} {b : β}, (l.map Prod.fst).Nodup →
    (a, b) ∈ l → l.lookup a = some b
  | [], _, _, _, h => by cases h
  | (x, y) :: l, a, b, hn, h => by
      simp only [List.map_cons, List.nodup_cons, List.mem_map, not_exists, not_and] at hn
      rcases List.mem_cons.1 h with h | h
      · cases h; simp [List.lookup_cons]
      · have : a ≠ x := fun e => hn.1 _ h e
        rw [List.lookup_cons, beq_false_of_ne this]
        exact lookup_eq_of_mem_nodup hn.2 h

theorem lookup_none_of_notMem {α β : Type} [BEq α] [LawfulBEq α] : ∀ {l : List (α × β)} {a : α}, a ∉ l.map Prod.fst → l.lookup a = none
  | [], _, _ => rfl
  | (x, y) :: l, a, h => by
      simp only [List.map_cons, List.mem_cons, not_or] at h
      rw [List.lookup_cons, beq_false_of_ne h.1]
      exact lookup_none_of_notMem h.2

/-- **C81** On a DataFrame `display()` has one row for every slice and condition, the control's too, with the value of the metric there and,
except for the control unless it is included, the change between this value and the value in the control's row of the slice. -/
theorem C81_dataframe (f : Option K → Option K → Option K) (b : D) (incl : Bool) (t res : DTab S D K) (hk : (t.map Prod.fst).Nodup)
    (h : pyChange f b incl t = some res) :
    (displayRows (dfBase t) res).map Prod.fst = t.map Prod.fst ∧
    ∀ s d v x, ((s, d), v, x) ∈ displayRows (dfBase t) res →
      ((s, d), v) ∈ t ∧
      (incl = true ∨ d ≠ b → ∀ w y, ((s, b), w, y) ∈ displayRows (dfBase t) res → x = f v w) ∧
      (incl = false → d = b → x = none) := by
  have hres := pyChange_some h
  have hrn : (res.map Prod.fst).Nodup := by
    rw [C34_rows f b incl t res h]
    exact hk.filter _
  refine ⟨by simp [displayRows, dfBase, List.map_map, Function.comp_def], fun s d v x hm => ?_⟩
  simp only [displayRows, dfBase, List.mem_map] at hm ⊢
  obtain ⟨⟨k, v'⟩, hr, e⟩ := hm
  simp only [Prod.mk.injEq] at e
  obtain ⟨rfl, rfl, rfl⟩ := e
  refine ⟨hr, fun hin w y hw => ?_, fun hi hd => ?_⟩
  · obtain ⟨⟨k', w'⟩, hr', e'⟩ := hw
    simp only [Prod.mk.injEq] at e'
    obtain ⟨rfl, rfl, _⟩ := e'
    have hm' : ((s, d), f v' (baseVal t b s)) ∈ res := (change_mem f b incl t res h s d _).2 ⟨hin, v', hr, rfl⟩
    rw [lookup_eq_of_mem_nodup hrn hm']
    unfold baseVal
    rw [lookup_eq_of_mem_nodup hk hr']
    rfl
  · have : (s, d) ∉ res.map Prod.fst := by
      rw [C34_rows f b incl t res h, List.mem_filter]
      simp [hi, hd]
    rw [lookup_none_of_notMem this]
    rfl

/-- **C81** In SQL with `include_base=True`, where every slice has the control, `display()` gets the same rows. -/
theorem C81_sql (f : Option K → Option K → Option K) (b : D) (t res : DTab S D K) (hk : (t.map Prod.fst).Nodup)
    (hb : ∀ r ∈ t, (t.lookup (r.1.1, b)).isSome) (h : pyChange f b true t = some res) :
    displayRows (sqlBase (sqlChange f b true t) t) (sqlChange f b true t) = displayRows (dfBase t) res := by
  have e : sqlChange f b true t = res := by
    rw [sqlChange_eq _ _ _ _ hk, pyChange_some h]
    simp only [Bool.true_or, List.filter_true]
    rw [List.filter_eq_self]
    intro r hr
    obtain ⟨r', hr', rfl⟩ := List.mem_map.1 hr
    exact hb r' hr'
  rw [e]
  have hrows := C34_rows f b true t res h
  simp only [Bool.true_or, List.filter_true] at hrows
  unfold displayRows sqlBase dfBase
  rw [List.map_map]
  have : t = res.map fun r => (r.1, (t.lookup r.1).join) := by
    have e1 : res.map (fun r => (r.1, (t.lookup r.1).join)) = (res.map Prod.fst).map fun k => (k, (t.lookup k).join) := by
      rw [List.map_map]; rfl
    rw [e1, hrows, List.map_map]
    conv_lhs => rw [← List.map_id t]
    refine List.map_congr_left fun r hr => ?_
    simp only [id, Function.comp_apply]
    rw [lookup_eq_of_mem_nodup (b := r.2) hk (by simpa using hr)]
    rfl
  conv_rhs => rw [this]
  rw [List.map_map]

end

/-- **C81** violated: without `include_base` the table that SQL mode attaches lacks the control, which `display()` takes from it ("base
always has the baseline"); on a DataFrame it has it. -/
theorem C81_sql_violation :
    let t : DTab ℕ ℕ ℚ := [((0, 0), some 2), ((0, 1), some 3)]
    (displayRows (dfBase t) ((pyChange pyPct 0 false t).getD [])) = [((0, 0), some 2, none), ((0, 1), some 3, some 50)] ∧
    (displayRows (sqlBase (sqlChange sqlPct 0 false t) t) (sqlChange sqlPct 0 false t)) = [((0, 1), some 3, some 50)] := by
  decide +kernel

/-! ## The cache -/

variable {F R B : Type} [DecidableEq F]

theorem canonWh_again (x w : List String) : canonWh (canonWh (x ++ w) ++ w) = canonWh (x ++ w) := by
  unfold canonWh sortWh
  have hp : (List.insertionSort (· ≤ ·) (x ++ w).dedup ++ w).dedup.Perm (x ++ w).dedup := by
    rw [List.perm_ext_iff_of_nodup (List.nodup_dedup _) (List.nodup_dedup _)]
    intro a
    rw [List.mem_dedup, List.mem_append, List.mem_dedup, (List.perm_insertionSort _ _).mem_iff, List.mem_dedup, List.mem_append]
    tauto
  apply List.Perm.eq_of_pairwise (le := (· ≤ ·)) (fun a b _ _ h1 h2 => le_antisymm h1 h2)
    (List.pairwise_insertionSort _ _) (List.pairwise_insertionSort _ _)
  exact (List.perm_insertionSort _ _).trans (hp.trans (List.perm_insertionSort _ _).symm)

/-- A key that is made from itself again. -/
def ownKey (m : BMetric F) (K : BKey F) : Prop := bKeyFor (some K) m none [] = K

theorem bKeyFor_own (rem : Option (BKey F)) (m : BMetric F) (k : Option ℕ) (sb : List String) : ownKey m (bKeyFor rem m k sb) := by
  unfold ownKey bKeyFor
  cases rem with
  | none =>
    simp only [BKey.fresh, BKey.extend, if_true, BKey.mk.injEq, true_and]
    have := canonWh_again [] m.wh
    simpa using this
  | some old => cases k <;> simp [BKey.extend, canonWh_again]

/-- What holds in a history in which every hit is on the key that the object remembers. -/
structure BInv (objs : ℕ → BMetric F) (val : BKey F → Option (R × B)) (s : BState F R B) : Prop where
  res : ∀ K r a, s.results.lookup K = some (r, a) → ∃ b, val K = some (r, b) ∧ (∀ b', a = some b' → b' = b) ∧ s.bases.lookup K = some b
  bases : ∀ K b, s.bases.lookup K = some b → ∃ r, val K = some (r, b)
  own : ∀ i K, s.keys i = some K → ownKey (objs i) K

/-- A hit is on the remembered key. -/
def bOrderly (objs : ℕ → BMetric F) (val : BKey F → Option (R × B)) : List BCall → BState F R B → Prop
  | [], _ => True
  | c :: cs, s =>
    ((s.results.lookup (bKeyFor (s.keys c.obj) (objs c.obj) c.key c.splitBy)).isSome →
      s.keys c.obj = some (bKeyFor (s.keys c.obj) (objs c.obj) c.key c.splitBy)) ∧
    bOrderly objs val cs (bCall objs val c s).2

theorem bStep_inv (objs : ℕ → BMetric F) (val : BKey F → Option (R × B)) (c : BCall) (s : BState F R B) (hi : BInv objs val s)
    (ho : (s.results.lookup (bKeyFor (s.keys c.obj) (objs c.obj) c.key c.splitBy)).isSome →
      s.keys c.obj = some (bKeyFor (s.keys c.obj) (objs c.obj) c.key c.splitBy)) :
    (bStep objs val c s).1 = rightOut val (bKeyFor (s.keys c.obj) (objs c.obj) c.key c.splitBy) ∧
    BInv objs val (bStep objs val c s).2 := by
  have hown := bKeyFor_own (s.keys c.obj) (objs c.obj) c.key c.splitBy
  unfold bStep rightOut
  simp only
  generalize hK : bKeyFor (s.keys c.obj) (objs c.obj) c.key c.splitBy = K at ho hown ⊢
  cases hl : s.results.lookup K with
  | none =>
    have ownK : ∀ i L, setObj s.keys c.obj (some K) i = some L → ownKey (objs i) L := by
      intro i L hL
      unfold setObj at hL
      split at hL
      · next e => subst e; cases hL; exact hown
      · exact hi.own i L hL
    cases hv : val K with
    | none =>
      exact ⟨rfl, hi.res, hi.bases, ownK⟩
    | some p =>
      obtain ⟨r, b⟩ := p
      refine ⟨rfl, ?_, ?_, ownK⟩
      · intro L r' a hL
        rw [hown]
        rw [List.lookup_cons] at hL ⊢
        by_cases e : L = K
        · subst e
          simp only [beq_self_eq_true, Option.some.injEq, Prod.mk.injEq] at hL ⊢
          obtain ⟨rfl, rfl⟩ := hL
          exact ⟨b, hv, fun b' hb' => (nomatch hb'), rfl⟩
        · rw [beq_false_of_ne e] at hL ⊢
          exact hi.res L r' a hL
      · intro L b' hL
        rw [hown, List.lookup_cons] at hL
        by_cases e : L = K
        · subst e
          simp only [beq_self_eq_true, Option.some.injEq] at hL
          subst hL
          exact ⟨r, hv⟩
        · rw [beq_false_of_ne e] at hL
          exact hi.bases L b' hL
  | some p =>
    obtain ⟨r, a⟩ := p
    have hrem := ho (by rw [hl]; rfl)
    obtain ⟨b, hv, ha, hb⟩ := hi.res K r a hl
    rw [hrem, show bKeyFor (some K) (objs c.obj) none [] = K from hown]
    cases a with
    | some b' =>
      obtain rfl := ha b' rfl
      refine ⟨by rw [hv], ?_, ?_, hi.own⟩
      · intro L r' a' hL
        obtain ⟨b2, h1, h2, h3⟩ := hi.res L r' a' hL
        refine ⟨b2, h1, h2, ?_⟩
        show List.lookup L ((K, b') :: s.bases) = some b2
        rw [List.lookup_cons]
        by_cases e : L = K
        · subst e
          rw [hv] at h1
          simp only [Option.some.injEq, Prod.mk.injEq] at h1
          simp [h1.2]
        · rw [beq_false_of_ne e]; exact h3
      · intro L b2 hL
        change List.lookup L ((K, b') :: s.bases) = some b2 at hL
        rw [List.lookup_cons] at hL
        by_cases e : L = K
        · subst e
          simp only [beq_self_eq_true, Option.some.injEq] at hL
          subst hL
          exact ⟨r, hv⟩
        · rw [beq_false_of_ne e] at hL; exact hi.bases L b2 hL
    | none =>
      simp only [hb, hv, true_and]
      split
      · refine ⟨?_, hi.bases, hi.own⟩
        intro L r' a' hL
        change List.lookup L ((K, (r, some b)) :: s.results) = some (r', a') at hL
        rw [List.lookup_cons] at hL
        by_cases e : L = K
        · subst e
          simp only [beq_self_eq_true, Option.some.injEq, Prod.mk.injEq] at hL
          obtain ⟨rfl, rfl⟩ := hL
          exact ⟨b, hv, fun b' hb' => by cases hb'; rfl, hb⟩
        · rw [beq_false_of_ne e] at hL
          exact hi.res L r' a' hL
      · exact hi

theorem bCall_inv (objs : ℕ → BMetric F) (val : BKey F → Option (R × B)) (c : BCall) (s : BState F R B) (hi : BInv objs val s)
    (ho : (s.results.lookup (bKeyFor (s.keys c.obj) (objs c.obj) c.key c.splitBy)).isSome →
      s.keys c.obj = some (bKeyFor (s.keys c.obj) (objs c.obj) c.key c.splitBy)) :
    (bCall objs val c s).1 = rightOut val (bKeyFor (s.keys c.obj) (objs c.obj) c.key c.splitBy) ∧
    BInv objs val (bCall objs val c s).2 := by
  obtain ⟨h1, h2⟩ := bStep_inv objs val c s hi ho
  unfold bCall
  simp only
  split
  · exact ⟨h1, h2⟩
  · refine ⟨h1, fun K r a h => (nomatch h), fun K b h => (nomatch h), fun i K h => ?_⟩
    change setObj (bStep objs val c s).2.keys c.obj none i = some K at h
    unfold setObj at h
    split at h
    · cases h
    · exact h2.own i K h

/-- **C81** In every history of calls in which a cached result is only read by an object whose last computation was this result: each call
gives the result and the compared values of its own key, also when they come from the cache. -/
theorem C81_cache_partial (objs : ℕ → BMetric F) (val : BKey F → Option (R × B)) (cs : List BCall) (s : BState F R B) (hi : BInv objs val s)
    (ho : bOrderly objs val cs s) : ∀ p ∈ bHistory objs val cs s, p.2 = rightOut val p.1 := by
  induction cs generalizing s with
  | nil => intro p hp; cases hp
  | cons c cs ih =>
    intro p hp
    obtain ⟨h1, h2⟩ := bCall_inv objs val c s hi ho.1
    rcases List.mem_cons.1 hp with rfl | hp
    · exact h1
    · exact ih _ h2 ho.2 p hp

theorem BInv.empty (objs : ℕ → BMetric F) (val : BKey F → Option (R × B)) : BInv objs val BState.empty :=
  ⟨fun K r a h => (nomatch h), fun K b h => (nomatch h), fun i K h => (nomatch h)⟩

theorem bCall_keys (objs : ℕ → BMetric F) (val : BKey F → Option (R × B)) (c : BCall) (s : BState F R B) (i : ℕ) (K : BKey F)
    (h : (bCall objs val c s).2.keys i = some K) :
    s.keys i = some K ∨ (c.obj = i ∧ K = bKeyFor (s.keys i) (objs i) c.key c.splitBy) := by
  have hstep : (bStep objs val c s).2.keys i = some K →
      s.keys i = some K ∨ (c.obj = i ∧ K = bKeyFor (s.keys i) (objs i) c.key c.splitBy) := by
    intro h
    unfold bStep at h
    simp only at h
    have hset : setObj s.keys c.obj (some (bKeyFor (s.keys c.obj) (objs c.obj) c.key c.splitBy)) i = some K →
        s.keys i = some K ∨ (c.obj = i ∧ K = bKeyFor (s.keys i) (objs i) c.key c.splitBy) := by
      intro g
      unfold setObj at g
      split at g
      · next e => exact Or.inr ⟨e.symm, by rw [e]; exact (Option.some.inj g).symm⟩
      · exact Or.inl g
    split at h
    · split at h
      · exact hset h
      · exact hset h
    · split at h
      · exact Or.inl h
      · split at h
        · exact Or.inl h
        · split at h <;> exact Or.inl h
  unfold bCall at h
  simp only at h
  split at h
  · exact hstep h
  · change setObj (bStep objs val c s).2.keys c.obj none i = some K at h
    unfold setObj at h
    split at h
    · cases h
    · exact hstep h

/-- **C81** Which key is its own: in such a history, a call with a `cache_key` and a `split_by` gives the result and the compared values of the
metric for this key and this split, whatever the object was called with before. -/
theorem C81_cache_own_partial (objs : ℕ → BMetric F) (val : BKey F → Option (R × B)) (cs : List BCall)
    (ho : bOrderly objs val cs BState.empty) (hc : ∀ c ∈ cs, c.key.isSome ∧ c.splitBy ≠ []) :
    (bHistory objs val cs BState.empty).map Prod.snd = cs.map fun c => rightOut val (BKey.fresh c.key (objs c.obj) c.splitBy) := by
  have key : ∀ (cs : List BCall) (s : BState F R B), BInv objs val s → bOrderly objs val cs s →
      (∀ c ∈ cs, c.key.isSome ∧ c.splitBy ≠ []) → (∀ i K, s.keys i = some K → K.wh = canonWh (objs i).wh) →
      (bHistory objs val cs s).map Prod.snd = cs.map fun c => rightOut val (BKey.fresh c.key (objs c.obj) c.splitBy) := by
    intro cs
    induction cs with
    | nil => intros; rfl
    | cons c cs ih =>
      intro s hi ho hc hw
      obtain ⟨hk, hs⟩ := hc c List.mem_cons_self
      have hK : bKeyFor (s.keys c.obj) (objs c.obj) c.key c.splitBy = BKey.fresh c.key (objs c.obj) c.splitBy := by
        cases hck : c.key with
        | none => rw [hck] at hk; cases hk
        | some k =>
          cases hr : s.keys c.obj with
          | none => rfl
          | some old =>
            simp only [bKeyFor, BKey.extend, BKey.fresh, BKey.mk.injEq, true_and, if_neg hs]
            rw [hw _ _ hr, canonWh_absorb]
      obtain ⟨g1, g2⟩ := bCall_inv objs val c s hi ho.1
      simp only [bHistory, List.map_cons, List.cons.injEq]
      refine ⟨by rw [g1, hK], ih _ g2 ho.2 (fun d hd => hc d (List.mem_cons_of_mem _ hd)) fun i K h => ?_⟩
      rcases bCall_keys objs val c s i K h with h | ⟨rfl, h⟩
      · exact hw i K h
      · rw [h, hK]; rfl
  exact key cs BState.empty (BInv.empty objs val) ho hc (fun i K h => (nomatch h))

/-- The keys of objects that are always called with the same key and split. -/
theorem fixed_key (m : BMetric F) (k : ℕ) (sb : List String) (rem : Option (BKey F))
    (h : rem = none ∨ rem = some (BKey.fresh (some k) m sb)) : bKeyFor rem m (some k) sb = BKey.fresh (some k) m sb := by
  rcases h with rfl | rfl
  · rfl
  · simp only [bKeyFor, BKey.extend, BKey.fresh, BKey.mk.injEq, true_and]
    refine ⟨by split <;> simp_all, ?_⟩
    have := canonWh_again [] m.wh
    simpa using this

/-- **C81** In particular: objects that are each called with one `cache_key` and one `split_by`, any number of times and in any order, and no
two of which stand for the same metric with the same key and split. -/
theorem C81_cache_one_use (objs : ℕ → BMetric F) (val : BKey F → Option (R × B)) (k : ℕ → ℕ) (sb : ℕ → List String) (cs : List BCall)
    (hc : ∀ c ∈ cs, c.key = some (k c.obj) ∧ c.splitBy = sb c.obj)
    (hinj : ∀ i j, (∃ c ∈ cs, c.obj = i) → (∃ c ∈ cs, c.obj = j) →
      BKey.fresh (some (k i)) (objs i) (sb i) = BKey.fresh (some (k j)) (objs j) (sb j) → i = j) :
    (bHistory objs val cs BState.empty).map Prod.snd
      = cs.map fun c => rightOut val (BKey.fresh c.key (objs c.obj) c.splitBy) := by
  let own (i : ℕ) : BKey F := BKey.fresh (some (k i)) (objs i) (sb i)
  let used (i : ℕ) : Prop := ∃ c ∈ cs, c.obj = i
  have key : ∀ (ds : List BCall) (s : BState F R B), (∀ d ∈ ds, d ∈ cs) → BInv objs val s →
      (∀ i, s.keys i = none ∨ s.keys i = some (own i)) →
      (∀ K, (s.results.lookup K).isSome → ∃ i, used i ∧ K = own i ∧ s.keys i = some K) →
      (bHistory objs val ds s).map Prod.snd = ds.map fun c => rightOut val (BKey.fresh c.key (objs c.obj) c.splitBy) := by
    intro ds
    induction ds with
    | nil => intros; rfl
    | cons d ds ih =>
      intro s hd hi hk hr
      have hdc := hd d List.mem_cons_self
      obtain ⟨h1, h2⟩ := hc d hdc
      have hK : bKeyFor (s.keys d.obj) (objs d.obj) d.key d.splitBy = own d.obj := by
        rw [h1, h2]
        exact fixed_key _ _ _ _ (hk d.obj)
      have ho : (s.results.lookup (bKeyFor (s.keys d.obj) (objs d.obj) d.key d.splitBy)).isSome →
          s.keys d.obj = some (bKeyFor (s.keys d.obj) (objs d.obj) d.key d.splitBy) := by
        intro hs
        obtain ⟨i, hu, e, hki⟩ := hr _ hs
        rw [hK] at e hki ⊢
        have := hinj d.obj i ⟨d, hdc, rfl⟩ hu e
        rw [this] at hki ⊢
        exact hki
      obtain ⟨g1, g2⟩ := bCall_inv objs val d s hi ho
      simp only [bHistory, List.map_cons, List.cons.injEq]
      refine ⟨by rw [g1, hK, h1, h2], ih _ (fun e he => hd e (List.mem_cons_of_mem _ he)) g2 ?_ ?_⟩
      · intro i
        unfold bCall bStep
        simp only [h1]
        rw [← h1, hK]
        have hset : ∀ i, setObj s.keys d.obj (some (own d.obj)) i = none ∨ setObj s.keys d.obj (some (own d.obj)) i = some (own i) := by
          intro i
          unfold setObj
          split
          · next e => rw [e]; exact Or.inr rfl
          · exact hk i
        cases s.results.lookup (own d.obj) with
        | none => cases val (own d.obj) <;> exact hset i
        | some p =>
          obtain ⟨r, a⟩ := p
          cases a with
          | some b => exact hk i
          | none =>
            simp only
            split
            · exact hk i
            · split <;> exact hk i
      · intro K hs
        have hold : ∀ L, (s.results.lookup L).isSome → ∃ i, used i ∧ L = own i ∧ setObj s.keys d.obj (some (own d.obj)) i = some L := by
          intro L hL
          obtain ⟨i, a1, a2, a3⟩ := hr L hL
          refine ⟨i, a1, a2, ?_⟩
          unfold setObj
          split
          · next e => rw [a2, e]
          · exact a3
        unfold bCall bStep at hs ⊢
        simp only [h1] at hs ⊢
        rw [← h1, hK] at hs ⊢
        cases hl : s.results.lookup (own d.obj) with
        | none =>
          rw [hl] at hs
          cases hv : val (own d.obj) with
          | none => rw [hv] at hs; exact hold K hs
          | some p =>
            rw [hv] at hs
            simp only at hs ⊢
            rw [List.lookup_cons] at hs
            by_cases e : K = own d.obj
            · exact ⟨d.obj, ⟨d, hdc, rfl⟩, e, by simp [setObj, e]⟩
            · rw [beq_false_of_ne e] at hs
              exact hold K hs
        | some p =>
          obtain ⟨r, a⟩ := p
          rw [hl] at hs
          cases a with
          | some b => exact hr K hs
          | none =>
            simp only at hs ⊢
            cases hb : s.bases.lookup (bKeyFor (s.keys d.obj) (objs d.obj) none []) with
            | none => rw [hb] at hs; exact hr K hs
            | some b =>
              rw [hb] at hs
              simp only at hs ⊢
              cases hsame : d.same with
              | false => rw [hsame] at hs; simpa [hsame] using hr K hs
              | true =>
                rw [hsame] at hs
                simp only [if_true] at hs ⊢
                rw [List.lookup_cons] at hs
                by_cases e : K = own d.obj
                · exact hr K (by rw [e, hl]; rfl)
                · rw [beq_false_of_ne e] at hs
                  exact hr K hs
  exact key cs BState.empty (fun _ h => h) (BInv.empty objs val) (fun _ => Or.inl rfl) (fun K h => (nomatch h))

/-- **C81** violated: one object called with two splits and then with the first again gets the result of the first with the compared values of
the second. -/
theorem C81_cache_violation :
    let objs : ℕ → BMetric ℕ := fun _ => ⟨0, []⟩
    let val : BKey ℕ → Option (List String × List String) := fun K => some (K.splitBy, K.splitBy)
    (bHistory objs val [⟨0, some 1, ["a"], false⟩, ⟨0, some 1, ["b"], false⟩, ⟨0, some 1, ["a"], false⟩] BState.empty).map Prod.snd
      = [.ok ["a"] ["a"], .ok ["b"] ["b"], .ok ["a"] ["b"]] := by
  rfl

/-- **C81** violated: an equal metric that reads the cached result fails with a KeyError (in a MetricList it is dropped). -/
theorem C81_equal_violation :
    let objs : ℕ → BMetric ℕ := fun _ => ⟨0, []⟩
    let val : BKey ℕ → Option (List String × List String) := fun K => some (K.splitBy, K.splitBy)
    (bHistory objs val [⟨0, some 1, ["a"], false⟩, ⟨1, some 1, ["a"], false⟩] BState.empty).map Prod.snd
      = [.ok ["a"] ["a"], .keyError] := by
  rfl

/-- The hypotheses of `C81_cache_one_use` are met, with hits. -/
example :
    let objs : ℕ → BMetric ℕ := fun i => ⟨i, ["x"]⟩
    let val : BKey ℕ → Option (List String × ℕ) := fun K => some (K.splitBy, K.metric)
    let cs : List BCall := [⟨0, some 1, ["a"], true⟩, ⟨1, some 1, ["a"], false⟩, ⟨0, some 1, ["a"], true⟩, ⟨0, some 1, ["a"], true⟩]
    (bHistory objs val cs BState.empty).map Prod.snd = [.ok ["a"] 0, .ok ["a"] 1, .ok ["a"] 0, .ok ["a"] 0] := by
  intro objs val cs
  rw [C81_cache_one_use objs val (fun _ => 1) (fun _ => ["a"]) cs (by simp [cs]) (by
    intro i j _ _ h
    simpa [BKey.fresh, objs] using h)]
  rfl

/-- The hypotheses of `C81_cache_own_partial` are met, with a hit after a change of the split. -/
example :
    let objs : ℕ → BMetric ℕ := fun i => ⟨i, ["x"]⟩
    let val : BKey ℕ → Option (List String × ℕ) := fun K => some (K.splitBy, K.metric)
    let cs : List BCall := [⟨0, some 1, ["a"], true⟩, ⟨0, some 2, ["b"], false⟩, ⟨0, some 2, ["b"], true⟩]
    bOrderly objs val cs BState.empty ∧ ∀ c ∈ cs, c.key.isSome ∧ c.splitBy ≠ [] := by
  intro objs val cs
  refine ⟨⟨fun h => ?_, fun h => ?_, fun h => ?_, trivial⟩, by simp [cs]⟩
  · cases h
  · exact absurd h (by decide)
  · decide

/-- The hypotheses of the first theorems are met. -/
example :
    let t : DTab ℕ ℕ ℚ := [((0, 0), some 2), ((0, 1), some 3), ((1, 0), some 4), ((1, 1), some 2)]
    (t.map Prod.fst).Nodup ∧ (∀ r ∈ t, (t.lookup (r.1.1, 0)).isSome) ∧
    pyChange pyPct 0 true t = some [((0, 0), some 0), ((0, 1), some 50), ((1, 0), some 0), ((1, 1), some (-50))] := by
  decide +kernel

end Verif
