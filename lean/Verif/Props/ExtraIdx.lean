import Verif.Model.ExtraIdx
import Verif.Spec.Example
import Verif.Lemmas.SliceRun
import Mathlib.Data.List.Dedup

/-!
# C71: the index of the result

/repo/utils.py:151-174, /repo/metrics.py:676-700.
-/

namespace Verif

mutual
/-- Below a diversity operation no metric has index levels of its own. -/
def M.flatDiversity : M → Prop
  | .const _ => True
  | .leaf _ _ => True
  | .comp _ l r _ => l.flatDiversity ∧ r.flatDiversity
  | .list ms _ => flatAll ms
  | .oper o c _ => c.flatDiversity ∧ ((∃ over, o = .hhi over) → c.extraIdx false = some [])
def flatAll : List M → Prop
  | [] => True
  | m :: ms => m.flatDiversity ∧ flatAll ms
end

theorem mergeIdx_mem {l : List (List String)} {i x : List String} (h : mergeIdx false l = some i) (hx : x ∈ l) : x = i := by
  unfold mergeIdx at h
  have hm : x ∈ l.dedup := List.mem_dedup.2 hx
  split at h
  · rename_i e; rw [e] at hm; simp at hm
  · rename_i j e; rw [e] at hm; cases h; simpa using hm
  · simp at h

theorem isConst_run {env : Env} {m : M} {f : Frame} {sb ex : List String} {cs : List Tbl} (h : m.run env f sb = .ok (.tbl ex cs)) :
    m.isConst = false := by
  cases m with
  | const q => simp [M.run] at h
  | _ => rfl

theorem joinRes_ex : ∀ {rs : List Res} {ex : List String} {cs : List Tbl}, joinRes rs = .ok (.tbl ex cs) →
    ∃ r ∈ rs, ∃ cs', r = .tbl ex cs' := by
  intro rs
  induction rs with
  | nil => intro ex cs h; simp [joinRes] at h
  | cons r rs ih =>
    intro ex cs h
    cases rs with
    | nil =>
      cases r with
      | num q => simp [joinRes] at h
      | tbl ex' cs' => simp [joinRes] at h; exact ⟨.tbl ex' cs', by simp, cs', by rw [h.1]⟩
    | cons r' rs =>
      cases r with
      | num q => 
        simp only [joinRes] at h
        cases hj : joinRes (r' :: rs) <;> simp [hj] at h
      | tbl ex' cs' =>
        simp only [joinRes] at h
        cases hj : joinRes (r' :: rs) with
        | error e => simp [hj] at h
        | ok x =>
          cases x with
          | num q => simp [hj] at h
          | tbl ex'' cs'' =>
            simp only [hj] at h
            split at h
            · cases h; exact ⟨_, by simp, cs', rfl⟩
            · simp at h

theorem runAll_mem {env : Env} {f : Frame} {sb : List String} {r : Res} : ∀ {ms : List M}, r ∈ runAll env ms f sb → ∃ m ∈ ms, m.run env f sb = .ok r := by
  intro ms
  induction ms with
  | nil => intro h; simp [runAll] at h
  | cons m ms ih =>
    intro h
    simp only [runAll] at h
    cases hm : m.run env f sb with
    | error e => rw [hm] at h; obtain ⟨m', h1, h2⟩ := ih h; exact ⟨m', by simp [h1], h2⟩
    | ok r' =>
      rw [hm] at h
      rcases List.mem_cons.1 h with rfl | h
      · exact ⟨m, by simp, hm⟩
      · obtain ⟨m', h1, h2⟩ := ih h; exact ⟨m', by simp [h1], h2⟩

theorem extraIdxAll_mem {ms : List M} : ∀ {l : List (List String)}, extraIdxAll false ms = some l → ∀ m ∈ ms, m.isConst = false →
    ∃ i ∈ l, m.extraIdx false = some i := by
  induction ms with
  | nil => intro l _ m hm; simp at hm
  | cons m ms ih =>
    intro l h m' hm' hc
    simp only [extraIdxAll, Option.bind_eq_bind, Option.bind_eq_some_iff, Option.pure_def, Option.some.injEq] at h
    obtain ⟨a, ha, l', hl', e⟩ := h
    rcases List.mem_cons.1 hm' with rfl | hm'
    · rw [hc] at e; subst e; exact ⟨a, by simp, ha⟩
    · obtain ⟨i, hi, he⟩ := ih hl' m' hm' hc
      refine ⟨i, ?_, he⟩
      subst e; split
      · exact hi
      · exact List.mem_cons_of_mem _ hi

theorem flatAll_mem {ms : List M} (h : flatAll ms) : ∀ m ∈ ms, m.flatDiversity := by
  induction ms with
  | nil => simp
  | cons m ms ih =>
    intro m' hm'
    rcases List.mem_cons.1 hm' with rfl | hm'
    · exact h.1
    · exact ih h.2 m' hm'

theorem combine_ex {op : PyVal → PyVal → PyVal} {a b : Res} {ex : List String} {cs : List Tbl} (h : combine op a b = .ok (.tbl ex cs)) :
    (∃ as, a = .tbl ex as) ∨ (∃ bs, b = .tbl ex bs) := by
  unfold combine at h
  split at h
  · simp at h
  · cases h; exact .inr ⟨_, rfl⟩
  · cases h; exact .inl ⟨_, rfl⟩
  · split at h
    · split at h
      · cases h; exact .inl ⟨_, rfl⟩
      · simp at h
    · simp at h

/-- **C71.** For every metric whose children have compatible indexes, every DataFrame and every `split_by`: the levels of the result beyond
`split_by` are the ones that the metric declares. -/
theorem C71_index_partial (env : Env) : ∀ (m : M) (f : Frame) (sb ex : List String) (cs : List Tbl) (idx : List String), m.flatDiversity →
    m.extraIdx false = some idx → m.run env f sb = .ok (.tbl ex cs) → ex = idx
  | .const q, f, sb, ex, cs, idx, _, _, h => by simp [M.run] at h
  | .leaf k wh, f, sb, ex, cs, idx, _, hi, h => by
      simp only [M.run, Leaf.run] at h
      split at h
      · cases h; simpa [M.extraIdx] using hi
      · simp at h
  | .comp op l r wh, f, sb, ex, cs, idx, hf, hi, h => by
      simp only [M.extraIdx, Option.bind_eq_bind, Option.bind_eq_some_iff] at hi
      obtain ⟨a, ha, b, hb, hm⟩ := hi
      simp only [M.run] at h
      cases hl : l.run env (f.query env wh) sb with
      | error e => simp [hl] at h
      | ok x =>
        cases hr : r.run env (f.query env wh) sb with
        | error e => simp [hl, hr] at h
        | ok y =>
          simp only [hl, hr] at h
          rcases combine_ex h with ⟨as, rfl⟩ | ⟨bs, rfl⟩
          · rw [C71_index_partial env l _ _ _ _ a hf.1 ha hl]
            exact mergeIdx_mem hm (by simp [isConst_run hl])
          · rw [C71_index_partial env r _ _ _ _ b hf.2 hb hr]
            exact mergeIdx_mem hm (by simp [isConst_run hr])
  | .list ms wh, f, sb, ex, cs, idx, hf, hi, h => by
      simp only [M.extraIdx, Option.bind_eq_bind, Option.bind_eq_some_iff] at hi
      obtain ⟨l, hl, hm⟩ := hi
      simp only [M.run] at h
      obtain ⟨r, hr, cs', rfl⟩ := joinRes_ex h
      obtain ⟨m, hmem, hrun⟩ := runAll_mem hr
      obtain ⟨i, hi', he⟩ := extraIdxAll_mem hl m hmem (isConst_run hrun)
      rw [C71_index_partial env m _ _ _ _ i (flatAll_mem hf m hmem) he hrun]
      exact mergeIdx_mem hm hi'
  | .oper o c wh, f, sb, ex, cs, idx, hf, hi, h => by
      simp only [M.extraIdx, Option.map_eq_some_iff] at hi
      obtain ⟨i, hc, rfl⟩ := hi
      simp only [M.run] at h
      cases hl : c.run env (f.query env wh) (sb ++ o.splitBy) with
      | error e => simp [hl] at h
      | ok x =>
        cases x with
        | num q => simp [hl, Oper.onRes] at h
        | tbl ex' cs' =>
          have e := C71_index_partial env c _ _ _ _ i hf.1 hc hl
          subst e
          simp only [hl, Oper.onRes] at h
          split at h
          · cases h
            cases o with
            | hhi over =>
              have := hf.2 ⟨over, rfl⟩
              rw [hc] at this
              simp only [Option.some.injEq] at this
              simp [Oper.extraIndex, Oper.ownIndex, this]
            | _ => rfl
          · simp at h
termination_by m => sizeOf m
decreasing_by
  all_goals simp_wf
  all_goals (try omega)
  have := List.sizeOf_lt_of_mem hmem
  omega

/-! ## The index values fit the levels -/

/-- All index values of a result with `n` slicing columns have a value for each of its levels. -/
def Res.fits (n : ℕ) : Res → Prop
  | .num _ => True
  | .tbl ex cs => ∀ t ∈ cs, ∀ p ∈ t, p.1.length = n + ex.length

theorem groupKeys_length {sb : List String} {rs : List Row} {k : Key} (h : k ∈ groupKeys sb rs) : k.length = sb.length := by
  unfold groupKeys at h
  split at h
  · rename_i e; subst e; simp at h; subst h; rfl
  · obtain ⟨r, _, hr⟩ := List.mem_filterMap.1 (List.mem_dedup.1 h)
    exact keyOf_length hr

theorem align_fits {op : PyVal → PyVal → PyVal} {a b : Tbl} {n : ℕ} (ha : ∀ p ∈ a, p.1.length = n) (hb : ∀ p ∈ b, p.1.length = n) :
    ∀ p ∈ Tbl.align op a b, p.1.length = n := by
  intro p hp
  unfold Tbl.align at hp
  obtain ⟨k, hk, rfl⟩ := List.mem_map.1 hp
  rcases List.mem_append.1 (List.mem_dedup.1 hk) with h | h
  · obtain ⟨q, hq, rfl⟩ := List.mem_map.1 h; exact ha q hq
  · obtain ⟨q, hq, rfl⟩ := List.mem_map.1 h; exact hb q hq

theorem mem_zipWith {α β γ : Type} {g : α → β → γ} {c : γ} : ∀ {l : List α} {l' : List β}, c ∈ List.zipWith g l l' → ∃ a ∈ l, ∃ b ∈ l', c = g a b := by
  intro l
  induction l with
  | nil => intro l' h; simp at h
  | cons a l ih =>
    intro l' h
    cases l' with
    | nil => simp at h
    | cons b l' =>
      rw [List.zipWith_cons_cons] at h
      rcases List.mem_cons.1 h with rfl | h
      · exact ⟨a, by simp, b, by simp, rfl⟩
      · obtain ⟨a', ha, b', hb, e⟩ := ih h; exact ⟨a', by simp [ha], b', by simp [hb], e⟩

theorem zipCols_mem {op : Tbl → Tbl → Tbl} {as bs cs : List Tbl} (h : zipCols op as bs = .ok cs) : ∀ c ∈ cs, ∃ a ∈ as, ∃ b ∈ bs, c = op a b := by
  intro c hc
  unfold zipCols at h
  split at h
  · cases h
    obtain ⟨b, hb, rfl⟩ := List.mem_map.1 hc
    exact ⟨_, by simp, b, hb, rfl⟩
  · cases h
    obtain ⟨b, hb, rfl⟩ := List.mem_map.1 hc
    exact ⟨b, hb, _, by simp, rfl⟩
  · split at h
    · cases h; exact mem_zipWith hc
    · simp at h

theorem combine_fits {op : PyVal → PyVal → PyVal} {a b r : Res} {n : ℕ} (ha : a.fits n) (hb : b.fits n) (h : combine op a b = .ok r) : r.fits n := by
  unfold combine at h
  split at h
  · simp at h
  · cases h
    intro t ht p hp
    obtain ⟨t0, ht0, rfl⟩ := List.mem_map.1 ht
    obtain ⟨p0, hp0, rfl⟩ := List.mem_map.1 hp
    exact hb t0 ht0 p0 hp0
  · cases h
    intro t ht p hp
    obtain ⟨t0, ht0, rfl⟩ := List.mem_map.1 ht
    obtain ⟨p0, hp0, rfl⟩ := List.mem_map.1 hp
    exact ha t0 ht0 p0 hp0
  · split at h
    · rename_i e
      subst e
      split at h
      · rename_i cs hz
        cases h
        intro t ht
        obtain ⟨x, hx, y, hy, rfl⟩ := zipCols_mem hz t ht
        exact align_fits (ha x hx) (hb y hy)
      · simp at h
    · simp at h

theorem joinRes_fits {n : ℕ} : ∀ {rs : List Res} {r : Res}, (∀ x ∈ rs, x.fits n) → joinRes rs = .ok r → r.fits n := by
  intro rs
  induction rs with
  | nil => intro r _ h; simp [joinRes] at h
  | cons x rs ih =>
    intro r hx h
    cases rs with
    | nil =>
      cases x with
      | num q => simp [joinRes] at h
      | tbl ex cs => simp only [joinRes, Except.ok.injEq] at h; subst h; exact hx _ (by simp)
    | cons y rs =>
      cases x with
      | num q => simp only [joinRes] at h; cases hj : joinRes (y :: rs) <;> simp [hj] at h
      | tbl ex cs =>
        simp only [joinRes] at h
        cases hj : joinRes (y :: rs) with
        | error e => simp [hj] at h
        | ok z =>
          have hz := ih (fun x hx' => hx x (List.mem_cons_of_mem _ hx')) hj
          cases z with
          | num q => simp [hj] at h
          | tbl ex' cs' =>
            simp only [hj] at h
            split at h
            · rename_i e; subst e; cases h
              intro t ht
              rcases List.mem_append.1 ht with ht | ht
              · exact hx (.tbl ex cs) (by simp) t ht
              · exact hz t ht
            · simp at h

theorem onTbl_fits {o : Oper} {n : ℕ} {ex : List String} {t T : Tbl} (ht : ∀ p ∈ t, p.1.length = n + o.splitBy.length + ex.length)
    (h : o.onTbl n t = .ok T) : ∀ p ∈ T, p.1.length = n + (o.extraIndex ex).length := by
  have hch : ∀ g c base incl, changeTbl g n c base incl t = .ok T → ∀ p ∈ T, p.1.length = n + o.splitBy.length + ex.length := by
    intro g c base incl h p hp
    unfold changeTbl at h
    split at h
    · cases h
      have : p ∈ t.map (fun p => (p.1, g p.2 ((t.get (baseKey n c base p.1)).getD .nan))) := by
        cases incl with
        | true => simpa using hp
        | false => simp only [Bool.false_eq_true, if_false] at hp; exact (List.mem_filter.1 hp).1
      obtain ⟨q, hq, rfl⟩ := List.mem_map.1 this
      exact ht q hq
    · simp at h
  cases o with
  | dist over =>
    simp only [Oper.onTbl, Except.ok.injEq] at h
    subst h
    intro p hp
    obtain ⟨q, hq, rfl⟩ := List.mem_map.1 hp
    rw [ht q hq]; simp [Oper.extraIndex, Oper.splitBy]; omega
  | pctChange cond base incl =>
    intro p hp
    rw [hch _ _ _ _ h p hp]; simp [Oper.extraIndex, Oper.splitBy]; omega
  | absChange cond base incl =>
    intro p hp
    rw [hch _ _ _ _ h p hp]; simp [Oper.extraIndex, Oper.splitBy]; omega
  | hhi over =>
    simp only [Oper.onTbl, Except.ok.injEq] at h
    subst h
    intro p hp
    unfold hhiTbl at hp
    obtain ⟨k, hk, rfl⟩ := List.mem_map.1 hp
    split at hk
    · rename_i e; subst e
      simp at hk; subst hk; rfl
    · obtain ⟨q, hq, rfl⟩ := List.mem_map.1 (List.mem_dedup.1 hk)
      obtain ⟨q', hq', rfl⟩ := List.mem_map.1 hq
      have := ht q' hq'
      simp [Oper.extraIndex]; omega

/-- **C71.** Every row of every result has a value for each slicing column and each level of the index. -/
theorem C71_levels (env : Env) : ∀ (m : M) (f : Frame) (sb : List String) (r : Res), m.run env f sb = .ok r → r.fits sb.length
  | .const q, f, sb, r, h => by simp [M.run] at h; subst h; trivial
  | .leaf k wh, f, sb, r, h => by
      simp only [M.run, Leaf.run] at h
      split at h
      · cases h
        intro t ht p hp
        simp only [List.mem_singleton] at ht
        subst ht
        obtain ⟨key, hk, rfl⟩ := List.mem_map.1 hp
        simpa using groupKeys_length hk
      · simp at h
  | .comp op l r wh, f, sb, R, h => by
      simp only [M.run] at h
      cases hl : l.run env (f.query env wh) sb with
      | error e => simp [hl] at h
      | ok x =>
        cases hr : r.run env (f.query env wh) sb with
        | error e => simp [hl, hr] at h
        | ok y =>
          simp only [hl, hr] at h
          exact combine_fits (C71_levels env l _ _ _ hl) (C71_levels env r _ _ _ hr) h
  | .list ms wh, f, sb, r, h => by
      simp only [M.run] at h
      refine joinRes_fits (fun x hx => ?_) h
      obtain ⟨m, hmem, hrun⟩ := runAll_mem hx
      exact C71_levels env m _ _ _ hrun
  | .oper o c wh, f, sb, r, h => by
      simp only [M.run] at h
      cases hl : c.run env (f.query env wh) (sb ++ o.splitBy) with
      | error e => simp [hl] at h
      | ok x =>
        cases x with
        | num q => simp [hl, Oper.onRes] at h
        | tbl ex' cs' =>
          have e := C71_levels env c _ _ _ hl
          simp only [hl, Oper.onRes] at h
          cases hm : cs'.mapM (o.onTbl sb.length) with
          | error e => simp [hm] at h
          | ok cs'' =>
            simp only [hm, Except.ok.injEq] at h
            subst h
            intro t ht
            obtain ⟨t0, ht0, hon⟩ := mapM_ok_mem hm t ht
            exact onTbl_fits (fun p hp => by have := e t0 ht0 p hp; simpa [List.length_append] using this) hon
termination_by m => sizeOf m
decreasing_by
  all_goals simp_wf
  all_goals (try omega)
  have := List.sizeOf_lt_of_mem hmem
  omega

/-! ## The violation -/

/-- The HHI over `c` of the change against the baseline 0 of `g`. -/
def hhiOfChange : M := .oper (.hhi ["c"]) (.oper (.absChange ["g"] [0] false) (.leaf (.sum "x") []) []) []

/-- **C71, violated.** The HHI of a comparison declares the column of the comparison as a level of its index, and `to_sql` groups by it; the
result on a DataFrame does not have it. -/
theorem C71_violation_diversity :
    hhiOfChange.extraIdx false = some ["g"] ∧
      hhiOfChange.run exEnv exFrame [] = .ok (.tbl [] [[([], .fin (1 / 2))]]) := by decide +kernel

/-- A tree of which `C71_index_partial` speaks: the ratio of two changes, with a number. -/
def indexExample : M :=
  .comp .mul (.const 2) (.oper (.pctChange ["c"] [0] false) (.list [.leaf (.sum "x") [], .leaf (.count "x") []] []) []) []

example : indexExample.flatDiversity := by simp [indexExample, M.flatDiversity, flatAll]
example : indexExample.extraIdx false = some ["c"] := by decide +kernel
example : indexExample.run exEnv exFrame ["g"] =
    .ok (.tbl ["c"] [[([0, 1], .fin 200), ([1, 1], .fin 50)], [([0, 1], .fin 0), ([1, 1], .fin 0)]]) := by decide +kernel

theorem mergeIdx_superset {l : List (List String)} (h : ∀ i ∈ l, i.Nodup) :
    ∃ r, mergeIdx true l = some r ∧ r.Nodup ∧ ∀ x, x ∈ r ↔ ∃ i ∈ l, x ∈ i := by
  unfold mergeIdx
  split
  next e =>
    refine ⟨[], rfl, List.nodup_nil, fun x => ?_⟩
    have : l = [] := by
      rw [List.eq_nil_iff_forall_not_mem]
      intro i hi
      have := List.mem_dedup.2 hi
      rw [e] at this
      cases this
    simp [this]
  next i e =>
    have hm : ∀ j, j ∈ l ↔ j = i := fun j => by rw [← List.mem_dedup, e, List.mem_singleton]
    refine ⟨i, rfl, h i ((hm i).2 rfl), fun x => ?_⟩
    simp [hm]
  next =>
    refine ⟨_, rfl, List.nodup_dedup _, fun x => ?_⟩
    rw [List.mem_dedup, List.mem_flatten]

theorem extraIdxAll_superset : ∀ ms : List M, (∀ m ∈ ms, ∃ i, m.extraIdx true = some i ∧ i.Nodup) →
    ∃ l, extraIdxAll true ms = some l ∧ (∀ i ∈ l, i.Nodup) ∧ ∀ x, (∃ i ∈ l, x ∈ i) ↔ ∃ m ∈ ms, ∃ i, m.extraIdx true = some i ∧ x ∈ i
  | [], _ => ⟨[], rfl, by simp, by simp⟩
  | m :: ms, h => by
    obtain ⟨l, h1, h2, h3⟩ := extraIdxAll_superset ms fun m hm => h m (by simp [hm])
    obtain ⟨i, h4, h5⟩ := h m (by simp)
    rw [extraIdxAll, h4, h1]
    refine ⟨_, rfl, ?_, ?_⟩
    · intro j hj
      split at hj
      · exact h2 j hj
      · rcases List.mem_cons.1 hj with rfl | hj
        · exact h5
        · exact h2 j hj
    · intro x
      by_cases hc : m.isConst = true
      · rw [if_pos hc, h3]
        have : i = [] := by
          cases m <;> simp [M.isConst] at hc
          rw [M.extraIdx, Option.some.injEq] at h4
          exact h4.symm
        subst this
        simp only [List.mem_cons, exists_eq_or_imp, h4, Option.some.injEq]
        constructor
        · exact Or.inr
        · rintro (⟨i, rfl, hx⟩ | hx)
          · cases hx
          · exact hx
      · rw [if_neg hc]
        simp only [List.mem_cons, exists_eq_or_imp, h4, Option.some.injEq, exists_eq_left', h3]

/-- **C71** Where the children of a list differ in their levels and the union is asked for, as `compute_on_sql` does in the mixed cases: the levels are
exactly those of the children, each once. -/
theorem C71_superset (ms : List M) (wh : List String) (h : ∀ m ∈ ms, ∃ i, m.extraIdx true = some i ∧ i.Nodup) :
    ∃ r, (M.list ms wh).extraIdx true = some r ∧ r.Nodup ∧ ∀ x, x ∈ r ↔ ∃ m ∈ ms, ∃ i, m.extraIdx true = some i ∧ x ∈ i := by
  obtain ⟨l, h1, h2, h3⟩ := extraIdxAll_superset ms h
  obtain ⟨r, h4, h5, h6⟩ := mergeIdx_superset h2
  refine ⟨r, ?_, h5, fun x => by rw [h6, h3]⟩
  rw [M.extraIdx, h1]
  exact h4

/-- The hypothesis is met: the children have the levels `g`, `c` and none. -/
example : ∀ m ∈ [M.oper (.pctChange ["g"] [0] false) (.leaf (.sum "x") []) [], .oper (.pctChange ["c", "g"] [0, 0] false) (.leaf (.sum "x") []) [],
    .leaf (.sum "x") []], ∃ i, m.extraIdx true = some i ∧ i.Nodup := by
  intro m hm
  simp only [List.mem_cons, List.not_mem_nil, or_false] at hm
  rcases hm with rfl | rfl | rfl
  · exact ⟨["g"], by decide +kernel, by decide⟩
  · exact ⟨["c", "g"], by decide +kernel, by decide⟩
  · exact ⟨[], by decide +kernel, by decide⟩

end Verif
