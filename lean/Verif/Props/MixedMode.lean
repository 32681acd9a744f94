import Verif.Lemmas.MixedMode
import Verif.Spec.Example

/-!
# C76: the modes of compute_on_sql
-/

namespace Verif

theorem mapM_some_iff (r : Row) : ∀ (sb : List String) (key : Key), sb.mapM r = some key ↔ sb.map r = key.map some
  | [], key => by cases key <;> simp
  | c :: sb, key => by
    rw [List.mapM_cons]
    cases hc : r c with
    | none => cases key <;> simp [hc]
    | some q =>
      cases key with
      | nil =>
        simp only [List.map_cons, List.map_nil, Option.bind_eq_bind, Option.bind_some]
        cases hm : sb.mapM r <;> simp
      | cons a key =>
        have ih := mapM_some_iff r sb key
        simp only [List.map_cons, List.cons.injEq, hc, Option.some.injEq, ← ih]
        cases hm : sb.mapM r <;> simp

theorem mapM_id_some : ∀ key : Key, (key.map some).mapM id = some key
  | [] => rfl
  | a :: key => by
    rw [List.map_cons, List.mapM_cons, mapM_id_some key]
    rfl

theorem keyOf_of_present {sb : List String} {r : Row} (h : ∀ c ∈ sb, r c ≠ none) : ∃ key, keyOf sb r = some key := by
  induction sb with
  | nil => exact ⟨[], rfl⟩
  | cons c sb ih =>
    obtain ⟨key, hk⟩ := ih fun c hc => h c (by simp [hc])
    obtain ⟨q, hq⟩ := Option.ne_none_iff_exists'.1 (h c (by simp))
    refine ⟨q :: key, ?_⟩
    unfold keyOf at hk ⊢
    rw [List.mapM_cons, hq, hk]
    rfl

theorem sqlGroups_eq {sb : List String} {rs : List Row} (h : ∀ r ∈ rs, ∀ c ∈ sb, r c ≠ none) :
    sqlGroups sb rs = (groupKeys sb rs).map (List.map some) := by
  unfold sqlGroups groupKeys
  split
  · rfl
  · rw [← List.dedup_map_of_injective (List.map_injective_iff.2 (Option.some_injective _))]
    congr 1
    induction rs with
    | nil => rfl
    | cons r rs ih =>
      obtain ⟨key, hk⟩ := keyOf_of_present (h r (by simp))
      rw [List.map_cons, List.filterMap_cons, hk, List.map_cons, ih fun r' hr => h r' (by simp [hr])]
      congr 1
      exact (mapM_some_iff r sb key).1 hk

/-- The query of one aggregation gives what pandas gives. -/
theorem leafSql_same (env : Env) (perm : List (List Cell) → List (List Cell)) (hperm : ∀ l, (perm l).Perm l) (k : Leaf)
    (wh : List String) (f : Frame) (sb : List String)
    (hkey : ∀ r ∈ (f.query env wh).rows, ∀ c ∈ sb, r c ≠ none)
    (hval : ∀ v ∈ groupKeys sb (f.query env wh).rows, k.hasValues (rowsAt sb v (f.query env wh).rows) ∧
      (k.agg (rowsAt sb v (f.query env wh).rows)).isInf = false) :
    ExRel Res.Same (leafSql env perm k wh f sb) ((M.leaf k wh).run env f sb) := by
  rw [M.run]
  unfold leafSql Leaf.run
  have hc : (f.query env wh).cols = f.cols := rfl
  rw [hc]
  split
  · refine .ok ⟨rfl, .cons ?_ .nil⟩
    unfold leafRows
    simp only
    have hp := hperm (sqlGroups sb (f.query env wh).rows)
    rw [sqlGroups_eq hkey] at hp
    rw [sqlGroups_eq hkey]
    have step : ((perm ((groupKeys sb (f.query env wh).rows).map (List.map some))).map fun key =>
        (key, k.sqlAgg env [] ((f.query env wh).rows.filter fun r => sqlKey sb r = key))).filterMap
        (fun p => (p.1.mapM id).map fun key => (key, PyVal.ofCell p.2)) |>.Perm
        ((groupKeys sb (f.query env wh).rows).map fun key => (key, k.agg (rowsAt sb key (f.query env wh).rows))) := by
      refine ((hp.map _).filterMap _).trans ?_
      rw [List.map_map, List.filterMap_map]
      have : ∀ v ∈ groupKeys sb (f.query env wh).rows,
          ((fun p : List Cell × Cell => (p.1.mapM id).map fun key => (key, PyVal.ofCell p.2)) ∘
            ((fun key => (key, k.sqlAgg env [] ((f.query env wh).rows.filter fun r => sqlKey sb r = key))) ∘ List.map some)) v =
          some (v, k.agg (rowsAt sb v (f.query env wh).rows)) := by
        intro v hv
        simp only [Function.comp_def, mapM_id_some, Option.map_some, Option.some.injEq, Prod.mk.injEq, true_and]
        rw [leaf_agree env f sb v k wh [] wh (by simp) (hval v hv).1 (hval v hv).2]
        unfold groupRows rowsAt
        congr 2
        refine List.filter_congr fun r _ => ?_
        rw [Bool.eq_iff_iff]
        simp only [decide_eq_true_eq]
        exact (mapM_some_iff r sb v).symm
      rw [List.filterMap_congr this, ← List.filterMap_eq_map]
      rfl
    refine Tbl.Same.symm ⟨step.symm, ?_⟩
    rw [List.map_map]
    simp only [Function.comp_def, List.map_id']
    unfold groupKeys
    split
    · simp
    · exact List.nodup_dedup _
  · exact .error _

/-- **C76** Whatever part of a tree the database computes and whatever is left to Python (default mode or mixed mode, any set of
classes with SQL generators): if every query that is run gives the result that `compute_on` gives for its part of the tree, then
whenever compute_on_sql succeeds, so does compute_on, with the same result. -/
theorem C76_any_division (env : Env) (sql : SqlMode) (mixed : Bool) (m : M) (f : Frame) (sb : List String)
    (hsql : ∀ n f' sb' r, Reach env m f sb n f' sb' → sql n f' sb' = some (.ok r) →
      ∃ r', n.run env f' sb' = .ok r' ∧ r.Same r') (r : Res) (h : m.onSql env sql mixed f sb = .ok r) :
    ∃ r', m.run env f sb = .ok r' ∧ r.Same r' :=
  go m f sb hsql r h
where
  go : ∀ (m : M) (f : Frame) (sb : List String), (∀ n f' sb' r, Reach env m f sb n f' sb' → sql n f' sb' = some (.ok r) →
      ∃ r', n.run env f' sb' = .ok r' ∧ r.Same r') → ∀ r, m.onSql env sql mixed f sb = .ok r →
      ∃ r', m.run env f sb = .ok r' ∧ r.Same r'
    | .const q, f, sb, _, r, h => by
      cases h
      exact ⟨.num q, rfl, rfl⟩
    | .leaf k wh, f, sb, hsql, r, h => by
      rw [M.onSql] at h
      split at h
      · next r' hr => subst h; exact hsql _ _ _ _ (.here _ _ _) hr
      · cases h
    | .comp op l s wh, f, sb, hsql, r, h => by
      rw [M.onSql] at h
      split at h
      · next r' hr =>
        subst h
        split at hr
        · cases hr
        · exact hsql _ _ _ _ (.here _ _ _) hr
      · split at h
        · cases h
        · next a ha =>
          split at h
          · cases h
          · next b hb =>
            obtain ⟨a', ha', sa⟩ := go l _ sb (fun n f' sb' r hn => hsql n f' sb' r (.left hn)) a ha
            obtain ⟨b', hb', sb⟩ := go s _ sb (fun n f' sb' r hn => hsql n f' sb' r (.right hn)) b hb
            have := same_combine (op.py env) sa sb
            rw [h] at this
            rw [M.run, ha', hb']
            simp only
            generalize combine (op.py env) a' b' = x at this ⊢
            cases this with
            | ok hr => exact ⟨_, rfl, hr⟩
    | .list ms wh, f, sb, hsql, r, h => by
      rw [M.onSql] at h
      split at h
      · next r' hr =>
        subst h
        split at hr
        · cases hr
        · exact hsql _ _ _ _ (.here _ _ _) hr
      · split at h
        · cases h
        · next rs hrs =>
          have hall := goAll ms _ sb (fun m hm n f' sb' r hn => hsql n f' sb' r (.item hm hn)) rs hrs
          have := same_joinRes hall
          rw [h] at this
          rw [M.run]
          generalize joinRes (runAll env ms (f.query env wh) sb) = x at this ⊢
          cases this with
          | ok hr => exact ⟨_, rfl, hr⟩
    | .oper o c wh, f, sb, hsql, r, h => by
      rw [M.onSql] at h
      split at h
      · next r' hr =>
        subst h
        split at hr
        · cases hr
        · exact hsql _ _ _ _ (.here _ _ _) hr
      · split at h
        · cases h
        · next a ha =>
          obtain ⟨a', ha', sa⟩ := go c _ _ (fun n f' sb' r hn => hsql n f' sb' r (.child hn)) a ha
          have := same_onRes o sb.length sa
          rw [h] at this
          rw [M.run, ha']
          simp only
          generalize o.onRes sb.length a' = x at this ⊢
          cases this with
          | ok hr => exact ⟨_, rfl, hr⟩
  goAll : ∀ (ms : List M) (f : Frame) (sb : List String), (∀ m ∈ ms, ∀ n f' sb' r, Reach env m f sb n f' sb' →
      sql n f' sb' = some (.ok r) → ∃ r', n.run env f' sb' = .ok r' ∧ r.Same r') → ∀ rs, onSqlAll env sql mixed ms f sb = .ok rs →
      List.Forall₂ Res.Same rs (runAll env ms f sb)
    | [], f, sb, _, rs, h => by
      cases h
      exact .nil
    | m :: ms, f, sb, hsql, rs, h => by
      rw [onSqlAll] at h
      split at h
      · cases h
      · next r hr =>
        split at h
        · cases h
        · next rs' hrs =>
          cases h
          obtain ⟨r', hr', sr⟩ := go m f sb (hsql m (by simp)) r hr
          rw [runAll, hr']
          exact .cons sr (goAll ms f sb (fun m hm => hsql m (by simp [hm])) rs' hrs)

/-- What two computations agree on: both succeed with the same table up to the order of rows, or both raise the same error. -/
def SameOutcome : Except Err Res → Except Err Res → Prop
  | .ok r, .ok r' => r.Same r'
  | .error e, .error e' => e = e'
  | _, _ => False

theorem SameOutcome.of {x y : Except Err Res} (h : ExRel Res.Same x y) : SameOutcome x y := by
  cases h with
  | ok h => exact h
  | error e => rfl

/-- **C76** (partial: the conditions of `LeafFits` and `NoneFails`; the violations below show that they are needed) In mixed mode
only the metrics without children are computed by queries. For every tree with operations, lists and filters, every table and
split, and any order in which the database returns the rows, the outcome is that of compute_on: the same tables or the same
error. -/
theorem C76_mixed_mode_partial (env : Env) (perm : List (List Cell) → List (List Cell)) (hperm : ∀ l, (perm l).Perm l)
    (m : M) (f : Frame) (sb : List String) (hfit : LeafFits env m f sb) (hf : NoneFails env m f sb) :
    SameOutcome (m.onSql env (leafMode env perm) true f sb) (m.run env f sb) :=
  .of (go m f sb hfit hf)
where
  go : ∀ (m : M) (f : Frame) (sb : List String), LeafFits env m f sb → NoneFails env m f sb →
      ExRel Res.Same (m.onSql env (leafMode env perm) true f sb) (m.run env f sb)
    | .const q, f, sb, _, _ => .ok rfl
    | .leaf k wh, f, sb, hfit, _ => by
      obtain ⟨h1, h2⟩ := hfit k wh f sb (.here _ _ _)
      exact leafSql_same env perm hperm k wh f sb h1 h2
    | .comp op l r wh, f, sb, hfit, hf => by
      have hl := go l (f.query env wh) sb (fun k wh f' sb' h => hfit k wh f' sb' (.left h))
        (fun ms wh f' sb' h => hf ms wh f' sb' (.left h))
      have hr := go r (f.query env wh) sb (fun k wh f' sb' h => hfit k wh f' sb' (.right h))
        (fun ms wh f' sb' h => hf ms wh f' sb' (.right h))
      rw [M.onSql, M.run]
      simp only [if_true]
      generalize l.onSql env (leafMode env perm) true (f.query env wh) sb = x at hl ⊢
      generalize l.run env (f.query env wh) sb = x' at hl ⊢
      cases hl with
      | error e => exact .error e
      | ok ha =>
        simp only
        generalize r.onSql env (leafMode env perm) true (f.query env wh) sb = y at hr ⊢
        generalize r.run env (f.query env wh) sb = y' at hr ⊢
        cases hr with
        | error e => exact .error e
        | ok hb => exact same_combine _ ha hb
    | .list ms wh, f, sb, hfit, hf => by
      obtain ⟨rs, hrs, hs⟩ := goAll ms (f.query env wh) sb
        (fun m hm k wh f' sb' h => hfit k wh f' sb' (.item hm h)) (fun m hm ms wh f' sb' h => hf ms wh f' sb' (.item hm h))
        (hf ms wh f sb (.here _ _ _))
      rw [M.onSql, M.run]
      simp only [if_true, hrs]
      exact same_joinRes hs
    | .oper o c wh, f, sb, hfit, hf => by
      have hl := go c (f.query env wh) (sb ++ o.splitBy) (fun k wh f' sb' h => hfit k wh f' sb' (.child h))
        (fun ms wh f' sb' h => hf ms wh f' sb' (.child h))
      rw [M.onSql, M.run]
      simp only [if_true]
      generalize c.onSql env (leafMode env perm) true (f.query env wh) (sb ++ o.splitBy) = x at hl ⊢
      generalize c.run env (f.query env wh) (sb ++ o.splitBy) = x' at hl ⊢
      cases hl with
      | error e => exact .error e
      | ok ha => exact same_onRes o sb.length ha
  goAll : ∀ (ms : List M) (f : Frame) (sb : List String), (∀ m ∈ ms, LeafFits env m f sb) → (∀ m ∈ ms, NoneFails env m f sb) →
      (∀ c ∈ ms, ∃ r, c.run env f sb = .ok r) →
      ∃ rs, onSqlAll env (leafMode env perm) true ms f sb = .ok rs ∧ List.Forall₂ Res.Same rs (runAll env ms f sb)
    | [], f, sb, _, _, _ => ⟨[], rfl, .nil⟩
    | m :: ms, f, sb, hfit, hf, hok => by
      obtain ⟨rs, hrs, hs⟩ := goAll ms f sb (fun m hm => hfit m (by simp [hm])) (fun m hm => hf m (by simp [hm]))
        (fun c hc => hok c (by simp [hc]))
      obtain ⟨r', hr'⟩ := hok m (by simp)
      have hm := go m f sb (hfit m (by simp)) (hf m (by simp))
      rw [hr'] at hm
      rw [onSqlAll, runAll, hr', hrs]
      generalize m.onSql env (leafMode env perm) true f sb = x at hm ⊢
      cases hm with
      | ok h => exact ⟨_, rfl, .cons h hs⟩

/-- `PercentChange('g', 0, MetricList([Sum('x'), Sum('x') / Count('x', where='x > 0')]))`-like tree on a table with one group per
value of `g`: the hypotheses hold, and the outcome is a table. -/
def exMixed : M := .oper (.absChange ["g"] [0] false)
  (.list [.leaf (.sum "x") [], .comp .div (.leaf (.sum "x") []) (.leaf (.count "x") ["g == 1"]) []] []) []

/-- Two rows with `g = 0` and two with `g = 1`. -/
theorem exMixed_run : exMixed.run exEnv exFrame [] = .ok (.tbl ["g"] [[([1], .fin 6)], [([1], .nan)]]) := by
  decide +kernel

theorem exMixed_fits : LeafFits exEnv exMixed exFrame [] := by
  intro k wh f' sb' h
  cases h with
  | child h =>
    cases h with
    | item hm h =>
      simp only [List.mem_cons, List.not_mem_nil, or_false] at hm
      rcases hm with rfl | rfl
      · cases h
        refine ⟨by decide +kernel, fun v hv => ?_⟩
        have : v = [0] ∨ v = [1] := by
          revert hv
          rw [show groupKeys ([] ++ Oper.splitBy (.absChange ["g"] [0] false))
            ((((exFrame.query exEnv []).query exEnv []).query exEnv []).rows) = [[0], [1]] by decide +kernel]
          simp
        rcases this with rfl | rfl <;> exact ⟨by simp only [Leaf.hasValues]; decide +kernel, by decide +kernel⟩
      · cases h with
        | left h =>
          cases h
          refine ⟨by decide +kernel, fun v hv => ?_⟩
          have : v = [0] ∨ v = [1] := by
            revert hv
            rw [show groupKeys ([] ++ Oper.splitBy (.absChange ["g"] [0] false))
              (((((exFrame.query exEnv []).query exEnv []).query exEnv []).query exEnv []).rows) = [[0], [1]] by decide +kernel]
            simp
          rcases this with rfl | rfl <;> exact ⟨by simp only [Leaf.hasValues]; decide +kernel, by decide +kernel⟩
        | right h =>
          cases h
          refine ⟨by decide +kernel, fun v hv => ⟨trivial, rfl⟩⟩

theorem exMixed_noneFails : NoneFails exEnv exMixed exFrame [] := by
  intro ms wh f' sb' h c hc
  cases h with
  | child h =>
    cases h with
    | here =>
      simp only [List.mem_cons, List.not_mem_nil, or_false] at hc
      rcases hc with rfl | rfl
      · exact ⟨_, rfl⟩
      · exact ⟨_, rfl⟩
    | item hm h =>
      simp only [List.mem_cons, List.not_mem_nil, or_false] at hm
      rcases hm with rfl | rfl
      · cases h
      · cases h with
        | left h => cases h
        | right h => cases h

/-- So the mixed mode gives that table, for a database that returns the rows backwards. -/
example : ∃ r, exMixed.onSql exEnv (leafMode exEnv List.reverse) true exFrame [] = .ok r ∧
    r.Same (.tbl ["g"] [[([1], .fin 6)], [([1], .nan)]]) := by
  have := C76_mixed_mode_partial exEnv List.reverse List.reverse_perm exMixed exFrame [] exMixed_fits exMixed_noneFails
  rw [exMixed_run] at this
  generalize exMixed.onSql exEnv (leafMode exEnv List.reverse) true exFrame [] = x at this ⊢
  cases x with
  | ok r => exact ⟨r, rfl, this⟩
  | error e => exact this.elim

/-! ### Where mixed mode and compute_on differ -/

/-- **C76** (violation) A child of a list that fails is skipped by compute_on with a warning, but makes compute_on_sql fail, in every
mode that gets to the children. -/
theorem C76_failing_child_violation (env : Env) (perm : List (List Cell) → List (List Cell)) (k k' : Leaf) (f : Frame)
    (hk : ∀ c ∈ k.vars, c ∈ f.cols) (hk' : ∃ c ∈ k'.vars, c ∉ f.cols) (wh : List String) :
    (∃ t, (M.list [.leaf k [], .leaf k' []] wh).run env f [] = .ok (.tbl [] [t])) ∧
    (M.list [.leaf k [], .leaf k' []] wh).onSql env (leafMode env perm) true f [] = .error .keyError := by
  have e1 : (k.vars ++ []).all (fun c => f.cols.contains c) = true := by
    simpa using hk
  have e2 : (k'.vars ++ []).all (fun c => f.cols.contains c) = false := by
    obtain ⟨c, h1, h2⟩ := hk'
    rw [List.append_nil, List.all_eq_false]
    exact ⟨c, h1, by simpa using h2⟩
  constructor
  · simp only [M.run, runAll, Leaf.run, Frame.query, e1, e2, if_true, Bool.false_eq_true, if_false]
    exact ⟨_, rfl⟩
  · simp only [M.onSql, if_true, onSqlAll, leafMode, leafSql, Frame.query, e1, e2, Bool.false_eq_true, if_false]

/-- **C76** (violation) Rows in which the split column is missing: compute_on drops them, the query returns a row with a missing index
value for them. -/
theorem C76_null_group_violation (env : Env) (perm : List (List Cell) → List (List Cell)) (hperm : ∀ l, (perm l).Perm l)
    (k : Leaf) (wh : List String) (f : Frame) (c : String) (r : Row) (hr : r ∈ (f.query env wh).rows) (hn : r c = none) :
    (∃ x, ([none], x) ∈ leafRows env perm k wh f [c]) ∧
      ∀ ex cs, (M.leaf k wh).run env f [c] = .ok (.tbl ex cs) → ∀ t ∈ cs, ∀ p ∈ t, ∃ q, p.1 = [q] := by
  constructor
  · refine ⟨_, List.mem_map.2 ⟨[none], ?_, rfl⟩⟩
    rw [(hperm _).mem_iff]
    unfold sqlGroups
    rw [if_neg (by simp), List.mem_dedup, List.mem_map]
    exact ⟨r, hr, by simp [sqlKey, hn]⟩
  · intro ex cs h t ht p hp
    rw [M.run, Leaf.run] at h
    split at h
    · simp only [Except.ok.injEq, Res.tbl.injEq] at h
      obtain ⟨_, rfl⟩ := h
      simp only [List.mem_singleton] at ht
      subst ht
      obtain ⟨key, hkey, rfl⟩ := List.mem_map.1 hp
      unfold groupKeys at hkey
      rw [if_neg (by simp), List.mem_dedup, List.mem_filterMap] at hkey
      obtain ⟨r', _, h2⟩ := hkey
      have := (mapM_some_iff r' [c] key).1 h2
      cases key with
      | nil => simp at this
      | cons a key =>
        cases key with
        | nil => exact ⟨a, rfl⟩
        | cons b key => simp at this
    · cases h

/-- **C76** (violation) The sum of a group whose values are all missing: 0 for compute_on, missing in every mode of compute_on_sql. -/
theorem C76_empty_sum_violation (env : Env) (perm : List (List Cell) → List (List Cell)) (hperm : ∀ l, (perm l).Perm l)
    (x : String) (wh : List String) (f : Frame) (hx : x ∈ f.cols) (hv : ∀ r ∈ (f.query env wh).rows, r x = none) :
    (M.leaf (.sum x) wh).run env f [] = .ok (.tbl [] [[([], .fin 0)]]) ∧
    (M.leaf (.sum x) wh).onSql env (leafMode env perm) true f [] = .ok (.tbl [] [[([], .nan)]]) := by
  have hp : perm [[]] = [[]] := List.perm_singleton.1 (hperm [[]])
  have e1 : vals x (rowsAt [] [] (f.query env wh).rows) = [] := by
    unfold vals
    rw [List.filterMap_eq_nil_iff]
    intro r hr
    exact hv r (List.mem_filter.1 hr).1
  have e2 : sqlVals env [] (fun r => r x) (f.query env wh).rows = [] := by
    unfold sqlVals
    rw [List.filterMap_eq_nil_iff]
    intro r hr
    simpa using hv r hr
  constructor
  · rw [M.run, Leaf.run, if_pos (by simpa [Leaf.vars, Frame.query] using hx)]
    simp only [groupKeys, if_true, List.map_cons, List.map_nil, Leaf.agg, e1]
    rfl
  · rw [M.onSql]
    simp only [leafMode, leafSql]
    rw [if_pos (by simpa [Leaf.vars] using hx)]
    simp only [leafRows, sqlGroups, if_true, hp, List.map_cons, List.map_nil, Leaf.sqlAgg, sqlKey, decide_true, List.filter_true, e2]
    rfl

/-- The violations have instances: a table with a missing key and only missing values. -/
example : ∃ (f : Frame) (r : Row), r ∈ (f.query exEnv []).rows ∧ r "g" = none ∧ "x" ∈ f.cols ∧
    ∀ r ∈ (f.query exEnv []).rows, r "x" = none :=
  ⟨⟨["g", "x"], [fun _ => none]⟩, fun _ => none, by simp [Frame.query], rfl, by simp, by simp [Frame.query]⟩

end Verif
