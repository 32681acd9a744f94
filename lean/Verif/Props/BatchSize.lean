import Verif.Model.BatchSize
import Verif.Model.StdErr
import Verif.Props.Resample
import Verif.Props.ResampleSql

/-!
# C85: the batch size is the one that was asked for
-/

namespace Verif

/-! ## Specification -/

/-- The batch size the documentation promises: the argument of `compute_on_sql` if there is one, else the attribute of the
metric, else the default of its class. Zero counts as not given. -/
def requestedBatch (given own : Option ℕ) (default : ℕ) : ℕ :=
  match given, own with
  | some (n + 1), _ => n + 1
  | _, some (n + 1) => n + 1
  | _, _ => default

/-- `None` or an integer. -/
def optArg : Option ℕ → PyArg
  | none => .none
  | some n => .int n

mutual
/-- No resampling below another one, and children computed with `return_dataframe=True`. -/
def BTree.plain : BTree → Prop
  | .leaf => True
  | .ci _ _ _ c => c.free
  | .inner r cs => r = .bool true ∧ BTree.plainAll cs
/-- The same for all children. -/
def BTree.plainAll : List BTree → Prop
  | [] => True
  | t :: ts => t.plain ∧ BTree.plainAll ts
/-- No resampling at all. -/
def BTree.free : BTree → Prop
  | .leaf => True
  | .ci _ _ _ _ => False
  | .inner r cs => r = .bool true ∧ BTree.freeAll cs
/-- The same for all children. -/
def BTree.freeAll : List BTree → Prop
  | [] => True
  | t :: ts => t.free ∧ BTree.freeAll ts
end

mutual
/-- The Jackknifes and Bootstraps of a plain tree: kind, number of resamples and `sql_batch_size`. -/
def BTree.cis : BTree → List (Bool × ℕ × PyArg)
  | .leaf => []
  | .ci jack n own _ => [(jack, n, own)]
  | .inner _ cs => BTree.cisAll cs
/-- Those of all children. -/
def BTree.cisAll : List BTree → List (Bool × ℕ × PyArg)
  | [] => []
  | t :: ts => t.cis ++ BTree.cisAll ts
end

/-- A Jackknife or Bootstrap. -/
def BTree.isCI : BTree → Bool
  | .ci _ _ _ _ => true
  | _ => false

/-! ## Binding -/

theorem bind_metric_util (m r : PyArg) : bindArgs sigMetricSql (utilArgs m r) [] = some
    [("table", .text "table"), ("split_by", .text "split_by"), ("execute", .text "execute"), ("melted", .bool false), ("mode", m),
     ("cache_key", .text "cache_key"), ("cache", .text "cache"), ("return_dataframe", r)] := by
  simp [bindArgs, sigMetricSql, utilArgs]

theorem bind_ci_util (m r : PyArg) : bindArgs sigCISql (utilArgs m r) [] = some
    [("table", .text "table"), ("split_by", .text "split_by"), ("execute", .text "execute"), ("melted", .bool false), ("mode", m),
     ("cache_key", .text "cache_key"), ("cache", .text "cache"), ("batch_size", r), ("return_dataframe", .bool true)] := by
  simp [bindArgs, sigCISql, utilArgs]

theorem bind_metric_resample (m : PyArg) : bindArgs sigMetricSql (resampleArgs m) [] = some
    [("table", .text "table"), ("split_by", .text "split_by"), ("execute", .text "execute"), ("melted", .bool true), ("mode", m),
     ("cache_key", .none), ("cache", .none), ("return_dataframe", .bool true)] := by
  simp [bindArgs, sigMetricSql, resampleArgs]

/-! ## Trees without resampling have no runs -/

mutual
theorem free_call (ok : BTree → Bool) (m r : PyArg) : (t : BTree) → t.free → t.call ok (utilArgs m r) [] = some []
  | .leaf, _ => by rw [BTree.call, bind_metric_util]; rfl
  | .ci _ _ _ _, h => by rw [BTree.free] at h; exact h.elim
  | .inner r' cs, h => by
    rw [BTree.free] at h
    rw [BTree.call, bind_metric_util]
    simp only [Option.bind_eq_bind, Option.bind_some]
    split
    · rfl
    · exact free_callAll ok _ _ cs h.2
theorem free_callAll (ok : BTree → Bool) (m r : PyArg) : (ts : List BTree) → BTree.freeAll ts → BTree.callAll ok ts (utilArgs m r) = some []
  | [], _ => by rw [BTree.callAll]
  | t :: ts, h => by
    rw [BTree.freeAll] at h
    rw [BTree.callAll, free_call ok m r t h.1, free_callAll ok m r ts h.2]; rfl
end

theorem free_resample (ok : BTree → Bool) (m : PyArg) (t : BTree) (h : t.free) : t.call ok (resampleArgs m) [] = some [] := by
  cases t with
  | leaf => rw [BTree.call, bind_metric_resample]; rfl
  | ci => rw [BTree.free] at h; exact h.elim
  | inner r cs =>
    rw [BTree.free] at h
    rw [BTree.call, bind_metric_resample]
    simp only [Option.bind_eq_bind, Option.bind_some]
    split
    · rfl
    · exact free_callAll ok _ _ cs h.2

/-! ## The batches of size one -/

theorem bsBatches_one (n : ℕ) : bsBatches n 1 = List.replicate n 1 := by simp [bsBatches, Nat.mod_one]

theorem jkBatches_one (n : ℕ) : (jkBatches (List.range n) 1).map (·.length) = List.replicate n 1 := by
  have hl : (jkBatches (List.range n) 1).length = n := by simp [jkBatches]
  obtain ⟨-, hb⟩ := C40_jackknife (List.range n) 1 (by decide)
  rw [List.eq_replicate_iff]
  refine ⟨by simpa using hl, ?_⟩
  intro k hk
  obtain ⟨b, hbm, rfl⟩ := List.mem_map.1 hk
  obtain ⟨h1, h2⟩ := hb b hbm
  have := List.length_pos_iff.2 h2
  omega

theorem queries_true (jack : Bool) (n : ℕ) (own : PyArg) : (⟨jack, n, own, .bool true⟩ : BatchRun).queries = List.replicate n 1 := by
  unfold BatchRun.queries
  cases jack
  · exact bsBatches_one n
  · exact jkBatches_one n

/-! ## C85 -/

/-- The size with the attribute and the default. -/
theorem or_or_requested (b own : Option ℕ) (d : ℕ) :
    ((optArg b).or (optArg own)).or (.int d) = .int (requestedBatch b own d) := by
  rcases b with _ | _ | b <;> rcases own with _ | _ | o <;> simp [optArg, PyArg.or, PyArg.truthy, requestedBatch]

/-- **C85**, for a Jackknife or Bootstrap on which `compute_on_sql` is called itself, in mixed mode: every query has at most as many
resamples as was asked for, none is empty, together they are all of them, and there is one query per full or begun batch. -/
theorem C85_root (ok : BTree → Bool) (jack : Bool) (count : ℕ) (own batch : Option ℕ) (child : BTree) (hc : child.free) :
    ∃ r, userCall ok (.ci jack count (optArg own) child) (.text "mixed") (batch.map .int) = some [r] ∧
      let b := requestedBatch batch own (if jack then 1 else 1000)
      r.size = .int b ∧ r.queries.sum = count ∧ (∀ k ∈ r.queries, 0 < k ∧ k ≤ b) ∧ r.queries.length = (count + b - 1) / b := by
  have hbind : ∃ bs, bindArgs sigCISql [.text "table", .text "split_by", .text "execute"]
      (userKw (.text "mixed") (batch.map .int)) = some bs ∧
      argOf bs "mode" = .text "mixed" ∧ argOf bs "batch_size" = optArg batch := by
    cases batch <;> simp [bindArgs, userKw, sigCISql, argOf, optArg]
  obtain ⟨bs, hb, hm, hbatch⟩ := hbind
  have hpos : 0 < requestedBatch batch own (if jack then 1 else 1000) := by
    rcases batch with _ | _ | b <;> rcases own with _ | _ | o <;> simp [requestedBatch] <;> split <;> decide
  refine ⟨⟨jack, count, optArg own, .int (requestedBatch batch own (if jack then 1 else 1000))⟩, ?_, rfl, ?_⟩
  · unfold userCall
    rw [BTree.call, hb]
    simp only [Option.bind_eq_bind, Option.bind_some]
    rw [hm, hbatch, or_or_requested]
    have hfree : ∀ j : Bool, child.call ok (if j then utilArgs (.text "mixed") (.bool true) else resampleArgs (.text "mixed")) [] = some [] := by
      intro j
      cases j
      · exact free_resample ok _ child hc
      · exact free_call ok _ _ child hc
    rw [hfree jack, free_call ok _ _ child hc]
    simp [PyArg.truthy]
  · generalize requestedBatch batch own (if jack then 1 else 1000) = b at hpos
    cases jack
    · obtain ⟨h1, h2, -⟩ := C40_bootstrap count b hpos
      refine ⟨h1, fun k hk => ⟨(h2 k hk).2, (h2 k hk).1⟩, ?_⟩
      change (bsBatches count b).length = _
      unfold bsBatches
      have hdm := Nat.div_add_mod count b
      have hlt := Nat.mod_lt count hpos
      split
      · next h =>
        rw [h, Nat.add_zero] at hdm
        simp only [List.append_nil, List.length_replicate]
        symm
        rw [Nat.div_eq_iff hpos]
        constructor
        · rw [Nat.mul_comm]; omega
        · rw [Nat.mul_comm]; omega
      · next h =>
        simp only [List.length_append, List.length_replicate, List.length_singleton]
        symm
        rw [Nat.div_eq_iff hpos, Nat.add_mul, Nat.mul_comm (count / b) b]
        constructor <;> omega
    · obtain ⟨h1, h2⟩ := C40_jackknife (List.range count) b hpos
      refine ⟨?_, ?_, ?_⟩
      · change ((jkBatches (List.range count) b).map (·.length)).sum = count
        rw [← List.length_flatten, h1, List.length_range]
      · intro k hk
        obtain ⟨l, hl, rfl⟩ := List.mem_map.1 (show k ∈ (jkBatches (List.range count) b).map (·.length) from hk)
        exact ⟨List.length_pos_iff.2 (h2 l hl).2, (h2 l hl).1⟩
      · change ((jkBatches (List.range count) b).map (·.length)).length = _
        simp [jkBatches]

/-- In default mode a metric that has a query of its own is computed without batches. -/
theorem C85_default_mode (ok : BTree → Bool) (jack : Bool) (count : ℕ) (own batch : Option ℕ) (child : BTree)
    (h : ok (.ci jack count (optArg own) child)) :
    userCall ok (.ci jack count (optArg own) child) .none (batch.map .int) = some [] := by
  have hbind : ∃ bs, bindArgs sigCISql [.text "table", .text "split_by", .text "execute"]
      (userKw .none (batch.map .int)) = some bs ∧
      argOf bs "mode" = .none := by
    cases batch <;> simp [bindArgs, userKw, sigCISql, argOf]
  obtain ⟨bs, hb, hm⟩ := hbind
  unfold userCall
  rw [BTree.call, hb]
  simp only [Option.bind_eq_bind, Option.bind_some]
  rw [hm, h]
  simp [PyArg.truthy]

mutual
theorem plain_util (ok : BTree → Bool) (m : PyArg) : (t : BTree) → t.plain → ∃ rs, t.call ok (utilArgs m (.bool true)) [] = some rs ∧
    (∀ r ∈ rs, r.size = .bool true) ∧ (m.truthy → rs.map (fun r => (r.jack, r.count, r.own)) = t.cis)
  | .leaf, _ => ⟨[], by rw [BTree.call, bind_metric_util]; rfl, by simp, by simp [BTree.cis]⟩
  | .ci jack n own c, h => by
    rw [BTree.plain] at h
    rw [BTree.call, bind_ci_util]
    simp only [Option.bind_eq_bind, Option.bind_some]
    split
    · next hm => exact ⟨[], rfl, by simp, by intro h'; simp [argOf, h'] at hm⟩
    · have hsub : ∀ (j : Bool) (m' : PyArg),
          c.call ok (if j then utilArgs m' (.bool true) else resampleArgs m') [] = some [] := by
        intro j m'
        cases j
        · exact free_resample ok _ c h
        · exact free_call ok _ _ c h
      rw [hsub, free_call ok _ _ c h]
      refine ⟨_, rfl, ?_, ?_⟩
      · simp [argOf, PyArg.or, PyArg.truthy]
      · simp [BTree.cis]
  | .inner r' cs, h => by
    rw [BTree.plain] at h
    rw [BTree.call, bind_metric_util]
    simp only [Option.bind_eq_bind, Option.bind_some]
    split
    · next hm => exact ⟨[], rfl, by simp, by intro h'; simp [argOf, h'] at hm⟩
    · rw [h.1, BTree.cis]; exact plain_all ok _ cs h.2
theorem plain_all (ok : BTree → Bool) (m : PyArg) : (ts : List BTree) → BTree.plainAll ts →
    ∃ rs, BTree.callAll ok ts (utilArgs m (.bool true)) = some rs ∧
      (∀ r ∈ rs, r.size = .bool true) ∧ (m.truthy → rs.map (fun r => (r.jack, r.count, r.own)) = BTree.cisAll ts)
  | [], _ => ⟨[], by rw [BTree.callAll], by simp, by simp [BTree.cisAll]⟩
  | t :: ts, h => by
    rw [BTree.plainAll] at h
    obtain ⟨a, ha, ha', ha''⟩ := plain_util ok m t h.1
    obtain ⟨b, hb, hb', hb''⟩ := plain_all ok m ts h.2
    rw [BTree.callAll, ha, hb]
    refine ⟨_, rfl, ?_, ?_⟩
    · intro r hr
      rcases List.mem_append.1 hr with hr | hr
      · exact ha' r hr
      · exact hb' r hr
    · intro hm
      rw [List.map_append, ha'' hm, hb'' hm, BTree.cisAll]
end

/-- The claim is false of a Jackknife or Bootstrap inside any other metric (a MetricList, a sum, an operation): `return_dataframe`
arrives as its `batch_size`. Whatever `sql_batch_size` says, every query has one resample, there are as many queries as resamples,
and the query of a Bootstrap reads `GENERATE_ARRAY(1, True)`. In mixed mode there is such a run for each Jackknife and Bootstrap of
the tree. -/
theorem C85_nested_violation (ok : BTree → Bool) (t : BTree) (mode : PyArg) (hp : t.plain) (hroot : t.isCI = false) :
    ∃ rs, userCall ok t mode none = some rs ∧
      (∀ r ∈ rs, r.queries = List.replicate r.count 1 ∧ r.arrayText = "UNNEST(GENERATE_ARRAY(1, True))") ∧
      (mode.truthy → rs.map (fun r => (r.jack, r.count, r.own)) = t.cis) := by
  have key : ∀ rs : List BatchRun, (∀ r ∈ rs, r.size = .bool true) →
      ∀ r ∈ rs, r.queries = List.replicate r.count 1 ∧ r.arrayText = "UNNEST(GENERATE_ARRAY(1, True))" := by
    rintro rs h ⟨jack, n, own, size⟩ hr
    have hs : size = .bool true := h _ hr
    subst hs
    exact ⟨queries_true jack n own, rfl⟩
  cases t with
  | leaf => exact ⟨[], by simp [userCall, userKw, BTree.call, bindArgs, sigMetricSql], by simp, by simp [BTree.cis]⟩
  | ci => simp [BTree.isCI] at hroot
  | inner r cs =>
    rw [BTree.plain] at hp
    have hb : ∃ bs, bindArgs sigMetricSql [.text "table", .text "split_by", .text "execute"] [("mode", mode)] = some bs ∧ argOf bs "mode" = mode := by
      simp [bindArgs, sigMetricSql, argOf]
    obtain ⟨bs, hb, hm⟩ := hb
    simp only [userCall, userKw]
    rw [BTree.call, hb]
    simp only [Option.bind_eq_bind, Option.bind_some]
    rw [hm]
    split
    · next hm' => exact ⟨[], rfl, by simp, by intro h'; simp [h'] at hm'⟩
    · rw [hp.1, BTree.cis]
      obtain ⟨rs, h1, h2, h3⟩ := plain_all ok mode cs hp.2
      exact ⟨rs, h1, key rs h2, h3⟩

/-- And `batch_size` cannot be given to such a metric: the call is a `TypeError`. -/
theorem C85_nested_argument (ok : BTree → Bool) (t : BTree) (mode b : PyArg) (hroot : t.isCI = false) :
    userCall ok t mode (some b) = none := by
  have hb : bindArgs sigMetricSql [.text "table", .text "split_by", .text "execute"] [("mode", mode), ("batch_size", b)] = none := by
    simp [bindArgs, sigMetricSql]
  cases t with
  | leaf => simp only [userCall, userKw]; rw [BTree.call, hb]; rfl
  | ci => simp [BTree.isCI] at hroot
  | inner r cs => simp only [userCall, userKw]; rw [BTree.call, hb]; rfl

/-- The consequence for a Poisson bootstrap by unit, on a database that reads `True` as 1: all replicates use the same weights
(C55_violation_batches), so that the standard error of every estimate that exists is 0, whatever the data. -/
theorem C85_poisson_zero (ok : BTree → Bool) (n : ℕ) (hn : 2 ≤ n) (own : PyArg) (hash : List Char → ℤ) (est : (ℕ → ℕ) → Option ℝ)
    (h1 : (est fun unit => sqlPoissonWeight (hashUniform (hash (hashText [] unit 1)))).isSome) :
    ∃ r, userCall ok (.inner (.bool true) [.ci false n own .leaf]) (.text "mixed") none = some [r] ∧
      bsStderr (poissonReplicates hash est r.count r.size.num) = (some 0, (n : ℤ) - 1) := by
  refine ⟨⟨false, n, own, .bool true⟩, ?_, ?_⟩
  · simp [userCall, userKw, BTree.call, BTree.callAll, bindArgs, sigMetricSql, sigCISql, argOf, utilArgs, resampleArgs, PyArg.truthy, PyArg.or]
  · obtain ⟨x, hx⟩ := Option.isSome_iff_exists.1 h1
    have hrep : poissonReplicates hash est n 1 = List.replicate n (some x) := by
      unfold poissonReplicates
      rw [bsBatches_one]
      simp [replicateIdx, hx, List.flatMap_replicate]
    change bsStderr (poissonReplicates hash est n 1) = _
    rw [hrep]
    have hf : (List.replicate n (some x)).filterMap id = List.replicate n x := by simp [List.filterMap_replicate]
    unfold bsStderr stdSamp
    rw [hf]
    have hn0 : (n : ℝ) ≠ 0 := by positivity
    have : ¬ (List.replicate n x).length < 2 := by simp; omega
    simp [this, List.sum_replicate, mul_div_cancel_left₀ _ hn0]
    omega

/-! ## Examples -/

/-- A Jackknife over 10 units with `sql_batch_size=4`, a Bootstrap with 2500 replicates and none, and one with an argument. -/
example : (userCall (fun _ => false) (.ci true 10 (.int 4) .leaf) (.text "mixed") none).map (·.map (·.queries)) = some [[4, 4, 2]] ∧
    (userCall (fun _ => false) (.ci false 2500 .none .leaf) (.text "mixed") none).map (·.map (·.queries)) = some [[1000, 1000, 500]] ∧
    (userCall (fun _ => false) (.ci false 25 (.int 4) .leaf) (.text "mixed") (some (.int 10))).map (·.map (·.queries)) = some [[10, 10, 5]] := by
  decide +kernel

/-- The same Jackknife in a MetricList. -/
example : (userCall (fun _ => false) (.inner (.bool true) [.leaf, .ci true 10 (.int 4) .leaf]) (.text "mixed") none).map (·.map (·.queries)) =
    some [List.replicate 10 1] := by decide +kernel

/-- Below a Bootstrap the attribute counts for the resamples, but not for the point estimate. -/
example : (userCall (fun _ => false) (.ci false 1 .none (.ci true 6 (.int 3) .leaf)) (.text "mixed") none).map (·.map (·.queries)) =
    some [[1], [3, 3], [1, 1, 1, 1, 1, 1]] := by decide +kernel

end Verif
