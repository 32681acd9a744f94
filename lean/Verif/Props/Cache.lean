import Verif.Lemmas.Cache
import Verif.Lemmas.CacheState
import Verif.Props.Traverse
import Verif.Model.CacheAlias
import Verif.Lemmas.Equality
import Verif.Spec.Example
import Mathlib.Data.String.Basic

/-!
# C01-C06: the cache, and the identity of metrics
-/

namespace Verif

/-! ## C01 -/

/-- **C01** (partial) Any sequence of calls that share a cache dict, with user keys
bound to DataFrames, returns call by call exactly what the cacheless computation returns,
errors included. Excluded: fingerprint collisions (`fpClean`, see
`C01_collision_violation`), metric objects that still hold the key of an earlier call
(see `C04_*`), and tables changed in place after being cached (C03). -/
theorem C01_cache_transparent_partial (env : Env) (data : Nat → Frame) (calls : List Call)
    (hclean : ∀ call ∈ calls, call.metric.fpClean) :
    (runCalls env data calls []).1
      = calls.map (fun call => call.metric.run env (data call.key) call.splitBy) :=
  (runCalls_ok env data calls hclean [] (by intro k v h; simp at h)).1

/-- The hypothesis is met by calls that do hit the cache: the second and third calls
read what the first one stored. -/
example : (runCalls exEnv (fun _ => exFrame)
    [⟨7, .comp .div (.leaf (.sum "x") []) (.leaf (.count "c") []) [], ["g"]⟩,
     ⟨7, .leaf (.sum "x") [], ["g"]⟩,
     ⟨7, .oper (.dist ["g"]) (.leaf (.sum "x") []) [], []⟩] []).2.length = 4 ∧
    ∀ call ∈ ([⟨7, .comp .div (.leaf (.sum "x") []) (.leaf (.count "c") []) [], ["g"]⟩,
     ⟨7, .leaf (.sum "x") [], ["g"]⟩,
     ⟨7, .oper (.dist ["g"]) (.leaf (.sum "x") []) [], []⟩] : List Call), call.metric.fpClean := by
  refine ⟨by decide +kernel, ?_⟩
  intro call hc
  simp only [List.mem_cons, List.not_mem_nil, or_false] at hc
  rcases hc with rfl | rfl | rfl
  · refine ⟨fun v w1 w2 h1 h2 => ?_, trivial, trivial⟩
    simp only [M.leaf.injEq, Leaf.sum.injEq, Leaf.count.injEq] at h1 h2
    exact absurd (h1.1.trans h2.1.symm) (by decide)
  · trivial
  · trivial

/-- **C01 violated**: after `Mean(x)` was computed, `Sum(x) - Count(x)` under the same key
returns the mean (3) instead of 8. -/
theorem C01_collision_violation :
    (runCalls exEnv (fun _ => exFrame)
      [⟨7, .leaf (.mean "x") [], []⟩,
       ⟨7, .comp .sub (.leaf (.sum "x") []) (.leaf (.count "x") []) [], []⟩] []).1
      = [.ok (.tbl [] [[([], .fin 3)]]), .ok (.tbl [] [[([], .fin 3)]])] ∧
    (M.comp .sub (.leaf (.sum "x") []) (.leaf (.count "x") []) []).run exEnv exFrame []
      = .ok (.tbl [] [[([], .fin 8)]]) := by
  constructor <;> decide +kernel

/-! ## C02 -/

/-- **C02** (partial) Two metrics with the same fingerprint compute the same on every
DataFrame and `split_by`, unless arithmetic other than the plain unfiltered quotient is
applied to `Sum(v)` and `Count(v)`. -/
theorem C02_fingerprint_sound_partial (env : Env) (a b : M) (ha : a.fpClean) (hb : b.fpClean)
    (h : a.fp = b.fp) (f : Frame) (sb : List String) : a.run env f sb = b.run env f sb := by
  rw [← fp_run env a ha, ← fp_run env b hb, h]

/-- **C02** (partial) The same for sharing a cache slot: with the same accumulated filters
`ws` in the key, the two metrics (whose own filters are among `ws`) compute the same on
the filtered data. -/
theorem C02_cache_slot_sound_partial (env : Env) (a b : M) (ha : a.fpClean) (hb : b.fpClean)
    (k : CKey) (sb : List String) (h : k.extend a sb = k.extend b sb) (f : Frame) :
    a.dropWh.run env (f.query env (k.extend a sb).wh) sb
      = b.dropWh.run env (f.query env (k.extend b sb).wh) sb := by
  rw [← fp_dropWh_run env a ha, ← fp_dropWh_run env b hb,
    show a.fp.dropWh = b.fp.dropWh from congrArg CKey.metric h, h]

/-- The hypotheses are met by two different metrics with one fingerprint. -/
example : (M.leaf (.mean "x") []).fp
      = (M.comp .div (.leaf (.sum "x") []) (.leaf (.count "x") []) []).fp ∧
    (M.comp .div (.leaf (.sum "x") []) (.leaf (.count "x") []) []).fpClean ∧
    (M.leaf (.mean "x") []).fpClean := by
  refine ⟨by decide +kernel, ⟨fun v w1 w2 h1 h2 => ?_, trivial, trivial⟩, trivial⟩
  cases h1; cases h2; exact ⟨rfl, rfl, rfl, rfl⟩

/-- **C02 violated, operator ignored**: `Sum(x) - Count(x)` has the fingerprint of
`Mean(x)`. -/
theorem C02_operator_violation :
    (M.comp .sub (.leaf (.sum "x") []) (.leaf (.count "x") []) []).fp = (M.leaf (.mean "x") []).fp ∧
    (M.comp .sub (.leaf (.sum "x") []) (.leaf (.count "x") []) []).run exEnv exFrame []
      ≠ (M.leaf (.mean "x") []).run exEnv exFrame [] := by
  constructor <;> decide +kernel

/-- **C02 violated, children's filter lost**: `Sum(x, where=w) / Count(x, where=w)` goes to
the same cache slot as the unfiltered `Mean(x)`: the key leaves out the filter of the
fingerprint because it takes it for the metric's own. -/
theorem C02_filter_violation :
    let filtered : M := .comp .div (.leaf (.sum "x") ["g == 1"]) (.leaf (.count "x") ["g == 1"]) []
    CKey.fresh 7 filtered [] = CKey.fresh 7 (.leaf (.mean "x") []) [] ∧
    filtered.run exEnv exFrame [] = .ok (.tbl [] [[([], .fin (9/2))]]) ∧
    (M.leaf (.mean "x") []).run exEnv exFrame [] = .ok (.tbl [] [[([], .fin 3)]]) := by
  refine ⟨by decide +kernel, by decide +kernel, by decide +kernel⟩

/-- **C02 violated, own filter lost**: inside another metric the quotient's own filter
disappears from the fingerprint. -/
theorem C02_own_filter_violation :
    let q (wh : List String) : M := .comp .div (.leaf (.sum "x") []) (.leaf (.count "x") []) wh
    (M.comp .mul (q ["g == 1"]) (.const 2) []).fp = (M.comp .mul (q []) (.const 2) []).fp ∧
    (M.comp .mul (q ["g == 1"]) (.const 2) []).run exEnv exFrame []
      ≠ (M.comp .mul (q []) (.const 2) []).run exEnv exFrame [] := by
  constructor <;> decide +kernel

/-! ## C03 -/

/-- **C03** (partial) Readers that are not Operations (and so do no arithmetic on an
Operation's columns) get the cached table as it was stored, every time, and leave it so. -/
theorem C03_plain_readers_partial (cow : Bool) (rs : List Reader) (t : CTable)
    (h : ∀ r ∈ rs, r = .plain) :
    readMany cow rs t = (rs.map (fun _ => t), t) := by
  induction rs with
  | nil => rfl
  | cons r rs ih =>
    have hr := h r (by simp)
    subst hr
    simp only [readMany, readCached, ih (fun r hr => h r (by simp [hr])), List.map_cons]

/-- **C03** (partial) Under copy-on-write, or when only single columns are involved, no
sequence of readers changes the cached numbers (the names still change). -/
theorem C03_numbers_kept_partial (cow : Bool) (rs : List Reader) (t : CTable)
    (h : cow = true ∨ t.cols.length ≤ 1) : (readMany cow rs t).2.cols = t.cols := by
  induction rs generalizing t with
  | nil => rfl
  | cons r rs ih =>
    have hc : (readCached cow t r).2.cols = t.cols := by
      cases r with
      | plain => rfl
      | operation tmpl => rfl
      | arith tmpl op rename =>
        rcases h with rfl | h
        · rfl
        · simp only [readCached]
          split
          · rfl
          · rw [if_neg (by omega)]
    simp only [readMany]
    rw [ih _ (by rw [hc]; exact h), hc]

example : (readMany false [.plain, .plain] ⟨["sum(x)"], [[1, 2]]⟩).1
    = [⟨["sum(x)"], [[1, 2]]⟩, ⟨["sum(x)"], [[1, 2]]⟩] := by decide +kernel

/-- **C03 violated, names**: an Operation's cached result is renamed by every hit. Two
reads return different column names. -/
theorem C03_names_violation (cow : Bool) :
    let d : Reader := .operation (fun c => "Distribution of " ++ c)
    (readMany cow [d, d] ⟨["sum(x)"], [[1]]⟩).1.map (·.names)
      = [["Distribution of sum(x)"], ["Distribution of Distribution of sum(x)"]] := by
  cases cow <;> decide +kernel

/-- **C03 violated, numbers** (pandas without copy-on-write): with `m` an operation with
two columns already cached, computing `m * 2` and then `m * 3` returns `6 m` for the
second, and the cached `m` itself has become `6 m`. -/
theorem C03_numbers_violation :
    let times (q : Rat) : Reader := .arith id (· * q) id
    let t : CTable := ⟨["a", "b"], [[1], [5]]⟩
    (readMany false [times 2, times 3] t).1.map (·.cols) = [[[2], [10]], [[6], [30]]] ∧
    (readMany false [times 2, times 3] t).2.cols = [[6], [30]] := by
  constructor <;> decide +kernel

/-! ## C04 -/

/-- **C04** (partial) Histories of calls without `cache_key` leave nothing behind: the next
call behaves as on a fresh object. -/
theorem C04_no_key_history_partial (env : Env) (m : M)
    (hist : List (Option Nat × Frame × List String × Cache)) (hk : ∀ h ∈ hist, h.1 = none)
    (userKey : Option Nat) (f : Frame) (sb : List String) (c : Cache) :
    objCall env m (objHistory env m hist none) userKey f sb c = objCall env m none userKey f sb c := by
  have : objHistory env m hist none = none := by
    induction hist with
    | nil => rfl
    | cons h hist ih =>
      obtain ⟨k, f', sb', c'⟩ := h
      have hk' : k = none := hk (k, f', sb', c') (by simp)
      subst hk'
      simp only [objHistory, objCall]
      exact ih (fun h hh => hk h (by simp [hh]))
  rw [this]

theorem canonWh_absorb (wh : List String) : canonWh (canonWh wh ++ wh) = canonWh wh := by
  unfold canonWh sortWh
  have hp : (List.insertionSort (· ≤ ·) wh.dedup ++ wh).dedup.Perm wh.dedup := by
    rw [List.perm_ext_iff_of_nodup (List.nodup_dedup _) (List.nodup_dedup _)]
    intro a
    rw [List.mem_dedup, List.mem_append, List.mem_dedup,
      (List.perm_insertionSort _ _).mem_iff, List.mem_dedup, or_self]
  apply List.Perm.eq_of_pairwise (le := (· ≤ ·)) (fun a b _ _ h1 h2 => le_antisymm h1 h2)
    (List.pairwise_insertionSort _ _) (List.pairwise_insertionSort _ _)
  exact (List.perm_insertionSort _ _).trans (hp.trans (List.perm_insertionSort _ _).symm)

/-- **C04** (partial) After any history of calls on the object, with or without keys, hits
or misses, a call with an explicit key and a non-empty `split_by` uses the same cache key
as on a fresh object, hence returns the same and has the same effect on the cache. -/
theorem C04_split_call_partial (env : Env) (m : M)
    (hist : List (Option Nat × Frame × List String × Cache))
    (k : Nat) (f : Frame) (sb : List String) (hsb : sb ≠ []) (c : Cache) :
    ((objCall env m (objHistory env m hist none) (some k) f sb c).1,
      (objCall env m (objHistory env m hist none) (some k) f sb c).2.2)
    = ((objCall env m none (some k) f sb c).1, (objCall env m none (some k) f sb c).2.2) := by
  have hs : ∀ (hist : List (Option Nat × Frame × List String × Cache)) (s : ObjState),
      (∀ old, s = some old → old.wh = canonWh m.wh) →
      ∀ old, objHistory env m hist s = some old → old.wh = canonWh m.wh := by
    intro hist
    induction hist with
    | nil => intro s h; exact h
    | cons h hist ih =>
      obtain ⟨uk, f', sb', c'⟩ := h
      intro s hs
      simp only [objHistory]
      apply ih
      intro old hold
      cases uk with
      | none => simp [objCall] at hold
      | some uk =>
        simp only [objCall] at hold
        split at hold
        · exact hs old hold
        · simp only [Option.some.injEq] at hold
          subst hold
          cases s with
          | none => rfl
          | some o =>
            simp only [ObjState.keyFor, CKey.extend]
            rw [hs o rfl, canonWh_absorb]
  have hkey : (objHistory env m hist none).keyFor m (some k) sb
      = ObjState.keyFor none m (some k) sb := by
    have h0 := hs hist none (by simp)
    generalize objHistory env m hist none = s at h0
    cases s with
    | none => rfl
    | some old =>
      simp only [ObjState.keyFor, CKey.extend, CKey.fresh, CKey.mk.injEq, true_and]
      exact ⟨if_neg hsb, by rw [h0 old rfl, canonWh_absorb]⟩
  simp only [objCall, hkey]

/-- The hypotheses are met after a split call under another key. -/
example : objHistory exEnv (.leaf (.sum "x") []) [(some 3, exFrame, ["c"], [])] none ≠ none ∧
    (["g"] : List String) ≠ [] := by
  constructor <;> decide +kernel

/-- **C04 violated**: `m.compute_on(df, 'g', cache_key=7, cache=c)` followed by
`m.compute_on(df, cache_key=7, cache=c)` returns the split table again; on a fresh object
the second call returns the total. -/
theorem C04_stale_split_violation :
    let m : M := .leaf (.sum "x") []
    let first := objCall exEnv m none (some 7) exFrame ["g"] []
    (objCall exEnv m first.2.1 (some 7) exFrame [] first.2.2).1
      = .ok (.tbl [] [[([0], .fin 3), ([1], .fin 9)]]) ∧
    (objCall exEnv m none (some 7) exFrame [] first.2.2).1 = .ok (.tbl [] [[([], .fin 12)]]) := by
  constructor <;> decide +kernel

/-- **C04 violated, wrong slot**: the total computed under key 8 is stored as if it were
split by `g`, so that a fresh object asking for the split gets the total. -/
theorem C04_wrong_slot_violation :
    let m : M := .leaf (.sum "x") []
    let first := objCall exEnv m none (some 7) exFrame ["g"] []
    let second := objCall exEnv m first.2.1 (some 8) exFrame [] first.2.2
    (objCall exEnv m none (some 8) exFrame ["g"] second.2.2).1
      = .ok (.tbl [] [[([], .fin 12)]]) := by
  decide +kernel

/-! ## C05 -/

/-- **C05** After a computation without `cache_key`, returned or raised, at whatever point,
whatever the cache held and whatever keys were remembered before: the cache is empty and no
metric of the tree remembers a key; and no key appeared anywhere else. -/
theorem C05_no_trace (env : Env) (root : M) (f : Frame) (sb : List String) (s : St) :
    (root.computeOn env f sb s).2.cache = [] ∧
    (∀ p m, IsNode root p m → m.isConst = false →
      ∀ x ∈ (root.computeOn env f sb s).2.keys, x.1 ≠ p) ∧
    (∀ x ∈ (root.computeOn env f sb s).2.keys, x ∈ s.keys) := by
  refine ⟨rfl, ?_, ?_⟩
  · intro p m hp hm x hx he
    simp only [M.computeOn, St.cleanUp, List.mem_filter, Bool.not_eq_true'] at hx
    have : (p, m) ∈ root.traverse false :=
      (C44_traverse_complete root false p m).2 ⟨hp, by simp [hm]⟩
    have h2 : ((root.traverse false).map Prod.fst).contains x.1 = true := by
      rw [List.contains_iff_mem, List.mem_map]
      exact ⟨(p, m), this, he.symm⟩
    rw [h2] at hx
    simp at hx
  · intro x hx
    simp only [M.computeOn, St.cleanUp, List.mem_filter, Bool.not_eq_true'] at hx
    obtain ⟨h1, h2⟩ := hx
    have hin := runS_in env root s.keys root [] (ObjState.keyFor
      ((s.keys.find? (fun x => x.1 = [])).map Prod.snd) root none sb) f sb s .root
      (fun x hx => Or.inl hx) x h1
    rcases hin with h | ⟨m, hn, hm⟩
    · exact h
    · have : (x.1, m) ∈ root.traverse false :=
        (C44_traverse_complete root false x.1 m).2 ⟨hn, by simp [hm]⟩
      have h3 : ((root.traverse false).map Prod.fst).contains x.1 = true := by
        rw [List.contains_iff_mem, List.mem_map]
        exact ⟨(x.1, m), this, rfl⟩
      rw [h3] at h2
      simp at h2

/-- **C05** In particular a first computation leaves exactly the initial state behind, and
it returns what the cacheless computation returns (for trees without fingerprint
collisions). -/
theorem C05_fresh_no_trace (env : Env) (root : M) (hc : root.fpClean)
    (f : Frame) (sb : List String) :
    root.computeOn env f sb ⟨[], []⟩ = (root.run env f sb, ⟨[], []⟩) := by
  have h := C05_no_trace env root f sb ⟨[], []⟩
  have hk : (root.computeOn env f sb ⟨[], []⟩).2.keys = [] := by
    rw [List.eq_nil_iff_forall_not_mem]
    intro x hx
    simpa using h.2.2 x hx
  have hr : (root.computeOn env f sb ⟨[], []⟩).1 = root.run env f sb := by
    simp only [M.computeOn, List.find?_nil, Option.map_none, ObjState.keyFor]
    have e := runS_runC env root [] (CKey.fresh 0 root sb) f sb ⟨[], []⟩
    have := (runC_ok env (fun _ => f) root hc _ _ _ (keyFits_fresh env (fun _ => f) 0 root sb) []
      (by intro k v h; simp at h)).1
    rw [← this, ← e]
  generalize root.computeOn env f sb ⟨[], []⟩ = q at h hk hr
  obtain ⟨r, c, k⟩ := q
  simp only at h hk hr
  rw [hr, h.1, hk]

/-- **C05** A call without a key as C04 models it (`objCall`, one object) does what the model with a state for every node
(`M.computeOn`) does: same result, nothing remembered, the cache empty. -/
theorem C05_objCall (env : Env) (m : M) (hm : m.isConst = false) (s : St) (f : Frame) (sb : List String) :
    let r := m.computeOn env f sb s
    objCall env m ((s.keys.find? (fun x => x.1 = [])).map Prod.snd) none f sb s.cache
      = (r.1, (r.2.keys.find? (fun x => x.1 = [])).map Prod.snd, r.2.cache) := by
  have h := C05_no_trace env m f sb s
  have hf : (m.computeOn env f sb s).2.keys.find? (fun x => decide (x.1 = [])) = none := by
    rw [List.find?_eq_none]
    intro x hx
    simpa using h.2.1 [] m .root hm x hx
  simp only
  rw [hf, h.1]
  simp only [objCall, M.computeOn, Option.map_none]
  rw [← runS_runC env m []]

/-- A failing computation: the baseline does not exist. It writes keys on the way and
leaves none. -/
example : (M.oper (.pctChange ["c"] [7] false) (.leaf (.sum "x") []) []).run exEnv exFrame []
      = .error .keyError ∧
    ((M.oper (.pctChange ["c"] [7] false) (.leaf (.sum "x") []) []).runS exEnv []
      (CKey.fresh 0 (.oper (.pctChange ["c"] [7] false) (.leaf (.sum "x") []) []) []) exFrame []
      ⟨[], []⟩).2.keys.map Prod.fst = [[0], []] := by
  constructor <;> decide +kernel

/-! ## C06 -/

/-- **C06** Equality is reflexive and symmetric, for built-in and custom metrics. -/
theorem C06_eq_refl_symm (a b : Obj) : a.Eq a ∧ (a.Eq b → b.Eq a) :=
  ⟨Obj.eq_refl a, Obj.eq_symm a b⟩

/-- **C06** (partial) Equal metrics that consist of built-in metrics hash alike. Missing:
custom metrics, see `C06_custom_violation`. -/
theorem C06_eq_hash_partial (a b : Obj) (ha : a.allBuiltin) (hb : b.allBuiltin) (h : a.Eq b) :
    a.hashed = b.hashed := by
  unfold Obj.hashed
  rw [fp_builtin a ha, fp_builtin b hb]
  cases a with
  | number n => cases b <;> simp_all [Obj.Eq]
  | metric cls bi i name attrs cs =>
    cases b with
    | number n => simp [Obj.Eq] at h
    | metric cls' bi' i' name' attrs' cs' =>
      simp only [Obj.Eq] at h
      rw [h.2.2.1]
      simp [Obj.name?, h.2.1]

/-- Two equal objects that are not the same object. -/
example : (Obj.metric "Sum" true 1 "sum(x)" [("var", "x")] []).Eq
      (.metric "Sum" true 2 "sum(x)" [("var", "x")] []) ∧
    (Obj.metric "Sum" true 1 "sum(x)" [("var", "x")] []).allBuiltin := by
  simp [Obj.Eq, Obj.fp, fpObjs, eqObjs, Obj.allBuiltin, allBuiltins]

/-- **C06 violated**: two instances of a custom metric class are equal but do not hash
alike. -/
theorem C06_custom_violation :
    let a := Obj.metric "MyMetric" false 1 "m" [] []
    let b := Obj.metric "MyMetric" false 2 "m" [] []
    a.Eq b ∧ a.hashed ≠ b.hashed := by
  simp [Obj.Eq, Obj.fp, fpObjs, eqObjs, Obj.hashed]

end Verif
