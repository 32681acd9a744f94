import Verif.Lemmas.SqlAgreeRun
import Verif.Spec.Example

/-!
# C12: the generated aggregate query and compute_on agree
-/

namespace Verif

/-- **C12** (partial: `SqlSafe` excludes the points where the two really differ, see
the violations below). Take a tree of aggregations, arithmetic and lists, the filter
`g` hoisted to WHERE, and the value columns `es` of the generated query. Then
`compute_on` succeeds, has as many columns, and in each group `v` every column has
the number SQL computes for that group (`spow` is SQL's power, assumed to agree with
Python's where the latter is not infinite). -/
theorem C12_sql_agrees_partial (env : Env) (spow : Cell → Cell → Cell)
    (hpow : ∀ a b : Cell, (env.pow (.ofCell a) (.ofCell b)).isInf = false →
      env.pow (.ofCell a) (.ofCell b) = .ofCell (spow a b))
    (m : M) (f : Frame) (sb : List String) (hsb : ∀ c ∈ sb, c ∈ f.cols) (v : Key)
    (g : List String) (hg : m.globalFilter = some g)
    (hsafe : SqlSafe env f sb v g m [] []) {es : List SqlE} (h : m.compile g [] = .ok es) :
    ∃ cs, m.run env f sb = .ok (.tbl [] cs) ∧
      List.Forall₂ (fun (t : Tbl) (e : SqlE) =>
        t.get v = some (PyVal.ofCell (e.eval env spow (groupRows env f g sb v)))) cs es := by
  have := (compile_agree env spow f sb v g hpow hsb m [] [] es (by simp) (by simp)
    (fun x hx w hw => globalFilter_sub m g [] hg x hx w hw) hsafe h).2
  rw [query_nil] at this
  exact this

/-! ### Concrete case -/

/-- `MetricList([Sum(x) / Count(x), 2 * Sum(x, where='g == 1')])` -/
def exSql : M := .list [.comp .div (.leaf (.sum "x") []) (.leaf (.count "x") []) [],
  .comp .mul (.const 2) (.leaf (.sum "x") ["g == 1"]) []] []

theorem exSql_compile : exSql.compile [] [] = .ok
    [.bin .div (.agg (.sum "x") []) (.agg (.count "x") []),
     .bin .mul (.lit 2) (.agg (.sum "x") ["g == 1"])] := by decide +kernel

theorem exSql_safe : SqlSafe exEnv exFrame ["g"] [1] [] exSql [] [] := by
  refine ⟨by simp, by decide +kernel, ⟨⟨?_, ?_, ?_⟩, ⟨trivial, ?_, ?_⟩, trivial⟩⟩
  · exact ⟨by decide +kernel, by decide +kernel, by
      simp only [Leaf.hasValues]; decide +kernel, by decide +kernel⟩
  · exact ⟨by decide +kernel, by decide +kernel, trivial, by decide +kernel⟩
  · intro ex cs h t ht x hx
    have : (M.comp .div (.leaf (.sum "x") []) (.leaf (.count "x") []) []).run exEnv
        (exFrame.query exEnv []) ["g"] = .ok (.tbl [] [[([0], .fin (3/2)), ([1], .fin (9/2))]]) := by
      decide +kernel
    simp only [List.append_nil, this, Except.ok.injEq, Res.tbl.injEq] at h
    obtain ⟨_, rfl⟩ := h
    simp only [List.mem_singleton] at ht
    subst ht
    have h2 : Tbl.get [([0], PyVal.fin (3/2)), ([1], .fin (9/2))] [1] = some (.fin (9/2)) := by
      decide +kernel
    rw [h2] at hx
    cases hx; rfl
  · exact ⟨by decide +kernel, by decide +kernel, by
      simp only [Leaf.hasValues]; decide +kernel, by decide +kernel⟩
  · intro ex cs h t ht x hx
    have : (M.comp .mul (.const 2) (.leaf (.sum "x") ["g == 1"]) []).run exEnv
        (exFrame.query exEnv []) ["g"] = .ok (.tbl [] [[([1], .fin 18)]]) := by
      decide +kernel
    simp only [List.append_nil, this, Except.ok.injEq, Res.tbl.injEq] at h
    obtain ⟨_, rfl⟩ := h
    simp only [List.mem_singleton] at ht
    subst ht
    have h2 : Tbl.get [([1], PyVal.fin 18)] [1] = some (.fin 18) := by decide +kernel
    rw [h2] at hx
    cases hx; rfl

/-- The hypotheses of `C12_sql_agrees_partial` hold here, and the common values are
`9/2` and `18`. -/
example : ∃ cs, exSql.run exEnv exFrame ["g"] = .ok (.tbl [] cs) ∧
    cs.map (·.get [1]) = [some (.fin (9/2)), some (.fin 18)] := by
  obtain ⟨cs, h1, h2⟩ := C12_sql_agrees_partial exEnv (fun a _ => a)
    (fun a b _ => rfl) exSql exFrame ["g"] (by decide +kernel) [1] [] (by decide +kernel)
    exSql_safe exSql_compile
  refine ⟨cs, h1, ?_⟩
  cases h2 with
  | cons a t =>
    cases t with
    | cons b t' =>
      cases t'
      simp only [List.map_cons, List.map_nil, a, b]
      decide +kernel

/-! ### Where the two disagree -/

/-- **C12 violated, lost column**: a list with the same metric twice has two columns
in Python but one in SQL, because SQL column lists drop repeated expressions. -/
theorem C12_duplicate_column_violation :
    let m : M := .list [.leaf (.sum "x") [], .leaf (.sum "x") []] []
    (∃ es, m.compile [] [] = .ok es ∧ es.length = 1) ∧
    (∃ cs, m.run exEnv exFrame [] = .ok (.tbl [] cs) ∧ cs.length = 2) :=
  ⟨⟨_, rfl, by decide +kernel⟩, ⟨_, rfl, by decide +kernel⟩⟩

/-- **C12 violated, shifted columns**: because of the lost column the pairwise
difference of `[Sum, Count, Count]` and `[Count, Count, Sum]` has 2 columns in SQL, and
its second column is `Count - Sum`; Python gives `Count - Count` there. -/
theorem C12_shifted_columns_violation :
    let s : M := .leaf (.sum "x") []
    let c : M := .leaf (.count "x") []
    let m : M := .comp .sub (.list [s, c, c] []) (.list [c, c, s] []) []
    m.compile [] [] = .ok [.bin .sub (.agg (.sum "x") []) (.agg (.count "x") []),
      .bin .sub (.agg (.count "x") []) (.agg (.sum "x") [])] ∧
    m.run exEnv exFrame [] = .ok (.tbl [] [[([], .fin 8)], [([], .fin 0)], [([], .fin (-8))]]) := by
  constructor <;> decide +kernel

/-- **C12 violated, empty sum**: on a group without values pandas sums to 0 and SQL to
NULL (this one is documented in the property), and hence `Sum / Count + 1`-style
arithmetic on it differs too. -/
theorem C12_empty_sum_violation :
    let f : Frame := { cols := ["x"], rows := [fun _ => none] }
    let m : M := .comp .add (.leaf (.sum "x") []) (.const 1) []
    m.run exEnv f [] = .ok (.tbl [] [[([], .fin 1)]]) ∧
    m.compile [] [] = .ok [.bin .add (.agg (.sum "x") []) (.lit 1)] ∧
    (SqlE.bin .add (.agg (.sum "x") []) (.lit 1)).eval exEnv (fun a _ => a)
      (groupRows exEnv f [] [] []) = none := by
  refine ⟨by decide +kernel, by decide +kernel, by decide +kernel⟩

/-- **C12 violated, filtered count**: in slice `g = 0` no row satisfies the filter; SQL's
`COUNT(IF(...))` is 0 while the Python difference `Count(x) - Count(x, where)` is NaN
because the slice is missing from the filtered child. -/
theorem C12_filtered_count_violation :
    let m : M := .comp .sub (.leaf (.count "x") []) (.leaf (.count "x") ["g == 1"]) []
    (∃ t, m.run exEnv exFrame ["g"] = .ok (.tbl [] [t]) ∧ t.get [0] = some .nan) ∧
    m.compile [] [] = .ok [.bin .sub (.agg (.count "x") []) (.agg (.count "x") ["g == 1"])] ∧
    (SqlE.bin .sub (.agg (.count "x") []) (.agg (.count "x") ["g == 1"])).eval exEnv (fun a _ => a)
      (groupRows exEnv exFrame [] ["g"] [0]) = some 2 := by
  refine ⟨⟨_, rfl, by decide +kernel⟩, by decide +kernel, by decide +kernel⟩

end Verif
