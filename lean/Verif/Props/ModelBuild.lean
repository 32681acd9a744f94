import Verif.Model.ModelBuild

/-!
# C90: A model is fit on the columns it was given
-/

namespace Verif

/-! ## Specification -/

/-- The columns a metric computes below the filters `fs`: each under these and its own `where`; a MetricList gives the columns of
its metrics in order, below its `where`. -/
inductive ResultCols : List String → Feat → List FitCol → Prop
  | leaf (fs : List String) (n : String) (cs : List (String × ℕ)) (wh : List String) :
    ResultCols fs (.leaf n cs wh) (cs.map fun c => ⟨c.1, c.2, fs ++ wh⟩)
  | empty (fs wh : List String) : ResultCols fs (.list [] wh) []
  | cons {fs wh : List String} {m : Feat} {ms : List Feat} {l l' : List FitCol} :
    ResultCols (fs ++ wh) m l → ResultCols fs (.list ms wh) l' → ResultCols fs (.list (m :: ms) wh) (l ++ l')

/-- The data a model with the filter `wh` and the groups `group` should be fit on: the response is the column of `y`, the explanatory
variables are the columns of the metrics `xs`, in order, all under the filters `fs`. -/
def IsFitOf (wh group fs : List String) (y : Feat) (xs : List Feat) (d : FitData) : Prop :=
  d.wh = wh ∧ d.group = group ∧ ResultCols fs y [d.y] ∧ ResultCols fs (.list xs []) d.x

/-- No two columns compute the same under the same filters. -/
def DistinctCols (l : List FitCol) : Prop := (l.map fun c => (c.expr, c.filters)).Nodup

instance (l : List FitCol) : Decidable (DistinctCols l) := inferInstanceAs (Decidable (List.Nodup _))

/-- The name of a model of `y` on `xs`. -/
def formula (kind : String) (y : String) (xs : List String) : String := kind ++ "(" ++ y ++ " ~ " ++ " + ".intercalate xs ++ ")"

/-! ## Lemmas -/

theorem colsAll_eq (fs : List String) : ∀ ms : List Feat, colsAll fs ms = ms.flatMap (Feat.cols fs)
  | [] => by simp [colsAll]
  | m :: ms => by rw [colsAll, colsAll_eq fs ms, List.flatMap_cons]

mutual

theorem cols_result : ∀ (m : Feat) (fs : List String), ResultCols fs m (m.cols fs)
  | .leaf n cs wh, fs => .leaf fs n cs wh
  | .list ms wh, fs => colsAll_result ms fs wh

theorem colsAll_result : ∀ (ms : List Feat) (fs wh : List String), ResultCols fs (.list ms wh) (colsAll (fs ++ wh) ms)
  | [], fs, wh => .empty fs wh
  | m :: ms, fs, wh => .cons (cols_result m (fs ++ wh)) (colsAll_result ms fs wh)

end

theorem result_cols {fs : List String} {m : Feat} {l : List FitCol} (h : ResultCols fs m l) : l = m.cols fs := by
  induction h with
  | leaf => simp [Feat.cols]
  | empty => simp [Feat.cols, colsAll]
  | cons _ _ h1 h2 =>
    rw [Feat.cols] at h2 ⊢
    rw [colsAll, h1, h2]

theorem cols_result_list (fs : List String) (xs : List Feat) : ResultCols fs (.list xs []) (xs.flatMap (Feat.cols fs)) := by
  have h := colsAll_result xs fs []
  rwa [List.append_nil, colsAll_eq] at h

theorem cols_result_one {fs : List String} {y : Feat} {c : FitCol} (h : y.cols fs = [c]) : ResultCols fs y [c] :=
  h ▸ cols_result y fs

theorem namesAll_eq : ∀ ms : List Feat, namesAll ms = ms.map Feat.name
  | [] => by simp [namesAll]
  | m :: ms => by rw [namesAll, namesAll_eq ms, List.map_cons]

mutual

theorem cols_length : ∀ (m : Feat) (fs : List String), (m.cols fs).length = m.width
  | .leaf n cs wh, fs => by simp [Feat.cols, Feat.width]
  | .list ms wh, fs => by rw [Feat.cols, Feat.width, colsAll_length ms]

theorem colsAll_length : ∀ (ms : List Feat) (fs : List String), (colsAll fs ms).length = widthAll ms
  | [], fs => by simp [colsAll, widthAll]
  | m :: ms, fs => by rw [colsAll, widthAll, List.length_append, cols_length m, colsAll_length ms]

end

theorem mergeFit_distinct : ∀ (l acc : List FitCol), DistinctCols (acc ++ l) → mergeFit acc l = acc ++ l
  | [], acc, _ => by simp [mergeFit]
  | c :: cs, acc, h => by
    have hn : acc.any (fun d => d.expr = c.expr && d.filters = c.filters) = false := by
      rw [List.any_eq_false]
      intro d hd he
      unfold DistinctCols at h
      rw [List.map_append, List.nodup_append] at h
      refine h.2.2 (d.expr, d.filters) (List.mem_map_of_mem hd) (c.expr, c.filters) (by simp) ?_
      simpa using he
    rw [mergeFit, hn]
    rw [if_neg (by simp), mergeFit_distinct cs (acc ++ [c]) (by simpa using h)]
    simp

theorem getData_eq {wh group : List String} {index : List FitCol} {ch : Feat} {k : ℕ} {y : FitCol} {xs : List FitCol}
    (hc : ch.cols [] = y :: xs) (hd : DistinctCols (y :: xs)) (hk : k = xs.length) (hx : xs ≠ []) :
    getData wh group index ch k = some ⟨wh, group, y, xs⟩ := by
  have hm : mergeFit [] (ch.cols []) = y :: xs := by
    rw [hc]
    simpa using mergeFit_distinct (y :: xs) [] (by simpa using hd)
  have h0 : k ≠ 0 := by
    rw [hk]
    simpa using hx
  unfold getData
  rw [dif_pos (by rw [hm]; simp [hk])]
  simp only [hm, h0, if_false, Option.some.injEq, FitData.mk.injEq, true_and]
  constructor
  · rw [List.getElem_append_right (by simp [hk])]
    simp [hk]
  · rw [List.drop_append]
    have h1 : List.drop ((index ++ y :: xs).length - k) index = [] := by
      apply List.drop_eq_nil_of_le
      simp [hk]
      omega
    rw [h1]
    have h2 : (index ++ y :: xs).length - k - index.length = 1 := by simp [hk]; omega
    rw [h2]
    simp

theorem width_one_cols {y : Feat} (h : y.width = 1) (fs : List String) : ∃ c, y.cols fs = [c] := by
  rw [← cols_length y fs, List.length_eq_one_iff] at h
  exact h

theorem width_one_falsy {y : Feat} (h : y.width = 1) : y.falsy = false := by
  match y with
  | .leaf _ _ _ => rfl
  | .list [] _ => simp [Feat.width, widthAll] at h
  | .list (_ :: _) _ => rfl

/-! ## The claim -/

/-- **C90**, the constructor. A model built from `y` and a list `xs` of metrics, of which y gives one column, no two columns are the
same and `xs` has some column, is fit on exactly these columns, on a DataFrame and in every mode of SQL, whether the query joins
subqueries or not. Its name is the name given or the formula, and the coefficients are labelled with it and the names of the columns. -/
theorem C90_constructor (kind : ModelKind) (y : Feat) (xs : List Feat) (group wh : List String) (name : Option String)
    (index : List FitCol) (hy : y.width = 1) (hx : xs.flatMap (Feat.cols []) ≠ [])
    (hd : DistinctCols (y.cols [] ++ xs.flatMap (Feat.cols []))) :
    ∃ m d, construct kind y (.list xs []) group wh name = some m ∧ IsFitOf wh group [] y xs d ∧
      fitPandas m = some d ∧ fitMagic m index = some d ∧
      m.name = some (name.getD (formula kind.text y.name (xs.map Feat.name))) ∧
      ∀ b, coefLabels m b d = ((if b then ["intercept"] else []) ++ d.x.map FitCol.name).map fun c =>
        name.getD (formula kind.text y.name (xs.map Feat.name)) ++ " Coefficient: " ++ c := by
  obtain ⟨c, hc⟩ := width_one_cols hy []
  have hxs : (Feat.list xs []).falsy = false := by
    cases xs with
    | nil => simp at hx
    | cons _ _ => rfl
  have hcols : (Feat.list [y, .list xs []] []).cols [] = c :: xs.flatMap (Feat.cols []) := by
    simp [Feat.cols, colsAll_eq, hc]
  have hw : (Feat.list xs []).width = (xs.flatMap (Feat.cols [])).length := by
    rw [← cols_length _ [], Feat.cols, colsAll_eq]
    rfl
  have hdist : DistinctCols (c :: xs.flatMap (Feat.cols [])) := by simpa [hc] using hd
  have hcon : ∀ k' g w n, construct k' y (.list xs []) g w n = some ⟨k', w, g, some y, some (.list xs []), some (.list [y, .list xs []] []),
      (Feat.list xs []).width, some (n.getD (modelName k' y (.list xs []))), some (n.getD (modelName k' y (.list xs [])))⟩ := by
    intro k' g w n
    unfold construct
    rw [if_neg (by simp [hy]), if_neg (by simp [hxs, width_one_falsy hy])]
  refine ⟨_, ⟨wh, group, c, xs.flatMap (Feat.cols [])⟩, hcon kind group wh name, ⟨rfl, rfl, cols_result_one hc, cols_result_list _ _⟩, ?_, ?_, ?_, ?_⟩
  · simp only [fitPandas, hcols]
  · have hg : getData wh group index (.list [y, .list xs []] []) (Feat.list xs []).width = some ⟨wh, group, c, xs.flatMap (Feat.cols [])⟩ :=
      getData_eq hcols hdist hw hx
    cases kind <;> simp only [fitMagic, hcon, Option.bind_some] <;> exact hg
  · simp [modelName, formula, xNames, namesAll_eq]
  · intro b
    simp [coefLabels, modelName, formula, xNames, namesAll_eq]

/-- **C90**, the pipe. Piping a MetricList without filter to a model that was given no name is the same as building the model from the
first metric and the rest: the same name, the same labels, the same data in every mode. -/
theorem C90_pipe_partial (kind : ModelKind) (y : Feat) (xs : List Feat) (group wh : List String) (index : List FitCol) (hy : y.width = 1)
    (hx : xs ≠ []) :
    ∃ m m', construct kind y (.list xs []) group wh none = some m ∧
      pipeModel (unfitted kind group wh none) (.list (y :: xs) []) = some m' ∧
      m'.name = m.name ∧ m'.label = m.label ∧ fitPandas m' = fitPandas m ∧ fitMagic m' index = fitMagic m index ∧
      classColumn m' = classColumn m ∧ ∀ b d, coefLabels m' b d = coefLabels m b d := by
  have hxs : (Feat.list xs []).falsy = false := by
    cases xs with
    | nil => exact absurd rfl hx
    | cons _ _ => rfl
  have hcon : ∀ k' g w n, construct k' y (.list xs []) g w n = some ⟨k', w, g, some y, some (.list xs []), some (.list [y, .list xs []] []),
      (Feat.list xs []).width, some (n.getD (modelName k' y (.list xs []))), some (n.getD (modelName k' y (.list xs [])))⟩ := by
    intro k' g w n
    unfold construct
    rw [if_neg (by simp [hy]), if_neg (by simp [hxs, width_one_falsy hy])]
  have hcols : (Feat.list [y, .list xs []] []).cols [] = (Feat.list (y :: xs) []).cols [] := by
    simp [Feat.cols, colsAll_eq]
  refine ⟨_, _, hcon kind group wh none, rfl, rfl, rfl, ?_, ?_, rfl, fun _ _ => rfl⟩
  · simp only [fitPandas, hcols, unfitted]
  · cases kind <;> simp only [fitMagic, unfitted, hcon, Option.bind_some, getData, hcols]

/-- **C90**, a filtered list. Ridge, ElasticNet and LogisticRegression piped a MetricList, also one with a filter, are fit on its
columns under that filter, on a DataFrame and in every mode; LinearRegression and Lasso too if the list has no filter. -/
theorem C90_filtered_partial (kind : ModelKind) (y : Feat) (xs : List Feat) (lw : List String) (group wh : List String)
    (name : Option String) (index : List FitCol) (hy : y.width = 1) (hx : xs.flatMap (Feat.cols lw) ≠ [])
    (hk : lw = [] ∨ (kind ≠ .ols ∧ kind ≠ .lasso)) (hd : DistinctCols (y.cols lw ++ xs.flatMap (Feat.cols lw))) :
    ∃ m d, pipeModel (unfitted kind group wh name) (.list (y :: xs) lw) = some m ∧ IsFitOf wh group lw y xs d ∧
      fitPandas m = some d ∧ fitMagic m index = some d := by
  obtain ⟨c, hc⟩ := width_one_cols hy lw
  have hcols : (Feat.list (y :: xs) lw).cols [] = c :: xs.flatMap (Feat.cols lw) := by
    simp [Feat.cols, colsAll_eq, hc]
  have hw : (Feat.list xs []).width = (xs.flatMap (Feat.cols lw)).length := by
    rw [Feat.width, ← colsAll_length xs lw, colsAll_eq]
  have hdist : DistinctCols (c :: xs.flatMap (Feat.cols lw)) := by simpa [hc] using hd
  have hg := getData_eq (wh := wh) (group := group) (index := index) hcols hdist hw hx
  refine ⟨_, ⟨wh, group, c, xs.flatMap (Feat.cols lw)⟩, rfl, ⟨rfl, rfl, cols_result_one hc, cols_result_list _ _⟩, by simp only [fitPandas, unfitted, hcols], ?_⟩
  rcases hk with rfl | ⟨h1, h2⟩
  · have hne : xs ≠ [] := by
      rintro rfl
      simp at hx
    obtain ⟨m, m', h3, h4, -, -, -, h7, -⟩ := C90_pipe_partial kind y xs group wh index hy hne
    obtain ⟨m₂, d, h8, h9, -, h11, -⟩ := C90_constructor kind y xs group wh none index hy hx hd
    obtain rfl : m = m₂ := by
      rw [h3] at h8
      exact Option.some.inj h8
    have hd' : d = ⟨wh, group, c, xs.flatMap (Feat.cols [])⟩ := by
      obtain ⟨a1, a2, b3, b4⟩ := h9
      have a3 := (result_cols b3).symm
      have a4 := (result_cols b4).trans (result_cols (cols_result_list [] xs)).symm
      cases d
      simp only at a1 a2 a3 a4
      rw [hc] at a3
      simp_all
    rw [← hd', ← h11, ← h7]
    obtain rfl : _ = m' := Option.some.inj h4
    have hxf : (Feat.list xs []).falsy = false := by
      cases xs with
      | nil => exact absurd rfl hne
      | cons _ _ => rfl
    cases kind <;> simp only [fitMagic, unfitted] <;>
      simp [construct, hy, hxf, width_one_falsy hy]
  · cases kind <;> simp only [fitMagic, unfitted, Option.bind_some, ne_eq, not_true, reduceCtorEq, not_false_eq_true] at h1 h2 ⊢ <;>
      exact hg

/-- **C90**, the classes of a logistic regression. Before a logistic regression in the magic mode the values of the response itself are
counted, when the list piped to it has no filter. -/
theorem C90_classes_partial (y : Feat) (xs : List Feat) (group wh : List String) (name : Option String) (m : ModelObj) (d : FitData)
    (hy : y.width = 1) (hm : pipeModel (unfitted .logistic group wh name) (.list (y :: xs) []) = some m) (hd : fitPandas m = some d) :
    classColumn m = some d.y := by
  obtain ⟨c, hc⟩ := width_one_cols hy []
  obtain rfl := (Option.some.inj hm)
  simp only [fitPandas, unfitted, Feat.cols, colsAll, List.append_nil, hc, List.cons_append, List.nil_append, Option.some.injEq] at hd
  rw [← hd]
  simp [classColumn, hc, mergeFit]

/-- **C90**, the names in the formula: those of the metrics; a list of one metric has the name of the metric, any other the names of its
metrics in `MetricList(...)`. -/
theorem C90_names : (∀ n cs w, (Feat.leaf n cs w).name = n) ∧ (∀ m w, (Feat.list [m] w).name = m.name) ∧
    ∀ ms w, ms.length ≠ 1 → (Feat.list ms w).name = "MetricList(" ++ ", ".intercalate (ms.map Feat.name) ++ ")" := by
  refine ⟨fun _ _ _ => by simp [Feat.name], fun m w => by simp [Feat.name, namesAll, listName], fun ms w h => ?_⟩
  match ms with
  | [] => simp [Feat.name, namesAll, listName]
  | [_] => simp at h
  | _ :: _ :: _ => simp [Feat.name, namesAll_eq, listName]

/-- **C90**, what is rejected. Only MetricLists with an element can be piped to a model; a constructor refuses a response with several columns.
An empty list of explanatory variables is not refused: the model is as if it had been given no metrics at all, also no response. -/
theorem C90_rejects (kind : ModelKind) (group wh : List String) (name : Option String) (m : ModelObj) :
    (∀ n cs w, pipeModel m (.leaf n cs w) = none) ∧ (∀ w, pipeModel m (.list [] w) = none) ∧
    (∀ y x, 2 ≤ y.width → construct kind y x group wh name = none) ∧
    ∀ y x, y.width = 1 → (construct kind y x group wh name = some (unfitted kind group wh name) ↔ ∃ w, x = .list [] w) := by
  refine ⟨fun _ _ _ => rfl, fun _ => rfl, fun y x h => ?_, fun y x h => ?_⟩
  rotate_left
  · unfold construct
    rw [if_neg (by simp [h])]
    match x with
    | .leaf _ _ _ => simp [width_one_falsy h, show (Feat.leaf _ _ _).falsy = false from rfl, unfitted]
    | .list [] w => simp [Feat.falsy]
    | .list (_ :: _) _ => simp [width_one_falsy h, show (Feat.list (_ :: _) _).falsy = false from rfl, unfitted]
  have hf : y.falsy = false := by
    match y with
    | .leaf _ _ _ => rfl
    | .list [] _ => simp [Feat.width, widthAll] at h
    | .list (_ :: _) _ => rfl
  unfold construct
  rw [if_pos ⟨hf, by omega⟩]

/-! ## Examples and violations -/

/-- sum(Y) -/
def exY : Feat := .leaf "sum(Y)" [("sum(Y)", 0)] []
/-- sum(A) where a > 0 -/
def exA : Feat := .leaf "sum(A)" [("sum(A)", 1)] ["a > 0"]
/-- quantile(B) at 0.1 and 0.9 -/
def exB : Feat := .leaf "quantile(B)" [("quantile(B, 0.1)", 2), ("quantile(B, 0.9)", 3)] []

example : exY.width = 1 ∧ [exA, exB].flatMap (Feat.cols []) ≠ [] ∧ DistinctCols (exY.cols [] ++ [exA, exB].flatMap (Feat.cols [])) := by
  decide +kernel
example : exY.width = 1 ∧ [exA, exB].flatMap (Feat.cols ["c = 1"]) ≠ [] ∧
    DistinctCols (exY.cols ["c = 1"] ++ [exA, exB].flatMap (Feat.cols ["c = 1"])) := by decide +kernel
example : ((construct .ols exY (.list [exA, exB] []) ["grp"] [] none).bind fun m =>
    (fitMagic m []).map fun d => (m.name, d.y.name, d.x.map FitCol.name, (coefLabels m true d).headD "")) =
    some (some "OLS(sum(Y) ~ sum(A) + quantile(B))", "sum(Y)", ["sum(A)", "quantile(B, 0.1)", "quantile(B, 0.9)"],
      "OLS(sum(Y) ~ sum(A) + quantile(B)) Coefficient: intercept") := by decide +kernel

/-- **C90** does not hold in the magic mode of LinearRegression and Lasso: the filter of the MetricList piped to them is dropped. -/
theorem C90_filter_violation (kind : ModelKind) (hk : kind = .ols ∨ kind = .lasso) :
    ∃ m d d', pipeModel (unfitted kind ["grp"] [] none) (.list [exY, exA] ["country = 'US'"]) = some m ∧
      fitPandas m = some d ∧ fitMagic m [] = some d' ∧ d.y.filters = ["country = 'US'"] ∧ d'.y.filters = [] ∧
      d.x.map FitCol.filters = [["country = 'US'", "a > 0"]] ∧ d'.x.map FitCol.filters = [["a > 0"]] := by
  rcases hk with rfl | rfl
  · exact ⟨_, _, _, rfl, rfl, rfl, rfl, rfl, rfl, rfl⟩
  · exact ⟨_, _, _, rfl, rfl, rfl, rfl, rfl, rfl, rfl⟩

/-- **C90** does not hold for the check of a logistic regression in the magic mode: the values counted are not filtered by the list. -/
theorem C90_classes_violation :
    ∃ m d c, pipeModel (unfitted .logistic ["grp"] [] none) (.list [exY, exA] ["label < 2"]) = some m ∧
      fitPandas m = some d ∧ classColumn m = some c ∧ d.y.filters = ["label < 2"] ∧ c.filters = [] :=
  ⟨_, _, _, rfl, rfl, rfl, rfl, rfl⟩

/-- **C90** does not hold for the name: a name given to a model is lost when a MetricList is piped to it; built from y and x it is kept. -/
theorem C90_name_violation :
    (pipeModel (unfitted .ridge ["grp"] [] (some "my model")) (.list [exY, exA] [])).map ModelObj.name =
      some (some "Ridge(sum(Y) ~ sum(A))") ∧
    (construct .ridge exY (.list [exA] []) ["grp"] [] (some "my model")).map ModelObj.name = some (some "my model") := by
  decide +kernel

/-- **C90** does not hold when the first metric of the list has two columns: on a DataFrame the first of them is the response and the second
an explanatory variable, in the magic mode the second is the response and the first is not used. -/
theorem C90_wide_violation :
    ∃ m d d', pipeModel (unfitted .ridge ["grp"] [] none) (.list [exB, exA] []) = some m ∧
      fitPandas m = some d ∧ fitMagic m [] = some d' ∧ d.y.name = "quantile(B, 0.1)" ∧ d.x.length = 2 ∧
      d'.y.name = "quantile(B, 0.9)" ∧ d'.x.length = 1 :=
  ⟨_, _, _, rfl, rfl, rfl, rfl, rfl, rfl, rfl⟩

/-- **C90** does not hold for a list with the response only: in the magic mode of Ridge the response is regressed on itself. -/
theorem C90_alone_violation :
    ∃ m d d', pipeModel (unfitted .ridge ["grp"] [] none) (.list [exY] []) = some m ∧
      fitPandas m = some d ∧ fitMagic m [] = some d' ∧ d.x = [] ∧ d'.x = [d'.y] :=
  ⟨_, _, _, rfl, rfl, rfl, rfl, rfl⟩

/-- **C90** does not hold for columns that compute the same: they are merged in the query, so in the magic mode there is an error, or,
when the query joins subqueries, the model is fit with a column of the groups as response and the response as an explanatory variable. -/
theorem C90_equal_columns_violation :
    ∃ m d d', construct .ridge exY (.list [exA, .leaf "A again" [("A again", 1)] ["a > 0"]] []) ["grp"] [] none = some m ∧
      fitPandas m = some d ∧ d.x.length = 2 ∧ fitMagic m [] = none ∧
      fitMagic m [⟨"grp", 9, []⟩] = some d' ∧ d'.y.name = "grp" ∧ d'.x.map FitCol.name = ["sum(Y)", "sum(A)"] :=
  ⟨_, _, _, rfl, rfl, rfl, rfl, rfl, rfl, rfl⟩

end Verif
