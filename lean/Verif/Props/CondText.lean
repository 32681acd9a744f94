import Verif.Lemmas.CondTextPy

/-!
# C78: the conditions that meterstick writes are read as what was meant

The texts go to the database. Each theorem gives the condition that the database reads and the rows that it keeps,
for every list of columns and every row, NULLs included. The values must not need an escape: the violations show that
the code writes none.
-/

namespace Verif

/-- A text has at most one reading, so the conditions below are the readings. -/
theorem C78_reading_unique {text : List Char} {c d : SCond} (h : ReadsAs text c) (h' : ReadsAs text d) : c = d :=
  reads_unique h h'

/-- The baseline: the printed condition keeps the rows where each of the columns equals its baseline. -/
theorem C78_base_partial (kvs : List (List Char × CVal)) (hne : kvs ≠ []) (h : ColsOK kvs)
    (he : ∀ p ∈ kvs, NoEqEq p.2) :
    ∃ c, ReadsAs (filterText (baseCond kvs)) c ∧ ∀ r : CRow, c.keeps r ↔ ∀ p ∈ kvs, r p.1 = some p.2 := by
  cases kvs with
  | nil => exact absurd rfl hne
  | cons p qs => exact ⟨_, (good_base p qs h).filter (chain_base p qs h he), fun r => keeps_base r qs p⟩

/-- What is left without the baseline: some column has a value that is not its baseline. -/
theorem C78_not_base_partial (kvs : List (List Char × CVal)) (hne : kvs ≠ []) (h : ColsOK kvs)
    (he : ∀ p ∈ kvs, NoEqEq p.2) :
    ∃ c, ReadsAs (filterText (notBaseCond kvs)) c ∧
      ∀ r : CRow, c.keeps r ↔ ∃ p ∈ kvs, ∃ v, r p.1 = some v ∧ v ≠ p.2 := by
  cases kvs with
  | nil => exact absurd rfl hne
  | cons p qs =>
    refine ⟨_, (good_base p qs h).not.filter (chain_notBase p qs h he), fun r => ?_⟩
    rw [← drops_base r qs p]
    simp [SCond.keeps, SCond.eval]

/-- The same for MH, which writes it in another way. -/
theorem C78_mh_exclude_partial (kvs : List (List Char × CVal)) (hne : kvs ≠ []) (h : ColsOK kvs)
    (he : ∀ p ∈ kvs, NoEqEq p.2) :
    ∃ c, ReadsAs (filterText (mhExcludeCond kvs)) c ∧
      ∀ r : CRow, c.keeps r ↔ ∃ p ∈ kvs, ∃ v, r p.1 = some v ∧ v ≠ p.2 := by
  cases kvs with
  | nil => exact absurd rfl hne
  | cons p qs => exact ⟨_, (good_mh p qs h).filter (chain_mh p qs h he), fun r => keeps_mh r qs p⟩

/-- A row without NULLs is either in the baseline or in what is compared with it, not in both. -/
theorem C78_split_partial (kvs : List (List Char × CVal)) (hne : kvs ≠ []) (h : ColsOK kvs)
    (he : ∀ p ∈ kvs, NoEqEq p.2) (b nb : SCond) (hb : ReadsAs (filterText (baseCond kvs)) b)
    (hnb : ReadsAs (filterText (notBaseCond kvs)) nb) (r : CRow) (hr : ∀ p ∈ kvs, r p.1 ≠ none) :
    nb.keeps r ↔ ¬ b.keeps r := by
  obtain ⟨b', hb', kb⟩ := C78_base_partial kvs hne h he
  obtain ⟨nb', hnb', knb⟩ := C78_not_base_partial kvs hne h he
  rw [reads_unique hb hb', reads_unique hnb hnb', kb, knb]
  push Not
  constructor
  · rintro ⟨p, hp, v, hv, hne⟩
    exact ⟨p, hp, fun e => hne (by rw [e] at hv; exact (Option.some.inj hv).symm)⟩
  · rintro ⟨p, hp, hne⟩
    obtain ⟨v, hv⟩ := Option.ne_none_iff_exists'.1 (hr p hp)
    exact ⟨p, hp, v, hv, fun e => hne (by rw [hv, e])⟩

/-- Leave one unit out: the query for a unit keeps the rows of the other units. -/
theorem C78_loo_partial (unit : List Char) (hu : NameOK unit) (numeric : Bool) (v : CVal) (hv : LooOK numeric v)
    (he : NoEqEq v) :
    ∃ c, ReadsAs (filterText (looCond unit numeric v)) c ∧ ∀ r : CRow, c.keeps r ↔ ∃ w, r unit = some w ∧ w ≠ v := by
  refine ⟨_, (good_loo unit hu numeric v hv).filter ?_, fun r => keeps_ne r unit v⟩
  have h1 := chain_of_not_mem _ (name_noEq hu)
  cases v with
  | int n =>
    cases (show numeric = true from hv)
    exact chain_atom false (unit, .int n) hu trivial he
  | str s =>
    obtain ⟨rfl, _⟩ := hv
    have e : looCond unit false (.str s) = (unit ++ ' ' :: ['!', '=']) ++ ' ' :: ([] ++ '"' :: (s ++ '"' :: [])) := by
      simp [looCond, CVal.text]
    rw [e]
    exact chain_mid (by decide) (chain_mid (by decide) h1 (chain_mid (a := []) (by decide) .nil (.singleton _)))
      (chain_mid (by decide) .nil (chain_mid (by decide) (chain_of_noEqEq s he) .nil))
  | date _ _ _ => exact hv.elim

theorem sliceCond_eq (kvs : List (List Char × CVal)) (h : ColsOK kvs) :
    sliceCond (kvs.map fun p => (p.1, some p.2)) = baseCond kvs := by
  unfold sliceCond baseCond
  rw [List.map_map]
  congr 1
  refine List.map_congr_left fun p hp => ?_
  obtain ⟨k, v⟩ := p
  have hv := (h _ hp).2
  cases v with
  | str s => simp [sliceVal, formatToCondition, hv.1]
  | int n => rfl
  | date y m d => exact absurd hv id

/-- The slices of a logistic regression in the magic mode: the condition written for a slice, in the filter of a column and in
COUNTIF, keeps the rows where each split column has the value of the slice. -/
theorem C78_slice_partial (kvs : List (List Char × CVal)) (hne : kvs ≠ []) (h : ColsOK kvs) (he : ∀ p ∈ kvs, NoEqEq p.2) :
    ∃ c, ReadsAs (filterText (sliceCond (kvs.map fun p => (p.1, some p.2)))) c ∧
      (∃ t, countIfText (kvs.map fun p => (p.1, some p.2)) = "COUNTIF(".toList ++ t ++ ")".toList ∧ ReadsAs t c) ∧
      ∀ r : CRow, c.keeps r ↔ ∀ p ∈ kvs, r p.1 = some p.2 := by
  cases kvs with
  | nil => exact absurd rfl hne
  | cons p qs =>
    refine ⟨_, ?_, ⟨_, rfl, ?_⟩, fun r => keeps_base r qs p⟩
    · rw [sliceCond_eq _ h]
      exact (good_base p qs h).filter (chain_base p qs h he)
    · rw [sliceCond_eq _ h]
      exact (good_base p qs h).reads

/-- The conditions of two slices that differ keep no row in common, and a row without NULLs is kept by the condition of its slice. -/
theorem C78_slices_partial (cols : List (List Char)) (v w : List Char → CVal) (hne : cols ≠ [])
    (h : ∀ k ∈ cols, NameOK k ∧ PlainVal (v k) ∧ NoEqEq (v k) ∧ PlainVal (w k) ∧ NoEqEq (w k)) :
    ∃ c d, ReadsAs (filterText (sliceCond (cols.map fun k => (k, some (v k))))) c ∧
      ReadsAs (filterText (sliceCond (cols.map fun k => (k, some (w k))))) d ∧
      ((∃ k ∈ cols, v k ≠ w k) → ∀ r : CRow, ¬ (c.keeps r ∧ d.keeps r)) ∧
      ∀ r : CRow, (∀ k ∈ cols, r k = some (v k)) → c.keeps r := by
  obtain ⟨c, hc, -, kc⟩ := C78_slice_partial (cols.map fun k => (k, v k)) (by simpa using hne)
    (by rintro p hp; obtain ⟨k, hk, rfl⟩ := List.mem_map.1 hp; exact ⟨(h k hk).1, (h k hk).2.1⟩)
    (by rintro p hp; obtain ⟨k, hk, rfl⟩ := List.mem_map.1 hp; exact (h k hk).2.2.1)
  obtain ⟨d, hd, -, kd⟩ := C78_slice_partial (cols.map fun k => (k, w k)) (by simpa using hne)
    (by rintro p hp; obtain ⟨k, hk, rfl⟩ := List.mem_map.1 hp; exact ⟨(h k hk).1, (h k hk).2.2.2.1⟩)
    (by rintro p hp; obtain ⟨k, hk, rfl⟩ := List.mem_map.1 hp; exact (h k hk).2.2.2.2)
  rw [List.map_map] at hc hd
  refine ⟨c, d, hc, hd, ?_, ?_⟩
  · rintro ⟨k, hk, hvw⟩ r ⟨h1, h2⟩
    have a := (kc r).1 h1 (k, v k) (List.mem_map_of_mem hk)
    have b := (kd r).1 h2 (k, w k) (List.mem_map_of_mem hk)
    rw [a] at b
    exact hvw (Option.some.inj b)
  · intro r hr
    refine (kc r).2 fun p hp => ?_
    obtain ⟨k, hk, rfl⟩ := List.mem_map.1 hp
    exact hr k hk

/-- A slice with NULL: the condition compares the column with a column `None`, and does not keep a row of the slice even if there is
one; the slice of a date keeps rows with an integer. -/
theorem C78_slice_violation : ∃ c d,
    ReadsAs (filterText (sliceCond [("g".toList, none)])) c ∧ c = .eq (.col "g".toList) (.col "None".toList) ∧
    (∀ r : CRow, r "g".toList = none → ¬ c.keeps r) ∧
    ReadsAs (filterText (sliceCond [("d".toList, some (.date 2020 1 1))])) d ∧
    ∃ r : CRow, d.keeps r ∧ r "d".toList = some (.int 2018) := by
  refine ⟨_, .eq (.col "d".toList) (.lit (.int 2018)), reads_of 10 (by decide), rfl, ?_, reads_of 10 (by decide), fun _ => some (.int 2018),
    by decide, rfl⟩
  intro r hr hk
  have : ("g".toList : List Char) = ['g'] := rfl
  simp [SCond.keeps, SCond.eval, COperand.eval, this ▸ hr] at hk

/-- The order of a CumulativeDistribution: the CASE gives the first place of the value in the given order, and
the number of places to a value that is not there and to NULL; DESC if it is not ascending. -/
theorem C78_case_partial (col : List Char) (hc : NameOK col) (order : List CVal) (h : ∀ v ∈ order, PlainVal v)
    (ascending : Bool) :
    ∃ c, ReadsCase (caseText col order ascending) c ∧ c.desc = !ascending ∧
      ∀ r : CRow, c.eval r = order.findIdx fun v => r col = some v := by
  refine ⟨⟨col, whenPairs 0 order, order.length, !ascending⟩, ⟨_, _, _, _, lex_case col hc order h ascending, by decide, hc.2,
    rfl, parse_whens order.length ascending order 0 h⟩, rfl, fun r => ?_⟩
  simp only [SCase.eval]
  rw [find_pairs]
  by_cases hi : order.findIdx (fun v => r col = some v) < order.length
  · rw [if_pos hi]
    have hx := List.findIdx_getElem (w := hi)
    simp only [decide_eq_true_eq] at hx
    rw [hx]
    simp
  · rw [if_neg hi]
    have := List.findIdx_le_length (xs := order) (p := fun v => decide (r col = some v))
    simp only
    omega

/-- The `where` of a user: a condition that is written for a DataFrame, with `==`, is printed so that the database reads
the same condition, unless one of its strings has `==` in it. -/
theorem C78_user_condition_partial (text : List Char) (c : SCond) (h : PyReads text c)
    (hs : ∀ s ∈ c.strings, ¬ ['=', '='] <:+: s) : ReadsAs (filterText text) c := by
  have g := (h.reads hs).good
  unfold filterText
  simp only
  split
  · exact g.paren.reads
  · exact g.reads

/-- A condition that is written for the database without `==` is printed so that it is read in the same way. -/
theorem C78_sql_condition_partial (text : List Char) (c : SCond) (h : ReadsAs text c) (hs : ¬ ['=', '='] <:+: text) :
    ReadsAs (filterText text) c :=
  h.good.filter (chain_of_noEqEq text hs)

theorem eval_complete (r : CRow) : ∀ c : SCond, c.complete r → c.eval r = some (c.query r)
  | .eq a b, h => by
      obtain ⟨x, hx⟩ := Option.ne_none_iff_exists'.1 h.1
      obtain ⟨y, hy⟩ := Option.ne_none_iff_exists'.1 h.2
      simp [SCond.eval, SCond.query, hx, hy]
  | .ne a b, h => by
      obtain ⟨x, hx⟩ := Option.ne_none_iff_exists'.1 h.1
      obtain ⟨y, hy⟩ := Option.ne_none_iff_exists'.1 h.2
      simp [SCond.eval, SCond.query, hx, hy]
  | .ord g e a b, h => by
      obtain ⟨x, y, hx, hy, hc⟩ := h
      obtain ⟨v, hv⟩ := Option.ne_none_iff_exists'.1 hc
      simp only [SCond.eval, SCond.query, hx, hy, hv, Option.bind_some]
      cases v <;> rfl
  | .not c, h => by rw [SCond.eval, eval_complete r c h]; rfl
  | .and a b, h => by
      simp only [SCond.eval, SCond.query, eval_complete r a h.1, eval_complete r b h.2]
      cases a.query r <;> cases b.query r <;> rfl
  | .or a b, h => by
      simp only [SCond.eval, SCond.query, eval_complete r a h.1, eval_complete r b h.2]
      cases a.query r <;> cases b.query r <;> rfl

theorem eval_positive (r : CRow) : ∀ c : SCond, c.positive → (c.eval r = some true ↔ c.query r = true)
  | .eq a b, _ => by
      cases hx : a.eval r <;> cases hy : b.eval r <;> simp [SCond.eval, SCond.query, hx, hy]
  | .ord g e a b, _ => by
      cases hx : a.eval r <;> cases hy : b.eval r <;> simp [SCond.eval, SCond.query, hx, hy]
  | .and a b, h => by
      rw [and_true, eval_positive r a h.1, eval_positive r b h.2]
      simp [SCond.query]
  | .or a b, h => by
      rw [or_true, eval_positive r a h.1, eval_positive r b h.2]
      simp [SCond.query]

/-- The rows that a user's `where` keeps: the database keeps the rows that `df.query` keeps, among the rows that have a value in the columns
of the condition. -/
theorem C78_user_rows_partial (text : List Char) (c : SCond) (h : PyReads text c) (hs : ∀ s ∈ c.strings, ¬ ['=', '='] <:+: s) :
    ∃ d, ReadsAs (filterText text) d ∧ ∀ r : CRow, c.complete r → (d.keeps r ↔ c.query r = true) :=
  ⟨c, C78_user_condition_partial text c h hs, fun r hr => by
    unfold SCond.keeps; rw [eval_complete r c hr, Option.some.injEq]⟩

/-- A condition without `!=` and NOT keeps the same rows, missing values or not. -/
theorem C78_user_rows_positive_partial (text : List Char) (c : SCond) (h : PyReads text c) (hp : c.positive)
    (hs : ∀ s ∈ c.strings, ¬ ['=', '='] <:+: s) :
    ∃ d, ReadsAs (filterText text) d ∧ ∀ r : CRow, d.keeps r ↔ c.query r = true :=
  ⟨c, C78_user_condition_partial text c h hs, fun r => eval_positive r c hp⟩

/-! ## Where it fails -/

/-- `where='x != 1'` and `where='not x == 1'`: a row without `x` is kept by the DataFrame and dropped by the query. -/
theorem C78_user_null_violation : ∀ t ∈ ["x != 1".toList, "not x == 1".toList], ∃ (c d : SCond) (r : CRow),
    PyReads t c ∧ ReadsAs (filterText t) d ∧ c.query r = true ∧ ¬ d.keeps r := by
  intro t ht
  simp only [List.mem_cons, List.not_mem_nil, or_false] at ht
  rcases ht with rfl | rfl
  · exact ⟨.ne (.col ['x']) (.lit (.int 1)), .ne (.col ['x']) (.lit (.int 1)), fun _ => none, pyReads_of 10 (by decide),
      reads_of 10 (by decide), rfl, by decide⟩
  · exact ⟨.not (.eq (.col ['x']) (.lit (.int 1))), .not (.eq (.col ['x']) (.lit (.int 1))), fun _ => none, pyReads_of 10 (by decide),
      reads_of 10 (by decide), rfl, by decide⟩


/-- The `where` of a user with `==` in a string: the DataFrame and the database read two conditions, and no row that
one of them keeps is kept by the other. -/
theorem C78_user_condition_violation : ∃ (text : List Char) (c d : SCond),
    PyReads text c ∧ ReadsAs (filterText text) d ∧ ∀ r : CRow, ¬ (c.keeps r ∧ d.keeps r) := by
  refine ⟨"q == \"a==b\"".toList, .eq (.col "q".toList) (.lit (.str "a==b".toList)),
    .eq (.col "q".toList) (.lit (.str "a=b".toList)), pyReads_of 10 (by decide), reads_of 10 (by decide), fun r h => ?_⟩
  have h1 := (keeps_base r [] ("q".toList, .str "a==b".toList)).1 h.1 _ List.mem_cons_self
  have h2 := (keeps_base r [] ("q".toList, .str "a=b".toList)).1 h.2 _ List.mem_cons_self
  rw [h1] at h2
  exact absurd h2 (by decide)


/-- A value with a quotation mark: the condition is read as another one, which keeps rows that have nothing to do with
the baseline. -/
theorem C78_quote_violation : ∃ (v : CVal) (c : SCond),
    ReadsAs (filterText (baseCond [("g".toList, v)])) c ∧
      ∃ r : CRow, c.keeps r ∧ r "g".toList ≠ some v := by
  refine ⟨.str "x\" OR \"a\" = \"a".toList, .or (.eq (.col "g".toList) (.lit (.str "x".toList)))
    (.eq (.lit (.str "a".toList)) (.lit (.str "a".toList))), reads_of 10 (by decide), fun _ => none, ?_, by simp⟩
  decide

/-- Two equal signs inside a string become one: the baseline is another string, and the rows of the baseline
are not found. -/
theorem C78_eqeq_violation : ∃ (v : CVal) (c : SCond), PlainVal v ∧
    ReadsAs (filterText (baseCond [("g".toList, v)])) c ∧
      ∃ r : CRow, r "g".toList = some v ∧ ¬ c.keeps r := by
  refine ⟨.str "a==b".toList, .eq (.col "g".toList) (.lit (.str "a=b".toList)), ⟨by decide, by decide⟩,
    reads_of 10 (by decide), fun _ => some (.str "a==b".toList), rfl, ?_⟩
  decide

/-- A date has no quotation marks: it is read as a difference of integers. -/
theorem C78_date_violation : ∃ c, ReadsAs (filterText (baseCond [("d".toList, .date 2020 10 9)])) c ∧
    baseCond [("d".toList, .date 2020 10 9)] = "d = 2020-10-09".toList ∧
    ∃ r : CRow, c.keeps r ∧ r "d".toList = some (.int 2001) :=
  ⟨.eq (.col "d".toList) (.lit (.int 2001)), reads_of 10 (by decide), by decide, fun _ => some (.int 2001), by decide, rfl⟩

/-- A backslash: `C:\new` is read with a line break in it. -/
theorem C78_backslash_violation : ∃ (v w : CVal) (c : SCond), v ≠ w ∧
    ReadsAs (filterText (baseCond [("g".toList, v)])) c ∧ ∀ r : CRow, c.keeps r ↔ r "g".toList = some w := by
  refine ⟨.str "C:\\new".toList, .str "C:\new".toList, .eq (.col "g".toList) (.lit (.str "C:\new".toList)), by decide,
    reads_of 10 (by decide), fun r => ?_⟩
  have := keeps_base r [] ("g".toList, .str "C:\new".toList)
  simpa [SCond.keeps, chainCond, atomCond] using this

/-- A line break: the database cannot read the condition. -/
theorem C78_newline_violation : ∃ v : CVal, ∀ c, ¬ ReadsAs (filterText (baseCond [("g".toList, v)])) c := by
  refine ⟨.str "a\nb".toList, fun c h => ?_⟩
  obtain ⟨ts, n, h1, _⟩ := h
  have : lexFrom lexStart .start (filterText (baseCond [("g".toList, .str "a\nb".toList)])) = none := by decide
  rw [this] at h1
  cases h1

/-- The rows that `df[df[unit] != lvl]` keeps in the computation on a DataFrame (/repo/operations.py:2436-2444): a
missing value is not equal to anything. -/
def pandasLoo (unit : List Char) (v : CVal) (r : CRow) : Prop := r unit ≠ some v

/-- A row without a unit is kept by the DataFrame and dropped by the query. -/
theorem C78_loo_null_violation : ∃ (r : CRow) (c : SCond),
    ReadsAs (filterText (looCond "u".toList true (.int 1))) c ∧ pandasLoo "u".toList (.int 1) r ∧ ¬ c.keeps r :=
  ⟨fun _ => none, .ne (.col "u".toList) (.lit (.int 1)), reads_of 10 (by decide), by simp [pandasLoo], by decide⟩

/-- Apart from such rows they agree. -/
theorem C78_loo_agrees_partial (unit : List Char) (hu : NameOK unit) (numeric : Bool) (v : CVal)
    (hv : LooOK numeric v) (he : NoEqEq v) (c : SCond) (hc : ReadsAs (filterText (looCond unit numeric v)) c)
    (r : CRow) (hr : r unit ≠ none) : c.keeps r ↔ pandasLoo unit v r := by
  obtain ⟨d, hd, kd⟩ := C78_loo_partial unit hu numeric v hv he
  rw [reads_unique hc hd, kd, pandasLoo]
  obtain ⟨w, hw⟩ := Option.ne_none_iff_exists'.1 hr
  simp [hw]

/-! ## Examples -/

example : ColsOK [("grp".toList, .str "control".toList), ("x_1".toList, .int (-3))] := by
  intro p hp
  rcases List.mem_cons.1 hp with rfl | hp
  · exact ⟨⟨⟨'g', ['r', 'p'], rfl, by decide, by decide⟩, by decide⟩, by decide, by decide⟩
  · rw [List.mem_singleton.1 hp]
    exact ⟨⟨⟨'x', ['_', '1'], rfl, by decide, by decide⟩, by decide⟩, trivial⟩

example : baseCond [("grp".toList, .str "control".toList), ("x_1".toList, .int (-3))]
    = "grp = \"control\" AND x_1 = -3".toList := by decide

example : filterText (mhExcludeCond [("grp".toList, .str "control".toList), ("x_1".toList, .int (-3))])
    = "(grp != \"control\" OR x_1 != -3)".toList := by decide

example : caseText "x".toList [.str "b".toList, .str "a".toList] false
    = "CASE x\nWHEN \"b\" THEN 0\nWHEN \"a\" THEN 1\nELSE 2\nEND DESC".toList := by decide

example : sliceCond [("grp".toList, some (.str "US".toList)), ("x_1".toList, some (.int (-3)))] = "grp = \"US\" AND x_1 = -3".toList := by
  decide
example : countIfText [("grp".toList, some (.str "$US".toList))] = "COUNTIF(grp = \"$US\")".toList := by decide

/-- A user's condition in the sense of `C78_user_condition_partial`, with all connectives. -/
example : PyReads "NOT (grp == \"a OR b\") and x != -1 or y==2".toList
    (.or (.and (.not (.eq (.col "grp".toList) (.lit (.str "a OR b".toList)))) (.ne (.col "x".toList) (.lit (.int (-1)))))
      (.eq (.col "y".toList) (.lit (.int 2)))) := pyReads_of 10 (by decide)

/-- The other comparisons; `<=` and `>=` keep their equal sign. -/
example : PyReads "x <= 3 and (y>-2 or z >= x) and g<\"b\"".toList
    (.and (.ord false true (.col ['x']) (.lit (.int 3))) (.and (.or (.ord true false (.col ['y']) (.lit (.int (-2))))
      (.ord true true (.col ['z']) (.col ['x']))) (.ord false false (.col ['g']) (.lit (.str ['b']))))) := pyReads_of 10 (by decide)
example : filterText "x <= 3 and (y>-2 or z >= x) and g<\"b\"".toList = "(x <= 3 and (y>-2 or z >= x) and g<\"b\")".toList := by decide

example : let c : SCond := .and (.ord false true (.col ['x']) (.lit (.int 3))) (.not (.eq (.col ['g']) (.lit (.str ['b']))))
    let r : CRow := fun n => if n = ['x'] then some (.int 2) else some (.str ['a'])
    c.complete r ∧ c.query r = true ∧ ¬ c.positive := by
  refine ⟨⟨⟨.int 2, .int 3, rfl, rfl, by decide⟩, by decide, by decide⟩, by decide, fun h => h.2⟩

example : filterText "NOT (grp == \"a OR b\") and x != -1 or y==2".toList
    = "(NOT (grp = \"a OR b\") and x != -1 or y=2)".toList := by decide

end Verif
