import Verif.Model.ShowResult
import Verif.Props.DisplayWide
import Verif.Lemmas.SuffNames
import Mathlib.Data.List.Lex
import Mathlib.Data.Char

/-!
# C86: display() shows the result
-/

namespace Verif

/-! ## Names -/

theorem strip_abs (x : List Char) : stripChange (x ++ absSuffix) = x := by
  unfold stripChange
  rw [if_pos (List.suffix_append x absSuffix)]
  simp

theorem strip_pct (x : List Char) : stripChange (x ++ pctSuffix) = x := by
  unfold stripChange
  rw [if_neg, if_pos (List.suffix_append x pctSuffix)]
  · simp
  · intro h
    have := List.suffix_of_suffix_length_le (List.suffix_append x pctSuffix) h (by decide)
    revert this
    decide

/-- A template of a PercentChange or an AbsoluteChange: the text may begin with anything. -/
def NameTmpl.change (t : NameTmpl) : Prop := t.post = " Absolute Change".toList ∨ t.post = " Percent Change".toList

theorem strip_format (t : NameTmpl) (h : t.change) (c : List Char) : stripChange (t.format c) = t.pre ++ c := by
  unfold NameTmpl.format
  have ha : absSuffix = " Absolute Change".toList := rfl
  have hp : pctSuffix = " Percent Change".toList := rfl
  rcases h with h | h <;> rw [h]
  · rw [← ha]; exact strip_abs _
  · rw [← hp]; exact strip_pct _

/-! ## The table -/

section
variable {ε δ : Type} [LinearOrder ε] [LinearOrder δ]

/-- The index of a row: metric, slice and condition. -/
def BaseRow.index (b : BaseRow δ) : List Char × List (Option δ) × List CondVal := (b.metric, b.slice, b.cond)
/-- The index of a row. -/
def ResultRow.index (r : ResultRow δ) : List Char × List (Option δ) × List CondVal := (r.metric, r.slice, r.cond)

omit [LinearOrder ε] in
theorem matches_iff (b : BaseRow δ) (r : ResultRow δ) : ResultRow.matches b r = true ↔ r.index = b.index := by
  simp [ResultRow.matches, ResultRow.index, BaseRow.index]

theorem find_match (b : BaseRow δ) (res : List (ResultRow δ)) (hn : (res.map ResultRow.index).Nodup) (r : ResultRow δ) (hr : r ∈ res)
    (h : r.index = b.index) : res.find? (ResultRow.matches b) = some r := by
  cases hf : res.find? (ResultRow.matches b) with
  | none =>
    rw [List.find?_eq_none] at hf
    exact absurd ((matches_iff b r).2 h) (hf r hr)
  | some r' =>
    have h1 := List.find?_some hf
    have h2 := List.mem_of_find?_eq_some hf
    rw [matches_iff] at h1
    have := List.inj_on_of_nodup_map hn hr h2 (by rw [h, h1])
    rw [this]

theorem find_no_match (b : BaseRow δ) (res : List (ResultRow δ)) (h : ∀ r ∈ res, r.index ≠ b.index) : res.find? (ResultRow.matches b) = none := by
  rw [List.find?_eq_none]
  intro r hr
  rw [matches_iff]
  exact h r hr

theorem names_ok (t : NameTmpl) (ht : t.change) (base : List (BaseRow δ)) (hnames : ∀ b ∈ base, ∃ c, b.metric = t.format c) :
    (((base.map (·.metric)).dedup).map stripChange).Nodup := by
  apply List.Nodup.map_on _ (List.nodup_dedup _)
  intro x hx y hy hxy
  rw [List.mem_dedup, List.mem_map] at hx hy
  obtain ⟨b, hb, rfl⟩ := hx
  obtain ⟨b', hb', rfl⟩ := hy
  obtain ⟨c, hc⟩ := hnames b hb
  obtain ⟨c', hc'⟩ := hnames b' hb'
  rw [hc, hc', strip_format t ht, strip_format t ht] at hxy
  rw [hc, hc']
  unfold NameTmpl.format
  rw [hxy]

/-- **C86** for a PercentChange or AbsoluteChange: `display()` does not fail, and for each metric, slice and experiment whose value is
compared, it shows in the row of that slice and experiment, under the metric's own name, that value, with the change and the interval
that the result has for it; the control is marked as such and has no change. -/
theorem C86_shows_partial (o : ShowOpts) (ho : o.showControl ≠ some false) (expId : List CondVal → ε) (baseline : List CondVal)
    (base : List (BaseRow δ)) (res : List (ResultRow δ)) (t : NameTmpl) (ht : t.change)
    (hnames : ∀ b ∈ base, ∃ c, b.metric = t.format c)
    (hbase : (base.map BaseRow.index).Nodup) (hres : (res.map ResultRow.index).Nodup)
    (hid : ∀ x ∈ baseline :: base.map (·.cond), ∀ y ∈ baseline :: base.map (·.cond), expId x = expId y → x = y) :
    ∃ tab, displayChange o expId (expId baseline) base res = some tab ∧
      ∀ b ∈ base, ∀ c d, b.metric = t.format c → b.slice = d.map some →
        ∃ cell, (⟨d, some (expId baseline), decide (b.cond = baseline), expId b.cond⟩, cell) ∈ tab ∧
          (∀ r ∈ res, r.index = b.index → cell (t.pre ++ c) = ⟨b.value, if b.cond = baseline then none else r.value, r.lower, r.upper⟩) ∧
          ((∀ r ∈ res, r.index ≠ b.index) → cell (t.pre ++ c) = ⟨b.value, none, none, none⟩) := by
  set O : DispOpts := ⟨o.showControl.getD true, false, o.showValueHidden⟩ with hO
  have hs : O.showControl = true := by
    rw [hO]
    rcases hsc : o.showControl with _ | _ | _
    · rfl
    · exact absurd hsc ho
    · rfl
  obtain ⟨tab, htab⟩ : ∃ tab, wideTable O (.single (expId baseline)) false (base.map (joinedRow expId res)) = some tab := by
    unfold wideTable preAggregate
    simp [hO]
  refine ⟨tab, ?_, ?_⟩
  · unfold displayChange
    rw [if_pos (names_ok t ht base hnames)]
    exact htab
  · intro b hb c d hbc hd
    obtain ⟨l1, l2, hl⟩ := List.append_of_mem hb
    have hdec : decide (expId b.cond = expId baseline) = decide (b.cond = baseline) := by
      rw [decide_eq_decide]
      constructor
      · exact hid _ (by simp; exact Or.inr ⟨b, hb, rfl⟩) _ (by simp)
      · intro h; rw [h]
    have hmet : (joinedRow expId res b).metric = t.pre ++ c := by
      change stripChange b.metric = _
      rw [hbc, strip_format t ht]
    have hsplit : base.map (joinedRow expId res) = l1.map (joinedRow expId res) ++ joinedRow expId res b :: l2.map (joinedRow expId res) := by
      rw [hl]; simp
    obtain ⟨tab', cell, h1, h2, h3⟩ := C63_single_partial O hs (by rw [hO]) (expId baseline) false (l1.map (joinedRow expId res))
      (l2.map (joinedRow expId res)) (joinedRow expId res b) d hd (by
        intro s hs'
        rw [← List.map_append, List.mem_map] at hs'
        obtain ⟨b', hb', rfl⟩ := hs'
        rintro ⟨he, hdims, hm⟩
        have hb'm : b' ∈ base := by rw [hl]; simp at hb' ⊢; tauto
        have hcond : b'.cond = b.cond := hid _ (by simp; exact Or.inr ⟨b', hb'm, rfl⟩) _ (by simp; exact Or.inr ⟨b, hb, rfl⟩) he
        have hmm : b'.metric = b.metric := by
          obtain ⟨c', hc'⟩ := hnames b' hb'm
          have hm' : stripChange b'.metric = stripChange b.metric := hm
          rw [hc', hbc, strip_format t ht, strip_format t ht] at hm'
          rw [hc', hbc]
          unfold NameTmpl.format
          rw [hm']
        have hidx : b'.index = b.index := by
          unfold BaseRow.index
          rw [hmm, hcond, show b'.slice = b.slice from hdims]
        rw [hl, List.map_append, List.map_cons, List.nodup_middle, List.nodup_cons] at hbase
        apply hbase.1
        rw [← List.map_append, ← hidx]
        exact List.mem_map_of_mem hb')
    rw [← hsplit, htab] at h1
    injection h1 with h1
    subst h1
    rw [hmet] at h3
    refine ⟨cell, ?_, ?_, ?_⟩
    · have : (joinedRow expId res b).exp = expId b.cond := rfl
      rw [this, hdec] at h2
      exact h2
    · intro r hr hri
      rw [h3]
      have hf := find_match b res hres r hr hri
      simp only [joinedRow, hf, Option.bind_some]
      congr 1
      have := decide_eq_decide.1 hdec
      by_cases hb' : b.cond = baseline
      · rw [if_pos (this.2 hb'), if_pos hb']
      · rw [if_neg (fun h => hb' (this.1 h)), if_neg hb']
    · intro hno
      rw [h3]
      have hf := find_no_match b res hno
      simp [joinedRow, hf]

/-- **C86** Nothing else is shown: every row of the display is the slice and the experiment of a value that is compared, and is marked
as control exactly if that is the baseline. -/
theorem C86_only (o : ShowOpts) (ho : o.showControl ≠ some false) (expId : List CondVal → ε) (control : ε)
    (base : List (BaseRow δ)) (res : List (ResultRow δ)) (tab) (h : displayChange o expId control base res = some tab) (p) (hp : p ∈ tab) :
    ∃ b ∈ base, b.slice = p.1.dims.map some ∧ p.1.exp = expId b.cond ∧ p.1.isCtrl = decide (expId b.cond = control) ∧
      p.1.ctrl = some control := by
  unfold displayChange at h
  split at h
  · have hs : o.showControl.getD true = true := by
      rcases hsc : o.showControl with _ | _ | _
      · rfl
      · exact absurd hsc ho
      · rfl
    unfold wideTable preAggregate addIsControl at h
    simp only [hs, if_true, Bool.false_eq_true, if_false, Option.bind_eq_bind, Option.bind_some, Option.pure_def, Option.map_some,
      Option.some.injEq] at h
    subst h
    obtain ⟨⟨r, hr, hk⟩, -⟩ := (mem_longToWide _ _ p).1 hp
    simp only [List.mem_map] at hr
    obtain ⟨_, ⟨_, ⟨b, hb, rfl⟩, rfl⟩, rfl⟩ := hr
    have hu : usesCtrl true ((((base.map (joinedRow expId res)).map fun r : DispRow ε δ (List Char) =>
        { r with isCtrl := decide (r.exp = control), ctrl := some control }).map fun r => if r.isCtrl = true then { r with ratio := none } else r)) = true := by
      simp only [usesCtrl, Bool.true_and, Bool.not_eq_true', List.all_eq_false]
      refine ⟨_, List.mem_map_of_mem (List.mem_map_of_mem (List.mem_map_of_mem hb)), ?_⟩
      by_cases h : (joinedRow expId res b).exp = control <;> simp [h]
    rw [hu, dispKey_iff] at hk
    refine ⟨b, hb, ?_, ?_, ?_, ?_⟩
    · rw [← hk.1]
      split <;> rfl
    · rw [hk.2.2.2]
      split <;> rfl
    · rw [hk.2.2.1]
      by_cases h : expId b.cond = control <;> simp [joinedRow, h]
    · have := hk.2.1
      simp only [if_true] at this
      rw [← this.2]
      split <;> rfl
  · simp at h

/-- **C86** The numbers shown fit together: if the result has the change `f` of the compared values, then the change shown for an
experiment is `f` of the value shown for it and the value shown for the control of its slice. -/
theorem C86_change_partial (f : Option ℚ → Option ℚ → Option ℚ) (o : ShowOpts) (ho : o.showControl ≠ some false) (expId : List CondVal → ε)
    (baseline : List CondVal) (base : List (BaseRow δ)) (res : List (ResultRow δ)) (t : NameTmpl) (ht : t.change)
    (hnames : ∀ b ∈ base, ∃ c, b.metric = t.format c)
    (hbase : (base.map BaseRow.index).Nodup) (hres : (res.map ResultRow.index).Nodup)
    (hid : ∀ x ∈ baseline :: base.map (·.cond), ∀ y ∈ baseline :: base.map (·.cond), expId x = expId y → x = y)
    (c : List Char) (d : List δ) (e : List CondVal) (he : e ≠ baseline) (v w : Option ℚ)
    (hv : (⟨t.format c, d.map some, e, v⟩ : BaseRow δ) ∈ base) (hw : (⟨t.format c, d.map some, baseline, w⟩ : BaseRow δ) ∈ base)
    (r : ResultRow δ) (hr : r ∈ res) (hri : r.index = (t.format c, d.map some, e)) (hf : r.value = f v w) :
    ∃ tab cell cell', displayChange o expId (expId baseline) base res = some tab ∧
      (⟨d, some (expId baseline), false, expId e⟩, cell) ∈ tab ∧ (⟨d, some (expId baseline), true, expId baseline⟩, cell') ∈ tab ∧
      (cell (t.pre ++ c)).ratio = f (cell (t.pre ++ c)).value (cell' (t.pre ++ c)).value := by
  obtain ⟨tab, h1, h2⟩ := C86_shows_partial o ho expId baseline base res t ht hnames hbase hres hid
  obtain ⟨cell, hc1, hc2, -⟩ := h2 _ hv c d rfl rfl
  obtain ⟨cell', hd1, hd2, hd3⟩ := h2 _ hw c d rfl rfl
  refine ⟨tab, cell, cell', h1, ?_, ?_, ?_⟩
  · simpa [he] using hc1
  · simpa using hd1
  · have hcell := hc2 r hr hri
    rw [hcell]
    have hval : (cell' (t.pre ++ c)).value = w := by
      by_cases hex : ∃ r' ∈ res, r'.index = (⟨t.format c, d.map some, baseline, w⟩ : BaseRow δ).index
      · obtain ⟨r', hr', hi'⟩ := hex
        rw [hd2 r' hr' hi']
      · push Not at hex
        rw [hd3 hex]
    rw [hval]
    simp [he, hf]

/-- **C86** for any other metric: every estimate is shown in the row of its slice under its metric, with its interval, as the only
number of the cell. -/
theorem C86_plain (o : ShowOpts) (ho : o.showControl ≠ some true) (hv : o.showValueHidden = false) (res : List (ResultRow δ))
    (hres : (res.map fun r => (r.metric, r.slice)).Nodup) :
    ∃ tab, displayPlain o res = some tab ∧
      (∀ r ∈ res, ∀ d, r.slice = d.map some → ∃ cell, (⟨d, none, false, ()⟩, cell) ∈ tab ∧ cell r.metric = ⟨none, r.value, r.lower, r.upper⟩) ∧
      ∀ p ∈ tab, ∃ r ∈ res, r.slice = p.1.dims.map some := by
  have hs : o.showControl.getD false = false := by
    rcases hsc : o.showControl with _ | _ | _
    · rfl
    · rfl
    · exact absurd hsc ho
  have hplain : (res.map plainRow).map (fun r : DispRow Unit δ (List Char) => { r with value := none }) = res.map plainRow := by
    rw [List.map_map]; rfl
  have htab : displayPlain o res = some (longToWide false (res.map plainRow)) := by
    unfold displayPlain wideTable preAggregate addIsControl
    simp only [hs, hv, Bool.false_eq_true, if_false, Option.bind_eq_bind, Option.bind_some, Option.pure_def, Option.map_some, hplain]
  refine ⟨_, htab, ?_, ?_⟩
  · intro r hr d hd
    obtain ⟨l1, l2, hl⟩ := List.append_of_mem hr
    have hsplit : res.map plainRow = l1.map plainRow ++ plainRow r :: l2.map plainRow := by rw [hl]; simp
    rw [hsplit]
    refine shown_of_unique false (l1.map plainRow) (l2.map plainRow) (plainRow r) ⟨d, none, false, ()⟩ ?_ ?_
    · rw [dispKey_iff]
      exact ⟨hd, by simp [usesCtrl], rfl, rfl⟩
    · intro s hs'
      rw [← List.map_append, List.mem_map] at hs'
      obtain ⟨r', hr', rfl⟩ := hs'
      rintro ⟨-, hdims, hm⟩
      rw [hl, List.map_append, List.map_cons, List.nodup_middle, List.nodup_cons] at hres
      apply hres.1
      rw [← List.map_append]
      have : (r.metric, r.slice) = (r'.metric, r'.slice) := by
        rw [show r'.metric = r.metric from hm, show r'.slice = r.slice from hdims]
      rw [this]
      exact List.mem_map_of_mem (f := fun r : ResultRow δ => (r.metric, r.slice)) hr'
  · intro p hp
    obtain ⟨⟨r, hr, hk⟩, -⟩ := (mem_longToWide _ _ p).1 hp
    rw [List.mem_map] at hr
    obtain ⟨r, hr, rfl⟩ := hr
    rw [dispKey_iff] at hk
    exact ⟨r, hr, hk.1⟩

end

/-! ## Several condition columns -/

theorem split_unique {p : Char → Prop} {l1 l2 : List Char} (h1 : ∀ c ∈ l1, ¬ p c) (h2 : ∀ c ∈ l2, ¬ p c) {x y : Char} (hx : p x) (hy : p y)
    {xs ys : List Char} (h : l1 ++ x :: xs = l2 ++ y :: ys) : l1 = l2 ∧ x = y ∧ xs = ys := by
  induction l1 generalizing l2 with
  | nil =>
    cases l2 with
    | nil => simpa using h
    | cons a l2 =>
      simp only [List.nil_append, List.cons_append, List.cons.injEq] at h
      exact absurd (h.1 ▸ hx) (h2 a (by simp))
  | cons a l1 ih =>
    cases l2 with
    | nil =>
      simp only [List.nil_append, List.cons_append, List.cons.injEq] at h
      exact absurd (h.1 ▸ hy) (h1 a (by simp))
    | cons b l2 =>
      simp only [List.cons_append, List.cons.injEq] at h
      obtain ⟨h3, h4⟩ := ih (fun c hc => h1 c (by simp [hc])) (fun c hc => h2 c (by simp [hc])) h.2
      exact ⟨by rw [h.1, h3], h4⟩

theorem intRepr_chars (n : ℤ) : ∀ c ∈ intRepr n, c = '-' ∨ c.isDigit = true := by
  intro c hc
  unfold intRepr at hc
  split at hc
  · rcases List.mem_cons.1 hc with h | h
    · exact Or.inl h
    · exact Or.inr (digits_isDigit _ c h)
  · exact Or.inr (digits_isDigit _ c hc)

theorem intRepr_inj {m n : ℤ} (h : intRepr m = intRepr n) : m = n := by
  unfold intRepr at h
  have hne : ∀ k : ℕ, ∀ l : List Char, Nat.toDigits 10 k ≠ '-' :: l := by
    intro k l hk
    have := digits_isDigit k '-' (by rw [hk]; simp)
    revert this
    decide
  split at h <;> split at h
  · have := digits_inj (List.cons.inj h).2
    omega
  · exact absurd h.symm (hne _ _)
  · exact absurd h (hne _ _)
  · have := digits_inj h
    omega

/-- An integer, or a text without quotation marks: what `repr` writes as it is. -/
def CondVal.simple : CondVal → Prop
  | .int _ => True
  | .flt _ => False
  | .str s => '\'' ∉ s

theorem repr_step (fr : ℚ → List Char) {a b : CondVal} (ha : a.simple) (hb : b.simple) {x y : Char} (hx : x = ',' ∨ x = ')') (hy : y = ',' ∨ y = ')')
    {xs ys : List Char} (h : a.repr fr ++ x :: xs = b.repr fr ++ y :: ys) : a = b ∧ x = y ∧ xs = ys := by
  have hi : ∀ n, ∀ c ∈ intRepr n, ¬ (c = ',' ∨ c = ')') := by
    intro n c hc
    rcases intRepr_chars n c hc with rfl | hd
    · decide
    · rintro (rfl | rfl) <;> revert hd <;> decide
  have hmixed : ∀ n l x xs, (x = ',' ∨ x = ')') → intRepr n ++ x :: xs ≠ '\'' :: l := by
    intro n l x xs hx h
    cases hr : intRepr n with
    | nil =>
      rw [hr] at h
      simp only [List.nil_append, List.cons.injEq] at h
      rcases hx with rfl | rfl <;> exact absurd h.1 (by decide)
    | cons c cs =>
      rw [hr] at h
      simp only [List.cons_append, List.cons.injEq] at h
      have := intRepr_chars n c (by rw [hr]; simp)
      rw [h.1] at this
      revert this
      decide
  cases a with
  | flt q => exact ha.elim
  | int m =>
    cases b with
    | flt q => exact hb.elim
    | int n =>
      obtain ⟨h1, h2⟩ := split_unique (p := fun c => c = ',' ∨ c = ')') (hi m) (hi n) hx hy h
      exact ⟨by rw [intRepr_inj h1], h2⟩
    | str s =>
      simp only [CondVal.repr, List.cons_append] at h
      exact absurd h (hmixed m _ x xs hx)
  | str s =>
    cases b with
    | flt q => exact hb.elim
    | int n =>
      simp only [CondVal.repr, List.cons_append] at h
      exact absurd h.symm (hmixed n _ y ys hy)
    | str s' =>
      simp only [CondVal.repr, List.cons_append, List.cons.injEq, List.append_assoc, List.nil_append, true_and] at h
      obtain ⟨h1, -, h2⟩ := split_unique (p := fun c => c = '\'') (fun c hc hcq => ha (hcq ▸ hc)) (fun c hc hcq => hb (hcq ▸ hc)) rfl rfl h
      simp only [List.cons.injEq] at h2
      exact ⟨by rw [h1], h2⟩

theorem joinComma_inj (fr : ℚ → List Char) : ∀ (as bs : List CondVal), (∀ a ∈ as, a.simple) → (∀ b ∈ bs, b.simple) → as ≠ [] → bs ≠ [] →
    joinComma (as.map (CondVal.repr fr)) ++ [')'] = joinComma (bs.map (CondVal.repr fr)) ++ [')'] → as = bs
  | [], _, _, _, h, _, _ => absurd rfl h
  | _ :: _, [], _, _, _, h, _ => absurd rfl h
  | [a], [b], ha, hb, _, _, h => by
    simp only [List.map_cons, List.map_nil, joinComma] at h
    rw [(repr_step fr (ha a (by simp)) (hb b (by simp)) (Or.inr rfl) (Or.inr rfl) h).1]
  | [a], b :: b' :: bs, ha, hb, _, _, h => by
    simp only [List.map_cons, List.map_nil, joinComma, List.append_assoc, List.cons_append, List.nil_append] at h
    have := (repr_step fr (ha a (by simp)) (hb b (by simp)) (Or.inr rfl) (Or.inl rfl) h).2.1
    exact absurd this (by decide)
  | a :: a' :: as, [b], ha, hb, _, _, h => by
    simp only [List.map_cons, List.map_nil, joinComma, List.append_assoc, List.cons_append, List.nil_append] at h
    have := (repr_step fr (ha a (by simp)) (hb b (by simp)) (Or.inl rfl) (Or.inr rfl) h).2.1
    exact absurd this (by decide)
  | a :: a' :: as, b :: b' :: bs, ha, hb, _, _, h => by
    have e : ∀ (c c' : CondVal) (cs : List CondVal), joinComma ((c :: c' :: cs).map (CondVal.repr fr)) ++ [')'] =
        c.repr fr ++ ',' :: ' ' :: (joinComma ((c' :: cs).map (CondVal.repr fr)) ++ [')']) := by
      intro c c' cs
      simp [joinComma]
    rw [e, e] at h
    obtain ⟨h1, -, h2⟩ := repr_step fr (ha a (by simp)) (hb b (by simp)) (Or.inl rfl) (Or.inl rfl) h
    rw [h1, joinComma_inj fr (a' :: as) (b' :: bs) (fun x hx => ha x (by simp [hx])) (fun x hx => hb x (by simp [hx])) (by simp) (by simp)
      (List.cons.inj h2).2]

theorem rowValues_simple (vs : List CondVal) (h : ∀ v ∈ vs, v.simple) : rowValues vs = vs := by
  unfold rowValues
  rw [if_neg]
  simp only [Bool.and_eq_true, List.any_eq_true, not_and, not_exists]
  intro _ v hv
  have := h v hv
  cases v <;> simp_all [CondVal.simple, CondVal.isFlt]

/-- **C86** The experiment id made of several condition columns of integers and texts tells them apart, and is the control's id
exactly for the baseline key. -/
theorem C86_expr_id_partial (fr : ℚ → List Char) (a b : List CondVal) (ha : ∀ v ∈ a, v.simple) (hb : ∀ v ∈ b, v.simple) (ha0 : a ≠ []) (hb0 : b ≠ []) :
    (exprIdText fr a = exprIdText fr b ↔ a = b) ∧ (exprIdText fr a = tupleText fr b ↔ a = b) := by
  have key : tupleText fr a = tupleText fr b ↔ a = b := by
    constructor
    · intro h
      unfold tupleText at h
      simp only [List.cons_append, List.nil_append, List.cons.injEq, true_and] at h
      exact joinComma_inj fr a b ha hb ha0 hb0 h
    · rintro rfl; rfl
  unfold exprIdText
  rw [rowValues_simple a ha, rowValues_simple b hb]
  exact ⟨key, key⟩

/-- **C86** for several condition columns of integers and texts: as `C86_shows_partial`, with the ids the code makes. -/
theorem C86_shows_columns {δ : Type} [LinearOrder δ] (fr : ℚ → List Char) (o : ShowOpts) (ho : o.showControl ≠ some false) (baseline : List CondVal)
    (base : List (BaseRow δ)) (res : List (ResultRow δ)) (t : NameTmpl) (ht : t.change)
    (hnames : ∀ b ∈ base, ∃ c, b.metric = t.format c) (hbase : (base.map BaseRow.index).Nodup) (hres : (res.map ResultRow.index).Nodup)
    (hs : ∀ x ∈ baseline :: base.map (·.cond), x ≠ [] ∧ ∀ v ∈ x, v.simple) :
    ∃ tab, displayChange o (exprIdText fr) (tupleText fr baseline) base res = some tab ∧
      ∀ b ∈ base, ∀ c d, b.metric = t.format c → b.slice = d.map some →
        ∃ cell, (⟨d, some (tupleText fr baseline), decide (b.cond = baseline), tupleText fr b.cond⟩, cell) ∈ tab ∧
          (∀ r ∈ res, r.index = b.index → cell (t.pre ++ c) = ⟨b.value, if b.cond = baseline then none else r.value, r.lower, r.upper⟩) ∧
          ((∀ r ∈ res, r.index ≠ b.index) → cell (t.pre ++ c) = ⟨b.value, none, none, none⟩) := by
  have e : ∀ x ∈ baseline :: base.map (·.cond), exprIdText fr x = tupleText fr x := by
    intro x hx
    unfold exprIdText
    rw [rowValues_simple x (hs x hx).2]
  have h := C86_shows_partial o ho (exprIdText fr) baseline base res t ht hnames hbase hres (by
    intro x hx y hy h
    exact (C86_expr_id_partial fr x y (hs x hx).2 (hs y hy).2 (hs x hx).1 (hs y hy).1).1.1 h)
  rw [e baseline (by simp)] at h
  obtain ⟨tab, h1, h2⟩ := h
  refine ⟨tab, h1, ?_⟩
  intro b hb c d hc hd
  have := h2 b hb c d hc hd
  rwa [e b.cond (by simp; exact Or.inr ⟨b, hb, rfl⟩)] at this

/-- **C86.** A row in which one condition is a text is named as its values are written, whole numbers and others together. -/
theorem C86_expr_id_text (fr : ℚ → List Char) (vs : List CondVal) (s : List Char) (h : .str s ∈ vs) : exprIdText fr vs = tupleText fr vs := by
  have : vs.all CondVal.isNum = false := by
    rw [List.all_eq_false]
    exact ⟨_, h, by simp [CondVal.isNum]⟩
  simp [exprIdText, rowValues, this]

example (fr : ℚ → List Char) (q : ℚ) : exprIdText fr [.int 1, .flt q, .str ['a']] = tupleText fr [.int 1, .flt q, .str ['a']] :=
  C86_expr_id_text fr _ ['a'] (by simp)

/-! ## What is false -/

/-- With one condition column of integers and one of floats no row is recognised as the control: in the rows the integer is written as
a float (`1.0`), in the baseline key as an integer (`1`). -/
theorem C86_violation_float (fr : ℚ → List Char) (h1 : fr 1 = ['1', '.', '0']) (q : ℚ) :
    exprIdText fr [.int 1, .flt q] ≠ tupleText fr [.int 1, .flt q] := by
  have hr : rowValues [.int 1, .flt q] = [.flt 1, .flt q] := by simp [rowValues, CondVal.isNum, CondVal.isFlt]
  have hi : intRepr 1 = ['1'] := by decide
  unfold exprIdText
  rw [hr]
  simp [tupleText, joinComma, CondVal.repr, h1, hi]

/-- Hence the control is displayed as an experiment. -/
theorem C86_violation_float_control {δ : Type} [LinearOrder δ] (fr : ℚ → List Char) (h1 : fr 1 = ['1', '.', '0']) (q : ℚ) (o : ShowOpts)
    (ho : o.showControl ≠ some false) (base : List (BaseRow δ)) (hb : ∀ b ∈ base, b.cond = [.int 1, .flt q]) (res : List (ResultRow δ)) (tab)
    (h : displayChange o (exprIdText fr) (tupleText fr [.int 1, .flt q]) base res = some tab) : ∀ p ∈ tab, p.1.isCtrl = false := by
  intro p hp
  obtain ⟨b, hbm, -, -, h4, -⟩ := C86_only o ho _ _ base res tab h p hp
  rw [h4, hb b hbm]
  simp [C86_violation_float fr h1 q]

/-- With a template that keeps the names, a metric that is called like the change of another one makes `display()` fail. -/
theorem C86_violation_template {ε δ : Type} [LinearOrder ε] [LinearOrder δ] (o : ShowOpts) (expId : List CondVal → ε) (control : ε) (x : List Char)
    (s s' : List (Option δ)) (c c' : List CondVal) (v v' : Option ℚ) (rest : List (BaseRow δ)) (res : List (ResultRow δ)) (hx : stripChange x = x) :
    displayChange o expId control (⟨x, s, c, v⟩ :: ⟨x ++ pctSuffix, s', c', v'⟩ :: rest) res = none := by
  unfold displayChange
  rw [if_neg]
  intro hn
  have hm : ∀ y, y ∈ [x, x ++ pctSuffix] →
      y ∈ ((⟨x, s, c, v⟩ :: ⟨x ++ pctSuffix, s', c', v'⟩ :: rest : List (BaseRow δ)).map (·.metric)).dedup := by
    intro y hy
    rw [List.mem_dedup, List.map_cons, List.map_cons]
    rcases List.mem_cons.1 hy with rfl | hy
    · exact List.mem_cons_self
    · rcases List.mem_cons.1 hy with rfl | hy
      · exact List.mem_cons_of_mem _ List.mem_cons_self
      · exact absurd hy (by simp)
  have := List.inj_on_of_nodup_map hn (hm x (by simp)) (hm (x ++ pctSuffix) (by simp)) (by rw [strip_pct, hx])
  have hl := congrArg List.length this
  have h15 : pctSuffix.length = 15 := by decide
  rw [List.length_append, h15] at hl
  omega

/-- Without split_by, a condition column whose name begins with `Dim_` is taken for a dimension: there is no experiment id. -/
theorem C86_violation_dim_name (fixed : List (String × String)) :
    displaySplits [some "Dim_arm"] [some "Dim_arm"] false = [] ∧
    renamed (colRename (fixed ++ [("Dim_arm", "Experiment_Id")]) true (defaultDims ["Metric", "Dim_arm", "_base_value", "Value"])) "Dim_arm" = "Dim_1" := by
  have hd : defaultDims ["Metric", "Dim_arm", "_base_value", "Value"] = ["Dim_arm"] := by
    unfold defaultDims
    have : (["Metric", "Dim_arm", "_base_value", "Value"].filter fun c : String => c.startsWith "Dim_") = ["Dim_arm"] := by decide +kernel
    rw [this, List.mergeSort_singleton]
  refine ⟨by decide, ?_⟩
  rw [hd]
  have hn : dimName 0 = "Dim_1" := by decide +kernel
  simp [colRename, renamed, dictGet, hn]

/-- The dimensions are those the caller split by, in their order, melted or not. -/
theorem C86_splits (splits condition : List String) (hs : ∀ s ∈ splits, s ∉ condition) (hne : splits ≠ [] ∨ condition ≠ []) (melted : Bool) :
    displaySplits ((if melted then [some "Metric"] else []) ++ (splits ++ condition).map some) (condition.map some) melted = splits.map some := by
  have hd : (if melted then List.drop 1 ((if melted then [some "Metric"] else []) ++ (splits ++ condition).map some)
      else (if melted then [some "Metric"] else []) ++ (splits ++ condition).map some) = (splits ++ condition).map some := by
    cases melted <;> simp
  unfold displaySplits
  rw [hd, List.map_append, List.filter_append]
  have h1 : (splits.map some).filter (fun i => decide (i ∉ condition.map some)) = splits.map some := by
    rw [List.filter_eq_self]
    intro i hi
    obtain ⟨s, hs', rfl⟩ := List.mem_map.1 hi
    simpa using hs s hs'
  have h2 : (condition.map some).filter (fun i => decide (i ∉ condition.map some)) = [] := by
    rw [List.filter_eq_nil_iff]
    intro i hi
    simp [hi]
  rw [h1, h2, List.append_nil]

/-! ## An example -/

/-- Two slices, two condition columns, one metric. -/
def exShowBase : List (BaseRow ℕ) :=
  [⟨"x Percent Change".toList, [some 7], [.int 0, .str ['a']], some 2⟩, ⟨"x Percent Change".toList, [some 7], [.int 1, .str ['b']], some 3⟩,
   ⟨"x Percent Change".toList, [some 8], [.int 0, .str ['a']], some 5⟩]
/-- The change. -/
def exShowRes : List (ResultRow ℕ) := [⟨"x Percent Change".toList, [some 7], [.int 1, .str ['b']], some 50, some 40, some 60⟩]

example (fr : ℚ → List Char) : ∃ tab, displayChange ⟨none, false⟩ (exprIdText fr) (tupleText fr [.int 0, .str ['a']]) exShowBase exShowRes = some tab ∧
    (∃ cell, (⟨[7], some "(0, 'a')".toList, false, "(1, 'b')".toList⟩, cell) ∈ tab ∧ cell ['x'] = ⟨some 3, some 50, some 40, some 60⟩) ∧
    ∃ cell, (⟨[8], some "(0, 'a')".toList, true, "(0, 'a')".toList⟩, cell) ∈ tab ∧ cell ['x'] = ⟨some 5, none, none, none⟩ := by
  have ht : tupleText fr [.int 0, .str ['a']] = "(0, 'a')".toList := by simp [tupleText, joinComma, CondVal.repr]; decide
  have ht' : tupleText fr [.int 1, .str ['b']] = "(1, 'b')".toList := by simp [tupleText, joinComma, CondVal.repr]; decide
  obtain ⟨tab, h1, h2⟩ := C86_shows_columns fr ⟨none, false⟩ (by simp) [.int 0, .str ['a']] exShowBase exShowRes ⟨[], pctSuffix⟩ (Or.inr rfl)
    (by intro b hb; refine ⟨['x'], ?_⟩; revert b; decide) (by decide) (by decide)
    (by
      intro x hx
      simp only [exShowBase, List.map_cons, List.map_nil, List.mem_cons, List.not_mem_nil, or_false] at hx
      rcases hx with rfl | rfl | rfl | rfl <;> simp [CondVal.simple])
  refine ⟨tab, h1, ?_, ?_⟩
  · obtain ⟨cell, hc, hr, -⟩ := h2 ⟨"x Percent Change".toList, [some 7], [.int 1, .str ['b']], some 3⟩ (by simp [exShowBase]) ['x'] [7] (by decide) rfl
    rw [ht, ht'] at hc
    refine ⟨cell, by simpa using hc, ?_⟩
    simpa using hr _ List.mem_cons_self rfl
  · obtain ⟨cell, hc, -, hr⟩ := h2 ⟨"x Percent Change".toList, [some 8], [.int 0, .str ['a']], some 5⟩ (by simp [exShowBase]) ['x'] [8] (by decide) rfl
    rw [ht] at hc
    refine ⟨cell, by simpa using hc, ?_⟩
    simpa using hr (by simp [exShowRes, ResultRow.index, BaseRow.index])

end Verif
