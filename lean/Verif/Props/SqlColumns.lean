import Verif.Props.SqlAlias

/-!
# C22 Selected columns have unique names and none is lost
# C23 A name always refers to the column it was given to
-/

namespace Verif

/-! ## Lemmas -/

theorem mapM_alias_mem {cols : List SCol} {as : List (Option Txt)} (h : cols.mapM SCol.alias = some as) :
    as.length = cols.length ∧ ∀ c ∈ cols, ∃ a ∈ as, c.alias = some a := by
  induction cols generalizing as with
  | nil => simp at h; subst h; simp
  | cons c cols ih =>
    rw [List.mapM_cons] at h
    cases hc : c.alias with
    | none => rw [hc] at h; cases h
    | some a =>
      cases hcs : cols.mapM SCol.alias with
      | none => rw [hc, hcs] at h; cases h
      | some as' =>
        rw [hc, hcs] at h
        cases h
        obtain ⟨h1, h2⟩ := ih hcs
        refine ⟨by simp [h1], ?_⟩
        intro d hd
        rcases List.mem_cons.1 hd with rfl | hd
        · exact ⟨a, by simp, hc⟩
        · obtain ⟨b, hb, hb'⟩ := h2 d hd
          exact ⟨b, by simp [hb], hb'⟩

theorem mapM_alias_mem' {cols : List SCol} {as : List (Option Txt)} (h : cols.mapM SCol.alias = some as) :
    ∀ a ∈ as, ∃ c ∈ cols, c.alias = some a := by
  induction cols generalizing as with
  | nil => simp at h; subst h; simp
  | cons c cols ih =>
    rw [List.mapM_cons] at h
    cases hc : c.alias with
    | none => rw [hc] at h; cases h
    | some a =>
      cases hcs : cols.mapM SCol.alias with
      | none => rw [hc, hcs] at h; cases h
      | some as' =>
        rw [hc, hcs] at h
        cases h
        intro b hb
        rcases List.mem_cons.1 hb with rfl | hb
        · exact ⟨c, by simp, hc⟩
        · obtain ⟨d, hd, hd'⟩ := ih hcs b hb
          exact ⟨d, by simp [hd], hd'⟩

theorem mapM_alias_snoc {cols : List SCol} {as : List (Option Txt)} {c : SCol} {a : Option Txt}
    (h : cols.mapM SCol.alias = some as) (hc : c.alias = some a) :
    (cols ++ [c]).mapM SCol.alias = some (as ++ [a]) := by
  rw [List.mapM_append, h]
  simp [hc]

/-- A suffixed name always exists and determines its suffix. -/
theorem suffixed_alias (c : SCol) (k : Nat) (hk : k ≠ 0) :
    ∃ b, ({ c with suffix := k } : SCol).alias = some (some b) ∧ EndsIn (Nat.toDigits 10 k) b := by
  have hd : ∀ x ∈ Nat.toDigits 10 k, x.isDigit :=
    fun x hx => Nat.isDigit_of_mem_toDigits (by decide) (by decide) hx
  have hne : Nat.toDigits 10 k ≠ [] := Nat.toDigits_ne_nil
  unfold SCol.alias
  simp only [hk, if_false]
  cases hds : Nat.toDigits 10 k with
  | nil => exact absurd hds hne
  | cons d ds =>
    have h1 := hd d (by rw [hds]; simp)
    have h2 : d ∉ specialChars := by
      intro h
      have : ∀ x ∈ specialChars, x.isDigit = false := by decide
      rw [this d h] at h1; cases h1
    have h3 : d ≠ '_' := by rintro rfl; revert h1; decide
    obtain ⟨b, hb, _⟩ := C21_defined (c.raw.getD "None".toList ++ '_' :: d :: ds) d (by simp) h2 h3
    refine ⟨b, by rw [hb]; rfl, ?_⟩
    exact escape_suffix _ _ b (by simp) (by rw [← hds]; exact hd) hb

theorem suffixed_inj {c : SCol} {k k' : Nat} (hk : k ≠ 0) (hk' : k' ≠ 0) {a : Option Txt}
    (h : ({ c with suffix := k } : SCol).alias = some a)
    (h' : ({ c with suffix := k' } : SCol).alias = some a) : k = k' := by
  obtain ⟨b, hb, he⟩ := suffixed_alias c k hk
  obtain ⟨b', hb', he'⟩ := suffixed_alias c k' hk'
  rw [hb] at h; rw [hb'] at h'
  cases h
  cases h'
  have := endsIn_inj he he'
    (fun x hx => Nat.isDigit_of_mem_toDigits (by decide) (by decide) hx)
    (fun x hx => Nat.isDigit_of_mem_toDigits (by decide) (by decide) hx)
  have h2 := congrArg (fun ds => Nat.ofDigitChars 10 ds 0) this
  simpa [Nat.ofDigitChars_ten_toDigits] using h2

/-- If the loop runs out of fuel, all the names tried were taken. -/
theorem addCol_none {cols : List SCol} {as : List (Option Txt)} (hcols : cols.mapM SCol.alias = some as) :
    ∀ (fuel : Nat) (c : SCol), c.alias ≠ none → addCol cols fuel c = none →
      ∀ i < fuel, ∃ a ∈ as, ({ c with suffix := c.suffix + i } : SCol).alias = some a := by
  intro fuel
  induction fuel with
  | zero => intro c _ _ i hi; omega
  | succ fuel ih =>
    intro c hc h i hi
    rw [addCol] at h
    cases ha : c.alias with
    | none => exact absurd ha hc
    | some a =>
      rw [ha, hcols] at h
      simp only at h
      split at h
      · cases h
      · split at h
        · cases h
        · rename_i hmem
          rw [not_not] at hmem
          cases i with
          | zero => exact ⟨a, hmem, by simpa using ha⟩
          | succ i =>
            have hs : ({ c with suffix := c.suffix + 1 } : SCol).alias ≠ none := by
              obtain ⟨b, hb, _⟩ := suffixed_alias c (c.suffix + 1) (by omega)
              rw [hb]; simp
            obtain ⟨a', h1, h2⟩ := ih _ hs h i (by omega)
            refine ⟨a', h1, ?_⟩
            simp only at h2
            rw [show c.suffix + (i + 1) = c.suffix + 1 + i by omega]
            exact h2

/-- **C22** Adding a column always ends: the search for a free suffix tries at most
`n + 2` names if there are `n` columns. (The result is `none` only if a name raises.) -/
theorem C22_add_terminates (cols : List SCol) (c : SCol) (hcols : (aliasesOf cols).isSome)
    (hc : c.alias ≠ none) : (addColumn cols c).isSome := by
  by_contra hn
  rw [Option.not_isSome_iff_eq_none] at hn
  obtain ⟨as, has⟩ := Option.isSome_iff_exists.1 hcols
  unfold aliasesOf at has
  have key := addCol_none has (cols.length + 2) c hc hn
  have hlen := (mapM_alias_mem has).1
  -- n + 1 different names among n
  choose f hf1 hf2 using fun i : Fin (cols.length + 1) => key (i + 1) (by omega)
  have hinj : Function.Injective f := by
    intro i j hij
    have h1 := hf2 i
    have h2 := hf2 j
    rw [hij] at h1
    have := suffixed_inj (c := c) (by omega) (by omega) h1 h2
    apply Fin.ext
    omega
  have h3 : (List.ofFn f).Nodup := List.nodup_ofFn.2 hinj
  have h4 : (List.ofFn f) ⊆ as := by
    intro x hx
    obtain ⟨i, rfl⟩ := List.mem_ofFn.1 hx
    exact hf1 i
  have h5 := (h3.subperm h4).length_le
  rw [List.length_ofFn, hlen] at h5
  omega

/-- What one `add` does. -/
theorem addCol_spec {cols : List SCol} : ∀ (fuel : Nat) (c : SCol) (cols' : List SCol) (c' : SCol),
    addCol cols fuel c = some (cols', c') →
    (cols' = cols ∧ ∃ f fs, getAlias cols c.expr = some (f :: fs) ∧ c' = { c with raw := some (f :: fs) }) ∨
    ((∀ f fs, getAlias cols c.expr ≠ some (f :: fs)) ∧ cols' = cols ++ [c'] ∧
      (∃ k, c.suffix ≤ k ∧ c' = { c with suffix := k }) ∧
      ∃ a as, c'.alias = some a ∧ cols.mapM SCol.alias = some as ∧ a ∉ as) := by
  intro fuel
  induction fuel with
  | zero => intro c cols' c' h; cases h
  | succ fuel ih =>
    intro c cols' c' h
    rw [addCol] at h
    cases ha : c.alias with
    | none => rw [ha] at h; cases h
    | some a =>
      rw [ha] at h
      simp only at h
      split at h
      · rename_i f fs hg
        cases h
        exact Or.inl ⟨rfl, f, fs, hg, rfl⟩
      · rename_i hg
        right
        cases has : cols.mapM SCol.alias with
        | none => rw [has] at h; cases h
        | some as =>
          rw [has] at h
          simp only at h
          split at h
          · rename_i hmem
            cases h
            exact ⟨fun f fs => hg f fs, rfl, ⟨c.suffix, le_refl _, rfl⟩, a, as, ha, rfl, hmem⟩
          · rcases ih _ _ _ h with ⟨_, f, fs, hg', _⟩ | ⟨h1, h2, ⟨k, hk, h3⟩, h4⟩
            · exact absurd hg' (hg f fs)
            · rw [has] at h4
              exact ⟨fun f fs => hg f fs, h2, ⟨k, by simp at hk; omega, h3⟩, h4⟩

theorem getAlias_named {cols : List SCol} (hn : ∀ d ∈ cols, d.named) (e : Txt) :
    (∀ f fs, getAlias cols e ≠ some (f :: fs)) ↔ e ∉ cols.map SCol.expr := by
  unfold getAlias
  cases hf : cols.find? (fun c => c.expr == e) with
  | none =>
    simp only [reduceCtorEq, ne_eq, not_false_eq_true, implies_true, true_iff]
    intro h
    obtain ⟨d, hd, rfl⟩ := List.mem_map.1 h
    have := List.find?_eq_none.1 hf d hd
    simp at this
  | some d =>
    obtain ⟨f, fs, hd⟩ := hn d (List.mem_of_find?_eq_some hf)
    simp only [hd]
    constructor
    · intro h; exact absurd rfl (h f fs)
    · intro h
      refine absurd (List.mem_map.2 ⟨d, List.mem_of_find?_eq_some hf, ?_⟩) h
      simpa using List.find?_some hf

/-! ## C22 -/

/-- Unique names, unique expressions. -/
structure ColsOk (cols : List SCol) : Prop where
  named : ∀ d ∈ cols, d.named
  exprs : (cols.map SCol.expr).Nodup
  aliases : ∃ as, aliasesOf cols = some as ∧ as.Nodup

theorem ColsOk.nil : ColsOk [] := ⟨by simp, by simp, [], rfl, by simp⟩

theorem addColumn_ok {cols cols' : List SCol} {c c' : SCol} (hok : ColsOk cols) (hc : c.named)
    (h : addColumn cols c = some (cols', c')) :
    ColsOk cols' ∧ cols <+: cols' ∧ c.expr ∈ cols'.map SCol.expr ∧ c'.expr = c.expr ∧
      ∀ d ∈ cols', d ∈ cols ∨ d.expr = c.expr := by
  unfold addColumn at h
  rcases addCol_spec _ _ _ _ h with ⟨rfl, f, fs, hg, rfl⟩ | ⟨hg, rfl, ⟨k, _, hk⟩, a, as, ha, has, hmem⟩
  · refine ⟨hok, List.prefix_rfl, ?_, rfl, fun d hd => Or.inl hd⟩
    by_contra hn
    exact (getAlias_named hok.named c.expr).2 hn f fs hg
  · have hn := (getAlias_named hok.named c.expr).1 hg
    have hce : c'.expr = c.expr := by rw [hk]
    refine ⟨⟨?_, ?_, as ++ [a], mapM_alias_snoc has ha, ?_⟩, List.prefix_append _ _, by simp [hce], hce, ?_⟩
    · intro d hd
      rcases List.mem_append.1 hd with hd | hd
      · exact hok.named d hd
      · rw [List.mem_singleton.1 hd, hk]; exact hc
    · rw [List.map_append, List.map_singleton, hce]
      exact List.nodup_append.2 ⟨hok.exprs, by simp, by
        intro x hx y hy hxy
        rw [List.mem_singleton.1 hy] at hxy
        exact hn (hxy ▸ hx)⟩
    · obtain ⟨as', has', hnd⟩ := hok.aliases
      unfold aliasesOf at has'
      rw [has] at has'
      cases has'
      exact List.nodup_append.2 ⟨hnd, by simp, by
        intro x hx y hy hxy
        rw [List.mem_singleton.1 hy] at hxy
        exact hmem (hxy ▸ hx)⟩
    · intro d hd
      rcases List.mem_append.1 hd with hd | hd
      · exact Or.inl hd
      · rw [List.mem_singleton.1 hd]; exact Or.inr hce

theorem addColumns_ok (cs : List SCol) : ∀ (cols cols' : List SCol) (cs' : List SCol), ColsOk cols →
  (∀ c ∈ cs, c.named) → addColumns cols cs = some (cols', cs') →
  ColsOk cols' ∧ cols <+: cols' ∧ (∀ c ∈ cs, c.expr ∈ cols'.map SCol.expr) ∧
    (∀ d ∈ cols', d ∈ cols ∨ d.expr ∈ cs.map SCol.expr) := by
  induction cs with
  | nil =>
    intro cols cols' cs' hok _ h
    cases h
    exact ⟨hok, List.prefix_rfl, by simp, fun d hd => Or.inl hd⟩
  | cons c cs ih =>
    intro cols cols' cs' hok hn h
    rw [addColumns] at h
    cases h1 : addColumn cols c with
    | none => rw [h1] at h; cases h
    | some p =>
      obtain ⟨cols1, c1⟩ := p
      cases h2 : addColumns cols1 cs with
      | none => rw [h1] at h; simp [h2] at h
      | some q =>
        obtain ⟨cols2, cs2⟩ := q
        rw [h1] at h
        simp only [h2, Option.bind_eq_bind, Option.bind_some, Option.pure_def, Option.some.injEq,
          Prod.mk.injEq] at h
        obtain ⟨rfl, _⟩ := h
        obtain ⟨a1, a2, a3, a4, a5⟩ := addColumn_ok hok (hn c (by simp)) h1
        obtain ⟨b1, b2, b3, b4⟩ := ih cols1 cols2 cs2 a1 (fun c hc => hn c (by simp [hc])) h2
        refine ⟨b1, a2.trans b2, ?_, ?_⟩
        · intro d hd
          rcases List.mem_cons.1 hd with rfl | hd
          · obtain ⟨t, rfl⟩ := b2
            rw [List.map_append]
            exact List.mem_append_left _ a3
          · exact b3 d hd
        · intro d hd
          rcases b4 d hd with hd | hd
          · rcases a5 d hd with hd | hd
            · exact Or.inl hd
            · exact Or.inr (by simp [hd])
          · exact Or.inr (by simp only [List.map_cons, List.mem_cons]; exact Or.inr hd)

/-- **C22** However named columns are added to columns with unique names and expressions (in
particular to none): names and expressions stay unique, the earlier columns stay first in their order, each
added expression is selected, and nothing else is.
Missing: columns without a name (next theorem). -/
theorem C22_columns_partial (cs : List SCol) : ∀ (cols cols' : List SCol) (cs' : List SCol), ColsOk cols →
    (∀ c ∈ cs, c.named) → addColumns cols cs = some (cols', cs') →
    (∃ as, aliasesOf cols' = some as ∧ as.Nodup) ∧ (cols'.map SCol.expr).Nodup ∧ cols <+: cols' ∧
      (∀ c ∈ cs, c.expr ∈ cols'.map SCol.expr) ∧
      (∀ d ∈ cols', d ∈ cols ∨ d.expr ∈ cs.map SCol.expr) := by
  intro cols cols' cs' hok hn h
  obtain ⟨b1, b2, b3, b4⟩ := addColumns_ok cs cols cols' cs' hok hn h
  exact ⟨b1.aliases, b1.exprs, b2, b3, b4⟩

/-- **C22** (violated for columns without a name, `auto_alias=False`): the same expression is
selected twice, the second time under the name `None_1`. -/
theorem C22_unnamed_violation :
    addColumns [] [⟨"* EXCEPT (x)".toList, none, 0⟩, ⟨"* EXCEPT (x)".toList, none, 0⟩]
      = some ([⟨"* EXCEPT (x)".toList, none, 0⟩, ⟨"* EXCEPT (x)".toList, none, 1⟩],
        [⟨"* EXCEPT (x)".toList, none, 0⟩, ⟨"* EXCEPT (x)".toList, none, 1⟩]) ∧
    (⟨"* EXCEPT (x)".toList, none, 1⟩ : SCol).alias = some (some "None_1".toList) := by
  decide

/-- The hypotheses are met; three columns named `x` or like it, one added twice. -/
example : ColsOk [] ∧ (∀ c ∈ [(⟨"SUM(a)".toList, some "x".toList, 0⟩ : SCol),
      ⟨"SUM(b)".toList, some "x".toList, 0⟩, ⟨"SUM(a)".toList, some "y".toList, 0⟩], c.named) ∧
    addColumns [] [⟨"SUM(a)".toList, some "x".toList, 0⟩, ⟨"SUM(b)".toList, some "x".toList, 0⟩,
      ⟨"SUM(a)".toList, some "y".toList, 0⟩]
    = some ([⟨"SUM(a)".toList, some "x".toList, 0⟩, ⟨"SUM(b)".toList, some "x".toList, 1⟩],
      [⟨"SUM(a)".toList, some "x".toList, 0⟩, ⟨"SUM(b)".toList, some "x".toList, 1⟩,
       ⟨"SUM(a)".toList, some "x".toList, 0⟩]) := by
  refine ⟨ColsOk.nil, ?_, by decide⟩
  intro c hc
  simp only [List.mem_cons, List.not_mem_nil, or_false] at hc
  rcases hc with rfl | rfl | rfl <;> exact ⟨_, _, rfl⟩

/-! ## C23 -/

/-- **C23** (violated) `SUM(a)` and `SUM(b)` are both added as `x`; the second is selected as
`x_1`. Another column object with the expression `SUM(b)` is then told that its name is `x`, which
is the name of `SUM(a)`. -/
theorem C23_violation :
    ∃ cols, addColumns [] [⟨"SUM(a)".toList, some "x".toList, 0⟩, ⟨"SUM(b)".toList, some "x".toList, 0⟩]
        = some (cols, cols) ∧
      ∃ cols' c', addColumn cols ⟨"SUM(b)".toList, some "x".toList, 0⟩ = some (cols', c') ∧
        c'.alias = some (some "x".toList) ∧
        SelectedAs cols' "SUM(a)".toList (some "x".toList) ∧
        ¬ SelectedAs cols' "SUM(b)".toList (some "x".toList) := by
  refine ⟨[⟨"SUM(a)".toList, some "x".toList, 0⟩, ⟨"SUM(b)".toList, some "x".toList, 1⟩], by decide,
    [⟨"SUM(a)".toList, some "x".toList, 0⟩, ⟨"SUM(b)".toList, some "x".toList, 1⟩],
    ⟨"SUM(b)".toList, some "x".toList, 0⟩, by decide, by decide, by unfold SelectedAs; decide,
    by unfold SelectedAs; decide⟩

/-- **C23** (partial) The column gets the name its expression is selected under if it is new, and
also if it is not new but the column with its expression carries no suffix (and it has none itself).
Missing: expressions already selected under a suffixed name, for which it is false (above). -/
theorem C23_name_partial (cols cols' : List SCol) (c c' : SCol) (hn : ∀ d ∈ cols, d.named)
    (h : addColumn cols c = some (cols', c'))
    (hs : (c.suffix = 0 ∧ ∀ d ∈ cols, d.expr = c.expr → d.suffix = 0 ∧ d.alias ≠ none) ∨
      c.expr ∉ cols.map SCol.expr) :
    ∃ a, c'.alias = some a ∧ SelectedAs cols' c.expr a := by
  unfold addColumn at h
  rcases addCol_spec _ _ _ _ h with ⟨rfl, f, fs, hg, rfl⟩ | ⟨hg, rfl, ⟨k, _, hk⟩, a, as, ha, has, hmem⟩
  · rcases hs with ⟨hs1, hs2⟩ | hs
    · unfold getAlias at hg
      cases hf : cols'.find? (fun d => d.expr == c.expr) with
      | none => rw [hf] at hg; cases hg
      | some d =>
        rw [hf] at hg
        simp only at hg
        have hd := List.mem_of_find?_eq_some hf
        have hde : d.expr = c.expr := by simpa using List.find?_some hf
        obtain ⟨hds, hda⟩ := hs2 d hd hde
        have hal : ({ c with raw := some (f :: fs) } : SCol).alias = d.alias := by
          unfold SCol.alias
          simp only [hs1, hds, hg]
        cases hx : d.alias with
        | none => exact absurd hx hda
        | some a => exact ⟨a, by rw [hal, hx], d, hd, hde, hx⟩
    · exact absurd hg ((getAlias_named hn c.expr).2 hs f fs)
  · exact ⟨a, ha, c', by simp, by rw [hk], ha⟩

/-- **C23** If different expressions come with different names, then in every sequence of additions
every column ends up with the name its expression is selected under. -/
theorem C23_no_conflict_partial (cs : List SCol) :
    ∀ (cols cols' cs' : List SCol), (∀ c ∈ cols ++ cs, c.named ∧ c.suffix = 0 ∧ c.alias ≠ none) →
    (∀ c ∈ cols ++ cs, ∀ d ∈ cols ++ cs, c.alias = d.alias → c.expr = d.expr) →
    (cols.map SCol.expr).Nodup →
    addColumns cols cs = some (cols', cs') →
    List.Forall₂ (fun c c' => ∃ a, c'.alias = some a ∧ SelectedAs cols' c.expr a) cs cs' := by
  induction cs with
  | nil => intro cols cols' cs' _ _ _ h; cases h; exact .nil
  | cons c cs ih =>
    intro cols cols' cs' hn hd hnd h
    rw [addColumns] at h
    cases h1 : addColumn cols c with
    | none => rw [h1] at h; cases h
    | some p =>
      obtain ⟨cols1, c1⟩ := p
      cases h2 : addColumns cols1 cs with
      | none => rw [h1] at h; simp [h2] at h
      | some q =>
        obtain ⟨cols2, cs2⟩ := q
        rw [h1] at h
        simp only [h2, Option.bind_eq_bind, Option.bind_some, Option.pure_def, Option.some.injEq,
          Prod.mk.injEq] at h
        obtain ⟨rfl, rfl⟩ := h
        have hncols : ∀ d ∈ cols, d.named := fun d hd => (hn d (by simp [hd])).1
        -- the next list of columns has no suffix either
        have hcols1 : (cols1 = cols ∨ cols1 = cols ++ [c]) ∧ (cols1.map SCol.expr).Nodup := by
          have h1' := h1
          unfold addColumn at h1'
          rw [addCol] at h1'
          cases ha : c.alias with
          | none => exact absurd ha (hn c (by simp)).2.2
          | some a =>
            rw [ha] at h1'
            simp only at h1'
            split at h1'
            · cases h1'; exact ⟨Or.inl rfl, hnd⟩
            · rename_i hg
              have hnew := (getAlias_named hncols c.expr).1 (fun f fs => hg f fs)
              cases has : cols.mapM SCol.alias with
              | none => rw [has] at h1'; cases h1'
              | some as =>
                rw [has] at h1'
                simp only at h1'
                split at h1'
                · cases h1'
                  refine ⟨Or.inr rfl, ?_⟩
                  rw [List.map_append]
                  exact List.nodup_append.2 ⟨hnd, by simp, by
                    intro x hx y hy hxy
                    rw [List.map_singleton, List.mem_singleton] at hy
                    rw [hxy, hy] at hx
                    exact hnew hx⟩
                · rename_i hmem
                  rw [not_not] at hmem
                  obtain ⟨d, hdm, hda⟩ := mapM_alias_mem' has a hmem
                  have := hd d (by simp [hdm]) c (by simp) (by rw [hda, ha])
                  exact absurd (List.mem_map.2 ⟨d, hdm, this⟩) hnew
        have hsub : ∀ d ∈ cols1 ++ cs, d ∈ cols ++ c :: cs := by
          intro d hd
          rcases List.mem_append.1 hd with hd | hd
          · rcases hcols1.1 with h0 | h0 <;> rw [h0] at hd
            · simp [hd]
            · rcases List.mem_append.1 hd with hd | hd
              · simp [hd]
              · simp [List.mem_singleton.1 hd]
          · simp [hd]
        have hrest := ih cols1 cols2 cs2 (fun d hd => hn d (hsub d hd))
          (fun a ha b hb => hd a (hsub a ha) b (hsub b hb)) hcols1.2 h2
        refine .cons ?_ hrest
        obtain ⟨a, ha, d, hdm, hde, hda⟩ := C23_name_partial cols cols1 c c1 hncols h1
          (Or.inl ⟨(hn c (by simp)).2.1, fun d hd _ => ⟨(hn d (by simp [hd])).2.1, (hn d (by simp [hd])).2.2⟩⟩)
        refine ⟨a, ha, d, ?_, hde, hda⟩
        have hpre : ∀ (cs cols cols' cs' : List SCol), addColumns cols cs = some (cols', cs') →
            cols <+: cols' := by
          intro cs
          induction cs with
          | nil => intro cols cols' cs' h; cases h; exact List.prefix_rfl
          | cons c cs ih =>
            intro cols cols' cs' h
            rw [addColumns] at h
            cases h1 : addColumn cols c with
            | none => rw [h1] at h; cases h
            | some p =>
              cases h2 : addColumns p.1 cs with
              | none => rw [h1] at h; simp [h2] at h
              | some q =>
                rw [h1] at h
                simp only [h2, Option.bind_eq_bind, Option.bind_some, Option.pure_def,
                  Option.some.injEq, Prod.mk.injEq] at h
                rw [← h.1]
                refine List.IsPrefix.trans ?_ (ih _ _ _ h2)
                unfold addColumn at h1
                rcases addCol_spec _ _ _ _ h1 with ⟨h3, _⟩ | ⟨_, h3, _⟩ <;> rw [h3]
                exact List.prefix_append _ _
        exact (hpre cs cols1 cols2 cs2 h2).subset hdm

/-- The hypotheses are met. -/
example : (∀ c ∈ [] ++ [(⟨"SUM(a)".toList, some "sum(a)".toList, 0⟩ : SCol),
      ⟨"SUM(b)".toList, some "x".toList, 0⟩, ⟨"SUM(a)".toList, some "y".toList, 0⟩],
      c.named ∧ c.suffix = 0 ∧ c.alias ≠ none) ∧
    (∀ c ∈ [] ++ [(⟨"SUM(a)".toList, some "sum(a)".toList, 0⟩ : SCol),
      ⟨"SUM(b)".toList, some "x".toList, 0⟩, ⟨"SUM(a)".toList, some "y".toList, 0⟩],
      ∀ d ∈ [] ++ [(⟨"SUM(a)".toList, some "sum(a)".toList, 0⟩ : SCol),
      ⟨"SUM(b)".toList, some "x".toList, 0⟩, ⟨"SUM(a)".toList, some "y".toList, 0⟩],
      c.alias = d.alias → c.expr = d.expr) := by
  constructor
  · intro c hc
    simp only [List.nil_append, List.mem_cons, List.not_mem_nil, or_false] at hc
    rcases hc with rfl | rfl | rfl <;> exact ⟨⟨_, _, rfl⟩, rfl, by decide⟩
  · decide

end Verif
