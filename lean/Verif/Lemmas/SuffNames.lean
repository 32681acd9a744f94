import Verif.Lemmas.Suff

namespace Verif

/-- The names of the statistics, taken apart. -/
inductive SN where
  | x (i : ℕ) | xx (i j : ℕ) | y | xy (i : ℕ) | n

def SN.text : SN → List Char
  | .x i => nmX i
  | .xx i j => nmXX i j
  | .y => nmY
  | .xy i => nmXY i
  | .n => nmN

theorem digits_isDigit (i : ℕ) : ∀ c ∈ Nat.toDigits 10 i, c.isDigit = true :=
  fun _ hc => Nat.isDigit_of_mem_toDigits (by norm_num) (by norm_num) hc

theorem digits_inj {i j : ℕ} (h : Nat.toDigits 10 i = Nat.toDigits 10 j) : i = j := by
  have := congrArg (fun l => Nat.ofDigitChars 10 l 0) h
  simpa using this

theorem parseInt_digits (i : ℕ) : parseInt (Nat.toDigits 10 i) = some i := by
  have : (Nat.toDigits 10 i).all Char.isDigit = true := by
    rw [List.all_eq_true]; exact digits_isDigit i
  simp [parseInt, this]

/-- Digits followed by something that does not begin with a digit can be taken apart. -/
theorem digits_append_inj {i j : ℕ} {r s : List Char} (hr : ∀ c ∈ r.head?, c.isDigit = false)
    (hs : ∀ c ∈ s.head?, c.isDigit = false) (h : Nat.toDigits 10 i ++ r = Nat.toDigits 10 j ++ s) : i = j ∧ r = s := by
  have key : ∀ (i : ℕ) (r : List Char), (∀ c ∈ r.head?, c.isDigit = false) →
      (Nat.toDigits 10 i ++ r).takeWhile Char.isDigit = Nat.toDigits 10 i := by
    intro i r hr
    rw [List.takeWhile_append_of_pos (digits_isDigit i)]
    cases r with
    | nil => simp
    | cons c r => simp [hr c (by simp)]
  have h1 := key i r hr
  rw [h, key j s hs] at h1
  have hij := digits_inj h1
  subst hij
  exact ⟨rfl, List.append_cancel_left h⟩

theorem SN.text_inj {a b : SN} (h : a.text = b.text) : a = b := by
  have e : ∀ i, nmX i = 'x' :: (Nat.toDigits 10 i ++ []) := fun i => by simp [nmX]
  cases a <;> cases b <;> simp only [SN.text, e, nmXX, nmY, nmXY, nmN, List.cons.injEq, true_and] at h
  all_goals first
    | rfl
    | exact absurd h.1 (by decide)
    | (have hh := digits_append_inj (by simp) (by simp) h
       first
         | (obtain ⟨rfl, _⟩ := hh; rfl)
         | (obtain ⟨rfl, hh⟩ := hh
            first
              | (simp only [List.cons.injEq, true_and] at hh; obtain rfl := digits_inj hh; rfl)
              | simp at hh))

end Verif

namespace Verif

noncomputable def SN.val (rows : List RegRow) : SN → ℝ
  | .x i => avg rows fun r => r.x i
  | .xx i j => avg rows fun r => r.x i * r.x j
  | .y => avg rows fun r => r.y
  | .xy i => avg rows fun r => r.x i * r.y
  | .n => rows.length

def suffSN (k : ℕ) (fit nobs : Bool) : List SN :=
  (if fit then (List.range k).map SN.x else []) ++ ((triu k).map fun p => SN.xx p.1 p.2) ++ (if fit then [SN.y] else []) ++
  ((List.range k).map SN.xy) ++ (if nobs then [SN.n] else [])

theorem suffStats_eq (k : ℕ) (fit nobs : Bool) (rows : List RegRow) :
    suffStats k fit nobs rows = (suffSN k fit nobs).map fun s => (s.text, s.val rows) := by
  cases fit <;> cases nobs <;>
    simp [suffStats, suffSN, SN.text, SN.val, Function.comp_def]

theorem nodup_suffSN (k : ℕ) (fit nobs : Bool) : (suffSN k fit nobs).Nodup := by
  have h1 : ((List.range k).map SN.x).Nodup := List.nodup_range.map fun a b h => by simpa using h
  have h2 : ((List.range k).map SN.xy).Nodup := List.nodup_range.map fun a b h => by simpa using h
  have h3 : ((triu k).map fun p => SN.xx p.1 p.2).Nodup := (nodup_triu k).map fun a b h => by
    simp only [SN.xx.injEq] at h; exact Prod.ext h.1 h.2
  cases fit <;> cases nobs <;>
    simp only [suffSN, Bool.false_eq_true, if_false, if_true, List.nil_append, List.append_nil, List.nodup_append, h1, h2, h3,
      List.mem_append, List.mem_map, List.mem_range, List.mem_singleton, List.nodup_singleton, true_and, and_true] <;>
    (try constructor) <;> (try constructor) <;> (try constructor) <;> aesop

theorem filter_nodup {K : Type} {l : List SN} (hl : l.Nodup) (g : SN → K) {s : SN} (hs : s ∈ l) :
    ((l.map fun s => (s.text, g s)).filter fun p => p.1 == s.text).map (·.2) = [g s] := by
  induction l with
  | nil => simp at hs
  | cons a l ih =>
    rw [List.nodup_cons] at hl
    by_cases he : a = s
    · subst he
      have : ((l.map fun s => (s.text, g s)).filter fun p => p.1 == a.text) = [] := by
        rw [List.filter_eq_nil_iff]
        intro p hp
        rw [List.mem_map] at hp
        obtain ⟨t, ht, rfl⟩ := hp
        simp only [beq_iff_eq]
        intro e
        rw [SN.text_inj e] at ht
        exact hl.1 ht
      simp [this]
    · have hne : ¬ a.text = s.text := fun e => he (SN.text_inj e)
      have hs' : s ∈ l := by
        rcases List.mem_cons.1 hs with h | h
        · exact absurd h.symm he
        · exact h
      simpa [hne] using ih hl.2 hs'

/-- Looking up names of the statistics in a row of statistics with other columns before it. -/
theorem loc_suff {K : Type} (pre : Series K) {l : List SN} (hl : l.Nodup) (g : SN → K) (names : List SN)
    (hn : ∀ s ∈ names, s ∈ l) (hp : ∀ s ∈ names, s.text ∉ pre.map (·.1)) :
    Series.loc (pre ++ l.map fun s => (s.text, g s)) (names.map SN.text) = some (names.map g) := by
  have hany : ((names.map SN.text).all fun c => (pre ++ l.map fun s => (s.text, g s)).any fun p => p.1 == c) = true := by
    simp only [List.all_eq_true, List.any_eq_true, List.mem_map]
    rintro c ⟨s, hs, rfl⟩
    exact ⟨(s.text, g s), List.mem_append.2 (Or.inr (List.mem_map.2 ⟨s, hn s hs, rfl⟩)), by simp⟩
  rw [Series.loc, if_pos hany, Option.some.injEq, List.flatMap_map]
  have : ∀ names : List SN, (∀ s ∈ names, s ∈ l) → (∀ s ∈ names, s.text ∉ pre.map (·.1)) →
      (names.flatMap fun s => ((pre ++ l.map fun s => (s.text, g s)).filter fun p => p.1 == s.text).map (·.2)) = names.map g := by
    intro names
    induction names with
    | nil => intros; rfl
    | cons a t ih =>
      intro h1 h2
      rw [List.flatMap_cons, ih (fun s hs => h1 s (by simp [hs])) (fun s hs => h2 s (by simp [hs])), List.filter_append,
        List.map_append, filter_nodup hl g (h1 a (by simp))]
      have : (pre.filter fun p => p.1 == a.text) = [] := by
        rw [List.filter_eq_nil_iff]
        intro p hp
        simp only [beq_iff_eq]
        intro e
        exact h2 a (by simp) (List.mem_map.2 ⟨p, hp, e⟩)
      simp [this]
  exact this names hn hp

end Verif
