import Verif.Model.SqlAlias
import Mathlib.Data.List.Nodup
import Mathlib.Data.List.Dedup
import Mathlib.Data.Finset.Card
import Mathlib.Data.Fintype.Card
import Mathlib.Tactic.Linarith

namespace Verif

theorem escChar_plain (c : Char) (hns : c ∉ specialChars) : escChar c = [c] := by
  unfold escChar
  have hs : ∀ x, x ∈ specialChars → c ≠ x := fun x hx h => hns (h ▸ hx)
  rw [if_neg (hs _ (by decide)), if_neg (hs _ (by decide)), if_neg (hs _ (by decide)),
    if_neg (hs _ (by decide)), if_neg (hs _ (by decide)), if_neg (hs _ (by decide)),
    if_neg (hs _ (by decide)), if_neg (hs _ (by decide)), if_neg (hs _ (by decide)),
    if_neg (hs _ (by decide)), if_neg (hs _ (by decide)), if_neg (hs _ (by decide)),
    if_neg (hs _ (by decide)), if_neg (hs _ (by decide)), if_neg hns]

theorem esc_no_special (c d : Char) (hd : d ∈ escChar c) : d ∉ specialChars := by
  by_cases hc : c ∈ specialChars
  · have : ∀ c ∈ specialChars, ∀ d ∈ escChar c, d ∉ specialChars := by decide
    exact this c hc d hd
  · rw [escChar_plain c hc, List.mem_singleton] at hd
    rw [hd]; exact hc

theorem replUU_subset : ∀ (s : Txt) (c : Char), c ∈ replUU s → c ∈ s
  | [], c, h => by simp [replUU] at h
  | [a], c, h => by simpa [replUU] using h
  | a :: b :: t, c, h => by
      rw [replUU] at h
      split at h
      · rename_i hab
        rcases List.mem_cons.1 h with h | h
        · rw [h, hab.1]; simp
        · have := replUU_subset t c h; simp [this]
      · rcases List.mem_cons.1 h with h | h
        · rw [h]; simp
        · have := replUU_subset (b :: t) c h
          exact List.mem_cons_of_mem _ this

theorem stripC_subset (ch : Char) (s : Txt) (c : Char) (h : c ∈ stripC ch s) : c ∈ s := by
  unfold stripC at h
  have h1 := (List.dropWhile_sublist _).subset (List.mem_reverse.1 h)
  exact (List.dropWhile_sublist _).subset (List.mem_reverse.1 h1)

/-- The escaped text before the check for a digit. -/
def escBody (a : Txt) : Txt := replUU (stripC ' ' (stripC '_' (a.flatMap escChar)))

theorem escBody_no_special (a : Txt) (c : Char) (h : c ∈ escBody a) : c ∉ specialChars := by
  have h1 := stripC_subset _ _ _ (stripC_subset _ _ _ (replUU_subset _ _ h))
  obtain ⟨x, _, hx⟩ := List.mem_flatMap.1 h1
  exact esc_no_special x c hx

theorem escapeAlias_eq (a : Txt) : escapeAlias a =
    if a = [] ∨ ∀ c ∈ specialChars, c ∉ a then some a
    else match escBody a with
      | [] => none
      | d :: t => if d.isDigit then some ("col_".toList ++ d :: t) else some (d :: t) := by
  unfold escapeAlias escBody
  split
  · rfl
  · simp only
    split <;> simp_all

/-- Trailing digits after an underscore. -/
def EndsIn (ds b : Txt) : Prop := ∃ X, b = X ++ '_' :: ds

theorem endsIn_inj {ds ds' b : Txt} (h : EndsIn ds b) (h' : EndsIn ds' b)
    (hd : ∀ c ∈ ds, c.isDigit) (hd' : ∀ c ∈ ds', c.isDigit) : ds = ds' := by
  obtain ⟨X, rfl⟩ := h
  obtain ⟨X', h⟩ := h'
  have key : ∀ (X ds : Txt), (∀ c ∈ ds, c.isDigit) →
      (X ++ '_' :: ds).reverse.takeWhile Char.isDigit = ds.reverse := by
    intro X ds hd
    rw [List.reverse_append, List.reverse_cons, List.append_assoc,
      List.takeWhile_append_of_pos (fun c hc => hd c (List.mem_reverse.1 hc))]
    have : '_'.isDigit = false := by decide
    simp [this]
  have h1 := key X ds hd
  rw [h, key X' ds' hd'] at h1
  exact (List.reverse_injective h1).symm

theorem replUU_endsIn (ds : Txt) (hd : '_' ∉ ds) :
    ∀ (n : Nat) (s : Txt), s.length ≤ n → EndsIn ds s → EndsIn ds (replUU s) := by
  have hrep : replUU ds = ds := by
    have : ∀ (n : Nat) (t : Txt), t.length ≤ n → '_' ∉ t → replUU t = t := by
      intro n
      induction n with
      | zero => intro t ht _; cases t; rfl; simp at ht
      | succ n ih =>
        intro t ht hu
        match t, ht, hu with
        | [], _, _ => rfl
        | [a], _, _ => rfl
        | a :: b :: t, ht, hu =>
          rw [replUU, if_neg (fun h => hu (by simp [h.1]))]
          rw [ih (b :: t) (by simpa using ht) (fun h => hu (by simp [List.mem_cons.1 h]))]
    exact this ds.length ds (le_refl _) hd
  intro n
  induction n with
  | zero =>
    rintro s hs ⟨X, rfl⟩
    simp at hs
  | succ n ih =>
    rintro s hs ⟨X, rfl⟩
    match X, hs with
    | [], _ =>
      refine ⟨[], ?_⟩
      simp only [List.nil_append]
      cases ds with
      | nil => rfl
      | cons d ds =>
        rw [replUU, if_neg (fun h => hd (by simp [h.2])), hrep]
    | [x], hs =>
      simp only [List.cons_append, List.nil_append] at hs ⊢
      rw [replUU]
      split
      · rw [hrep]; exact ⟨[], rfl⟩
      · have := ih ('_' :: ds) (by simp at hs ⊢; omega) ⟨[], rfl⟩
        obtain ⟨Y, hY⟩ := this
        exact ⟨x :: Y, by rw [hY]; rfl⟩
    | x :: y :: X, hs =>
      simp only [List.cons_append]
      rw [replUU]
      split
      · obtain ⟨Y, hY⟩ := ih (X ++ '_' :: ds) (by simp at hs ⊢; omega) ⟨X, rfl⟩
        exact ⟨'_' :: Y, by rw [hY]; rfl⟩
      · obtain ⟨Y, hY⟩ := ih (y :: (X ++ '_' :: ds)) (by simp at hs ⊢; omega) ⟨y :: X, rfl⟩
        exact ⟨x :: Y, by rw [hY]; rfl⟩

/-- What is left of a text ending in `_ds` after stripping. -/
theorem strip_end (ch : Char) (ds : Txt) (hne : ds ≠ []) (hd : ch ∉ ds) (s : Txt)
    (h : EndsIn ds s ∨ s = ds) : EndsIn ds (stripC ch s) ∨ stripC ch s = ds := by
  have hR : ∀ t : Txt, (EndsIn ds t ∨ t = ds) →
      (t.reverse.dropWhile (· == ch)).reverse = t := by
    intro t ht
    have : ∃ Y, t = Y ++ ds := by
      rcases ht with ⟨X, rfl⟩ | rfl
      · exact ⟨X ++ ['_'], by simp⟩
      · exact ⟨[], rfl⟩
    obtain ⟨Y, rfl⟩ := this
    rw [List.reverse_append]
    cases hr : ds.reverse with
    | nil => exact absurd (List.reverse_eq_nil_iff.1 hr) hne
    | cons d r =>
      have hdm : d ∈ ds := List.mem_reverse.1 (by rw [hr]; simp)
      have : (d == ch) = false := by
        simp only [beq_eq_false_iff_ne]
        rintro rfl
        exact hd hdm
      rw [List.cons_append, List.dropWhile_cons_of_neg (by simp [this])]
      rw [← List.cons_append, ← hr, ← List.reverse_append, List.reverse_reverse]
  have hL : ∀ t : Txt, (EndsIn ds t ∨ t = ds) → EndsIn ds (t.dropWhile (· == ch)) ∨
      t.dropWhile (· == ch) = ds := by
    intro t
    induction t with
    | nil =>
      rintro (⟨X, h⟩ | h)
      · simp at h
      · exact absurd h.symm hne
    | cons x t ih =>
      intro ht
      have hdrop : ds.dropWhile (· == ch) = ds := by
        cases ds with
        | nil => rfl
        | cons d r =>
          rw [List.dropWhile_cons_of_neg]
          simp only [beq_iff_eq]
          rintro rfl
          simp at hd
      rcases ht with ⟨X, hX⟩ | ht
      · rw [List.dropWhile_cons]
        split
        · apply ih
          cases X with
          | nil => right; simp at hX; exact hX.2
          | cons y X => left; simp at hX; exact ⟨X, hX.2⟩
        · exact Or.inl ⟨X, hX⟩
      · rw [ht, hdrop]; exact Or.inr rfl
  unfold stripC
  rw [hR _ (hL s h)]
  exact hL s h

theorem digit_facts (ds : Txt) (hd : ∀ c ∈ ds, c.isDigit) :
    '_' ∉ ds ∧ ' ' ∉ ds ∧ ds.flatMap escChar = ds := by
  refine ⟨fun h => by simpa using hd _ h, fun h => by simpa using hd _ h, ?_⟩
  induction ds with
  | nil => rfl
  | cons c ds ih =>
    rw [List.flatMap_cons, ih fun c hc => hd c (by simp [hc])]
    have hc := hd c (by simp)
    have : escChar c = [c] := by
      have hns : c ∉ specialChars := by
        intro h
        have : ∀ d ∈ specialChars, d.isDigit = false := by decide
        rw [this c h] at hc
        cases hc
      exact escChar_plain c hns
    rw [this]; rfl

theorem escape_suffix (r ds b : Txt) (hne : ds ≠ []) (hd : ∀ c ∈ ds, c.isDigit)
    (h : escapeAlias (r ++ '_' :: ds) = some b) : EndsIn ds b := by
  obtain ⟨h1, h2, h3⟩ := digit_facts ds hd
  rw [escapeAlias_eq] at h
  split at h
  · cases h; exact ⟨r, rfl⟩
  · have hu : escChar '_' = ['_'] := by decide
    have hb : EndsIn ds ((r ++ '_' :: ds).flatMap escChar) := by
      refine ⟨r.flatMap escChar, ?_⟩
      rw [List.flatMap_append, List.flatMap_cons, h3, hu]; rfl
    have hs := strip_end ' ' ds hne h2 _ (strip_end '_' ds hne h1 _ (Or.inl hb))
    have hbody : EndsIn ds (escBody (r ++ '_' :: ds)) ∨ escBody (r ++ '_' :: ds) = ds := by
      unfold escBody
      rcases hs with hs | hs
      · exact Or.inl (replUU_endsIn ds h1 _ _ (le_refl _) hs)
      · right
        rw [hs]
        -- no underscore: unchanged
        have := replUU_endsIn ds h1 _ ('_' :: ds) (le_refl _) ⟨[], rfl⟩
        cases ds with
        | nil => rfl
        | cons d t =>
          have h0 : replUU ('_' :: d :: t) = '_' :: replUU (d :: t) := by
            rw [replUU, if_neg (fun h => h1 (by simp [h.2]))]
          have hlen : ∀ (n : Nat) (s : Txt), s.length ≤ n → '_' ∉ s → replUU s = s := by
            intro n
            induction n with
            | zero => intro s hs _; cases s; rfl; simp at hs
            | succ n ih =>
              intro s hs hu
              match s, hs, hu with
              | [], _, _ => rfl
              | [a], _, _ => rfl
              | a :: b :: s, hs, hu =>
                rw [replUU, if_neg (fun h => hu (by simp [h.1])),
                  ih (b :: s) (by simpa using hs) (fun h => hu (by simp [List.mem_cons.1 h]))]
          exact hlen _ _ (le_refl _) h1
    cases hbd : escBody (r ++ '_' :: ds) with
    | nil =>
      rw [hbd] at hbody
      rcases hbody with ⟨X, hX⟩ | hX
      · simp at hX
      · exact absurd hX.symm hne
    | cons d t =>
      rw [hbd] at h hbody
      simp only at h
      rcases hbody with ⟨X, hX⟩ | hX
      · split at h
        · cases h; exact ⟨"col_".toList ++ X, by rw [hX]; simp⟩
        · cases h; exact ⟨X, hX⟩
      · have : d.isDigit = true := hd d (by rw [← hX]; simp)
        rw [if_pos this] at h
        cases h
        exact ⟨"col".toList, by rw [hX]; rfl⟩

end Verif
