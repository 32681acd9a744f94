import Verif.Spec.CsvFile
import Mathlib.Tactic.Linarith
import Mathlib.Data.List.Perm.Basic

/-! # Lemmas for C99: files that are read as what was written -/

namespace Verif

/-! ## The reader -/

theorem csvScan_quoted (t : List Char) (r : List (List Char)) : ∀ (s f : List Char),
    csvScan .quoted f r ((s.flatMap fun c => if c = '"' then ['"', '"'] else [c]) ++ '"' :: t)
      = csvScan .closed (f ++ s) r t
  | [], f => by simp [csvScan]
  | c :: s, f => by
      by_cases hc : c = '"'
      · subst hc
        have := csvScan_quoted t r s (f ++ ['"'])
        simp only [List.flatMap_cons, if_true, List.cons_append, List.nil_append, csvScan]
        rw [this, List.append_assoc, List.cons_append, List.nil_append]
      · have := csvScan_quoted t r s (f ++ [c])
        simp only [List.flatMap_cons, if_neg hc, List.cons_append, List.nil_append, csvScan]
        rw [this, List.append_assoc, List.cons_append, List.nil_append]

theorem csvScan_plain (t : List Char) (r : List (List Char)) : ∀ (s f : List Char),
    ',' ∉ s → '\n' ∉ s → '\r' ∉ s → csvScan .plain f r (s ++ t) = csvScan .plain (f ++ s) r t
  | [], f, _, _, _ => by simp
  | c :: s, f, h1, h2, h3 => by
      simp only [List.mem_cons, not_or] at h1 h2 h3
      have := csvScan_plain t r s (f ++ [c]) h1.2 h2.2 h3.2
      rw [List.cons_append, csvScan, if_neg (Ne.symm h1.1), if_neg (by
        rintro (h | h)
        · exact h2.1 h.symm
        · exact h3.1 h.symm), this, List.append_assoc, List.cons_append, List.nil_append]

theorem csvScan_comma (r : List (List Char)) (s t : List Char) (h : '\r' ∉ s) :
    csvScan .start [] r (quoteField s ++ ',' :: t) = csvScan .start [] (r ++ [s]) t := by
  unfold quoteField
  split
  · rw [List.append_assoc, List.cons_append, List.cons_append, csvScan, if_pos rfl]
    rw [List.nil_append, csvScan_quoted, List.nil_append, csvScan, if_neg (by decide), if_pos rfl]
  · rename_i hq
    simp only [not_or] at hq
    cases s with
    | nil => rw [List.nil_append, csvScan, if_neg (by decide), if_pos rfl]
    | cons c s =>
      simp only [List.mem_cons, not_or] at hq h
      rw [List.cons_append, csvScan, if_neg (Ne.symm hq.2.1.1), if_neg (Ne.symm hq.1.1), if_neg (by
        rintro (e | e)
        · exact hq.2.2.1 e.symm
        · exact h.1 e.symm), csvScan_plain _ _ _ _ hq.1.2 hq.2.2.2 h.2, csvScan, if_pos rfl]
      rfl

theorem csvScan_newline (r : List (List Char)) (s t : List Char) (h : '\r' ∉ s) (hr : r ≠ [] ∨ s ≠ []) :
    csvScan .start [] r (quoteField s ++ '\n' :: t) = (r ++ [s]) :: csvScan .start [] [] t := by
  unfold quoteField
  split
  · rw [List.append_assoc, List.cons_append, List.cons_append, csvScan, if_pos rfl]
    rw [List.nil_append, csvScan_quoted, List.nil_append, csvScan, if_neg (by decide),
      if_neg (by decide), if_pos (Or.inl rfl)]
  · rename_i hq
    simp only [not_or] at hq
    cases s with
    | nil =>
      have hr : r ≠ [] := by
        rcases hr with h | h
        · exact h
        · exact absurd rfl h
      rw [List.nil_append, csvScan, if_neg (by decide), if_neg (by decide), if_pos (Or.inl rfl), if_neg hr]
    | cons c s =>
      simp only [List.mem_cons, not_or] at hq h
      rw [List.cons_append, csvScan, if_neg (Ne.symm hq.2.1.1), if_neg (Ne.symm hq.1.1), if_neg (by
        rintro (e | e)
        · exact hq.2.2.1 e.symm
        · exact h.1 e.symm), csvScan_plain _ _ _ _ hq.1.2 hq.2.2.2 h.2, csvScan, if_neg (by decide),
        if_pos (Or.inl rfl)]
      rfl

theorem csvScan_join (t : List Char) : ∀ (l r : List (List Char)), l ≠ [] → (r ≠ [] ∨ l ≠ [[]]) →
    (∀ s ∈ l, '\r' ∉ s) → csvScan .start [] r (joinFields l ++ '\n' :: t) = (r ++ l) :: csvScan .start [] [] t
  | [], _, h, _, _ => absurd rfl h
  | [s], r, _, hr, hc => by
      rw [joinFields, csvScan_newline r s t (hc s List.mem_cons_self) (hr.imp_right fun h e => h (by rw [e]))]
  | s :: s' :: l, r, _, _, hc => by
      rw [joinFields, List.append_assoc, List.cons_append, csvScan_comma r s _ (hc s List.mem_cons_self),
        csvScan_join t (s' :: l) (r ++ [s]) (by simp) (Or.inl (by simp)) fun x hx => hc x (List.mem_cons_of_mem _ hx)]
      simp
      simp

theorem csvScan_line (t : List Char) (l : List (List Char)) (h : l ≠ []) (hc : ∀ s ∈ l, '\r' ∉ s) :
    csvScan .start [] [] (csvLine l ++ t) = l :: csvScan .start [] [] t := by
  unfold csvLine
  rw [List.append_assoc]
  split
  · rename_i e
    rw [e]
    simp [csvScan]
  · rename_i e
    rw [List.cons_append, List.nil_append, csvScan_join t l [] h (Or.inr e) hc, List.nil_append]

theorem csvScan_text {V : Type} (N : NumText V) (header : List (List Char)) (hh : header ≠ [])
    (hc : ∀ s ∈ header, '\r' ∉ s) (rows : List (List (CsvCell V))) (hr : ∀ r ∈ rows, r ≠ [])
    (hs : ∀ r ∈ rows, ∀ c ∈ r, '\r' ∉ csvField N c) :
    csvScan .start [] [] (csvText N header rows) = header :: rows.map fun r => r.map (csvField N) := by
  have h : ∀ rows : List (List (CsvCell V)), (∀ r ∈ rows, r ≠ []) → (∀ r ∈ rows, ∀ c ∈ r, '\r' ∉ csvField N c) →
      csvScan .start [] [] (rows.flatMap fun r => csvLine (r.map (csvField N))) = rows.map fun r => r.map (csvField N) := by
    intro rows
    induction rows with
    | nil => intro _ _; simp [csvScan]
    | cons r rows ih =>
      intro h1 h2
      rw [List.flatMap_cons, csvScan_line _ _ (by simpa using h1 r List.mem_cons_self), List.map_cons,
        ih (fun r hr => h1 r (List.mem_cons_of_mem _ hr)) fun r hr => h2 r (List.mem_cons_of_mem _ hr)]
      intro s hs
      obtain ⟨c, hc, rfl⟩ := List.mem_map.mp hs
      exact h2 r List.mem_cons_self c hc
  unfold csvText
  rw [csvScan_line _ _ hh hc, h rows hr hs]

/-! ## The table of a file -/

theorem csvField_noCr {V : Type} {N : NumText V} (hN : N.OK) {w : ℕ} {rows : List (List (CsvCell V))}
    (h : ShardOK N w rows) : ∀ r ∈ rows, ∀ c ∈ r, '\r' ∉ csvField N c := by
  intro r hr c hc
  cases c with
  | missing => simp [csvField]
  | num v => exact hN.no_cr v
  | text s => exact (h.plain r hr s hc).2

theorem mem_naTexts (s : List Char) : s ∈ naTexts ↔ String.ofList s ∈ pandasMissing := by
  have e : naTexts = pandasMissing.map String.toList := by decide
  rw [e, List.mem_map]
  constructor
  · rintro ⟨t, ht, rfl⟩
    rwa [String.ofList_toList]
  · intro h
    exact ⟨_, h, String.toList_ofList⟩

theorem nil_mem_naTexts : ([] : List Char) ∈ naTexts := by decide

theorem csvCell_eq {V : Type} {N : NumText V} (hN : N.OK) {w : ℕ} {rows : List (List (CsvCell V))} (h : ShardOK N w rows)
    {r : List (CsvCell V)} (hr : r ∈ rows) {j : ℕ} {c : CsvCell V} (hj : r[j]? = some c) :
    csvCell N (numColumn N (rows.map fun r => r.map (csvField N)) j) (csvField N c) = c := by
  have hmem : c ∈ r := List.mem_of_getElem? hj
  cases c with
  | missing => rw [csvField, csvCell, if_pos nil_mem_naTexts]
  | num v =>
    have hn : numColumn N (rows.map fun r => r.map (csvField N)) j = true := by
      unfold numColumn
      rw [List.all_eq_true]
      intro q hq
      obtain ⟨r', hr', rfl⟩ := List.mem_map.mp hq
      rw [List.getD_eq_getElem?_getD, List.getElem?_map]
      cases e : r'[j]? with
      | none => simp [nil_mem_naTexts]
      | some c' =>
        cases c' with
        | missing => simp [csvField, nil_mem_naTexts]
        | num v' => simp [csvField, hN.read_render]
        | text s => exact absurd hj ((h.kind j ⟨r', hr', s, e⟩).1 r hr v)
    rw [csvField, csvCell, if_neg (mt (mem_naTexts _).mp (hN.not_na v)), hn, if_pos rfl, hN.read_render]
  | text s =>
    obtain ⟨r', hr', s', e, hs'⟩ := (h.kind j ⟨r, hr, s, hj⟩).2
    have hn : numColumn N (rows.map fun r => r.map (csvField N)) j = false := by
      unfold numColumn
      rw [List.all_eq_false]
      refine ⟨r'.map (csvField N), List.mem_map_of_mem hr', ?_⟩
      rw [List.getD_eq_getElem?_getD, List.getElem?_map, e]
      have hp := mt (mem_naTexts _).mp (h.plain r' hr' s' (List.mem_of_getElem? e)).1
      simp [csvField, hs', hp]
    rw [csvField, csvCell, if_neg (mt (mem_naTexts _).mp (h.plain r hr s hmem).1), hn]
    rfl

theorem readCsv_csvText {V : Type} {N : NumText V} (hN : N.OK) {header : List (List Char)} (hh : header ≠ [])
    (hc : ∀ s ∈ header, '\r' ∉ s) {rows : List (List (CsvCell V))} (h : ShardOK N header.length rows) :
    readCsv N (csvText N header rows) = some ⟨header, rows⟩ := by
  have hne : ∀ r ∈ rows, r ≠ [] := by
    rintro r hr rfl
    have := h.width _ hr
    exact hh (List.length_eq_zero_iff.mp this.symm)
  unfold readCsv
  rw [csvScan_text N header hh hc rows hne (csvField_noCr hN h)]
  simp only [Option.some.injEq, CsvFrame.mk.injEq, true_and]
  rw [List.map_map]
  conv_rhs => rw [← List.map_id rows]
  apply List.map_congr_left
  intro r hr
  simp only [Function.comp_apply, id_eq]
  apply List.ext_getElem?
  intro j
  rw [List.getElem?_map, List.getElem?_zipIdx, List.getElem?_map]
  cases e : r[j]? with
  | none => rfl
  | some c =>
    simp only [Option.map_some, Nat.zero_add, Option.some.injEq]
    exact csvCell_eq hN h hr e

/-! ## Finding the files -/

theorem globSet_none {p : List Char} (h : ']' ∉ p.drop (if p.head? = some '!' then 2 else 1)) : globSet p = none := by
  unfold globSet
  simp only
  by_cases hb : p.head? = some '!'
  · rw [if_pos hb] at h
    simp only [hb, decide_true, if_true]
    split
    · rfl
    · next a t e =>
      rw [if_neg]
      have : p.drop 2 = t := by
        rw [show p.drop 2 = p.tail.tail by cases p <;> simp, e]
        rfl
      rwa [this] at h
  · rw [if_neg hb] at h
    simp only [hb, decide_false, Bool.false_eq_true, if_false]
    split
    · rfl
    · next a t =>
      rw [if_neg]
      exact h

theorem not_mem_drop_append {b p : List Char} {c : Char} {k : ℕ} (h : c ∉ b.drop k) (hp : c ∉ p) : c ∉ (b ++ p).drop k := by
  rw [List.drop_append, List.mem_append, not_or]
  exact ⟨h, fun h' => hp (List.mem_of_mem_drop h')⟩

theorem noSet_append {b p : List Char} (h : ']' ∉ b.drop (if b.head? = some '!' then 2 else 1)) (hp : ']' ∉ p) :
    ']' ∉ (b ++ p).drop (if (b ++ p).head? = some '!' then 2 else 1) := by
  cases b with
  | nil => exact fun h' => hp (List.mem_of_mem_drop h')
  | cons x b => exact not_mem_drop_append h hp

theorem globToks_lit : ∀ (s : List Char), NoMagic s → ∀ p, ']' ∉ p →
    globToks 0 (s ++ p) = s.map GlobTok.lit ++ globToks 0 p
  | [], _, p, _ => rfl
  | c :: s, h, p, hp => by
      obtain ⟨h1, h2, h3⟩ := h
      simp only [List.mem_cons, not_or] at h1 h2
      have ih := globToks_lit s ⟨h1.2, h2.2, fun a b e => h3 (c :: a) b (by rw [e]; rfl)⟩ p hp
      rw [List.cons_append, globToks, if_neg (Ne.symm h1.1), if_neg (Ne.symm h2.1)]
      split
      · next hc =>
        subst hc
        rw [globSet_none (noSet_append (h3 [] s rfl) hp), ih]
        rfl
      · rw [ih]
        rfl

theorem starMatch_end : ∀ s : List Char, starMatch (globMatch []) s = true ↔ '/' ∉ s
  | [] => by simp [starMatch, globMatch]
  | c :: s => by
      rw [starMatch, Bool.or_eq_true, Bool.and_eq_true, decide_eq_true_eq, List.mem_cons, not_or, starMatch_end s,
        show globMatch [] (c :: s) = false from rfl]
      simp only [Bool.false_eq_true, false_or]
      constructor
      · rintro ⟨h, h'⟩
        exact ⟨fun e => h e.symm, h'⟩
      · rintro ⟨h, h'⟩
        exact ⟨fun e => h e.symm, h'⟩

theorem globMatch_star (s : List Char) : globMatch [.star] s = true ↔ '/' ∉ s := by
  rw [globMatch]
  exact starMatch_end s

theorem globMatch_lit (p : List GlobTok) : ∀ (s t : List Char),
    globMatch (s.map GlobTok.lit ++ p) t = true ↔ ∃ u, t = s ++ u ∧ globMatch p u = true
  | [], t => by simp
  | c :: s, [] => by simp [globMatch]
  | c :: s, d :: t => by
      rw [List.map_cons, List.cons_append, globMatch, Bool.and_eq_true, decide_eq_true_eq, globMatch_lit p s t]
      constructor
      · rintro ⟨rfl, u, rfl, h⟩
        exact ⟨u, rfl, h⟩
      · rintro ⟨u, e, h⟩
        rw [List.cons_append] at e
        injection e with e1 e2
        exact ⟨e1.symm, u, e2, h⟩

theorem globMatch_path {path : List Char} (h : NoMagic path) (t : List Char) :
    globMatch (globToks 0 (path ++ ['-', '*'])) t = true ↔ ∃ suffix, '/' ∉ suffix ∧ t = shardPath path suffix := by
  have e : globToks 0 (path ++ ['-', '*']) = (path ++ ['-']).map GlobTok.lit ++ [.star] := by
    rw [globToks_lit path h _ (by decide), List.map_append, List.append_assoc]
    rfl
  rw [e, globMatch_lit]
  constructor
  · rintro ⟨u, rfl, hu⟩
    refine ⟨u, (globMatch_star u).mp hu, ?_⟩
    simp [shardPath]
  · rintro ⟨u, hu, rfl⟩
    exact ⟨u, by simp [shardPath], (globMatch_star u).mpr hu⟩

theorem noMagic_append {a b : List Char} (ha : NoMagic a) (hb : PlainTime b) : NoMagic (a ++ b) := by
  obtain ⟨h1, h2, h3⟩ := ha
  obtain ⟨h4, h5, h6, h7⟩ := hb
  refine ⟨by rw [List.mem_append, not_or]; exact ⟨h1, h4⟩, by rw [List.mem_append, not_or]; exact ⟨h2, h5⟩, ?_⟩
  intro x y e
  rcases List.append_eq_append_iff.mp e with ⟨u, rfl, e2⟩ | ⟨u, e1, e2⟩
  · exact absurd (e2 ▸ by simp) h6
  · cases u with
    | nil => exact absurd (by rw [← e2.trans (List.nil_append b)]; simp) h6
    | cons z u =>
      rw [List.cons_append] at e2
      injection e2 with e3 e4
      subst e3 e4
      exact noSet_append (h3 x u e1) h7

theorem plainTime_append {a b : List Char} (ha : PlainTime a) (hb : PlainTime b) : PlainTime (a ++ b) := by
  obtain ⟨h1, h2, h3, h4⟩ := ha
  obtain ⟨k1, k2, k3, k4⟩ := hb
  refine ⟨?_, ?_, ?_, ?_⟩ <;> rw [List.mem_append, not_or] <;> constructor <;> assumption

theorem noMagic_outputPath {dir now : List Char} (hd : NoMagic dir) (hn : PlainTime now) : NoMagic (outputPath dir now) := by
  have hf : PlainTime ("Meterstick pcollection_to_df_via_file_io at ".toList ++ now) := by
    refine plainTime_append ?_ hn
    refine ⟨?_, ?_, ?_, ?_⟩ <;> decide
  unfold outputPath
  simp only
  split
  · exact noMagic_append (a := []) ⟨by decide, by decide, by simp⟩ hf
  · split
    · exact noMagic_append hd hf
    · refine noMagic_append hd ?_
      exact plainTime_append (a := ['/']) ⟨by decide, by decide, by decide, by decide⟩ hf

theorem shardPath_inj {path a b : List Char} (h : shardPath path a = shardPath path b) : a = b := by
  unfold shardPath at h
  have := List.append_cancel_left h
  injection this

theorem perm_map_of_perm {α β : Type} (f : α → β) {l m : List β} (h : l.Perm m) :
    ∀ a : List α, m = a.map f → ∃ b : List α, b.Perm a ∧ l = b.map f := by
  induction h with
  | nil =>
    intro a ha
    exact ⟨a, .refl _, ha⟩
  | cons x _ ih =>
    intro a ha
    cases a with
    | nil => simp at ha
    | cons y a =>
      rw [List.map_cons] at ha
      injection ha with h1 h2
      obtain ⟨b, hb, e⟩ := ih a h2
      exact ⟨y :: b, hb.cons y, by rw [List.map_cons, h1, e]⟩
  | swap x y l =>
    intro a ha
    match a, ha with
    | [], ha => simp at ha
    | [_], ha => simp at ha
    | u :: v :: a, ha =>
      simp only [List.map_cons, List.cons.injEq] at ha
      exact ⟨v :: u :: a, .swap u v a, by simp [ha.1, ha.2.1, ha.2.2]⟩
  | trans _ _ ih1 ih2 =>
    intro a ha
    obtain ⟨b, hb, e⟩ := ih2 a ha
    obtain ⟨c, hc, e'⟩ := ih1 b e
    exact ⟨c, hc.trans hb, e'⟩

/-! ## All together -/

/-- The file of a shard. -/
def shardFile {V : Type} (N : NumText V) (path : List Char) (header : List (List Char))
    (p : List Char × List (List (CsvCell V))) : List Char × List Char := (shardPath path p.1, csvText N header p.2)

theorem mapM_read {V : Type} {N : NumText V} (hN : N.OK) {path : List Char} {header : List (List Char)}
    (hh : header ≠ []) (hc : ∀ s ∈ header, '\r' ∉ s) : ∀ (order : List (List Char × List (List (CsvCell V)))),
    (∀ p ∈ order, ShardOK N header.length p.2) →
    ((order.map (shardFile N path header)).mapM fun f => readCsv N f.2) = some (order.map fun p => ⟨header, p.2⟩)
  | [], _ => rfl
  | p :: order, h => by
      rw [List.map_cons, List.mapM_cons, mapM_read hN hh hc order fun q hq => h q (List.mem_cons_of_mem _ hq)]
      simp only [shardFile]
      rw [readCsv_csvText hN hh hc (h p List.mem_cons_self)]
      rfl

/-- The files that are found are those of earlier shards under the same path and the new ones. -/
theorem found_perm {V : Type} {N : NumText V} {listing : CsvFiles → CsvFiles} (hl : ∀ l, (listing l).Perm l)
    {path : List Char} (hp : NoMagic path) {header : List (List Char)}
    {shards old : List (List Char × List (List (CsvCell V)))} {fs : CsvFiles}
    (hs : ∀ p ∈ shards, '/' ∉ p.1)
    (hold : (fs.filter fun f => globMatch (globToks 0 (path ++ ['-', '*'])) f.1) = old.map (shardFile N path header))
    (hd : ∀ p ∈ old, p.1 ∉ shards.map (·.1)) :
    ((listing (writeShards N path header shards fs)).filter
      fun f => globMatch (globToks 0 (path ++ ['-', '*'])) f.1).Perm ((old ++ shards).map (shardFile N path header)) := by
  refine ((hl _).filter _).trans ?_
  unfold writeShards
  rw [List.filter_append, List.map_append]
  refine List.Perm.append ?_ ?_
  · rw [List.filter_comm, hold, List.filter_eq_self.mpr]
    intro f hf
    obtain ⟨p, hp', rfl⟩ := List.mem_map.mp hf
    simp only [decide_eq_true_eq, List.map_map]
    intro hmem
    obtain ⟨q, hq, e⟩ := List.mem_map.mp hmem
    have := shardPath_inj (show shardPath path q.1 = shardPath path p.1 from e)
    exact hd p hp' (this ▸ List.mem_map_of_mem hq)
  · rw [List.filter_eq_self.mpr]
    · exact .refl _
    · intro f hf
      obtain ⟨p, hp', rfl⟩ := List.mem_map.mp hf
      exact (globMatch_path hp _).mpr ⟨p.1, hs p hp', rfl⟩

theorem concat_frames {V : Type} (header : List (List Char)) (order : List (List Char × List (List (CsvCell V))))
    (h : order ≠ []) :
    concatFrames (order.map fun p => (⟨header, p.2⟩ : CsvFrame V)) = some ⟨header, order.flatMap (·.2)⟩ := by
  cases order with
  | nil => exact absurd rfl h
  | cons p order => simp [concatFrames, List.flatMap_map]

theorem csvInt_ok : csvInt.OK where
  read_render n := by
    have hd : ∀ m : ℕ, csvNat (Nat.toDigits 10 m) = some m := by
      intro m
      unfold csvNat
      rw [if_pos ⟨Nat.toDigits_ne_nil, by
        rw [List.all_eq_true]
        exact fun c hc => Nat.isDigit_of_mem_toDigits (by decide) (by decide) hc⟩, Nat.ofDigitChars_ten_toDigits]
    simp only [csvInt]
    by_cases hn : n < 0
    · rw [if_pos hn]
      show (csvNat (Nat.toDigits 10 n.natAbs)).map (fun m : ℕ => -(m : ℤ)) = some n
      rw [hd, Option.map_some, Option.some.injEq]
      omega
    · rw [if_neg hn]
      split
      · rename_i t e
        have : '-' ∈ Nat.toDigits 10 n.natAbs := by rw [e]; exact List.mem_cons_self
        exact absurd (Nat.isDigit_of_mem_toDigits (by decide) (by decide) this) (by decide)
      · rw [hd, Option.map_some, Option.some.injEq]
        omega
  not_na n := by
    rw [← mem_naTexts]
    have hd : ∀ m : ℕ, ∀ c ∈ Nat.toDigits 10 m, c.isDigit = true :=
      fun m c hc => Nat.isDigit_of_mem_toDigits (by decide) (by decide) hc
    have key : ∀ s ∈ naTexts, s ≠ [] → (∃ c ∈ s.tail, c.isDigit = false) ∨ s.length = 1 := by decide
    intro h
    simp only [csvInt] at h
    split at h
    · rcases key _ h (by simp) with ⟨c, hc, hc'⟩ | h1
      · rw [List.tail_cons] at hc
        rw [hd _ c hc] at hc'
        exact absurd hc' (by decide)
      · rw [List.length_cons, Nat.add_eq_right, List.length_eq_zero_iff] at h1
        exact Nat.toDigits_ne_nil h1
    · rcases key _ h Nat.toDigits_ne_nil with ⟨c, hc, hc'⟩ | h1
      · rw [hd _ c (List.mem_of_mem_tail hc)] at hc'
        exact absurd hc' (by decide)
      · revert h h1
        have : ∀ s ∈ naTexts, s.length ≠ 1 := by decide
        exact fun h h1 => this _ h h1
  no_cr n := by
    have hd : ∀ m : ℕ, '\r' ∉ Nat.toDigits 10 m :=
      fun m hc => absurd (Nat.isDigit_of_mem_toDigits (b := 10) (by decide) (by decide) hc) (by decide)
    simp only [csvInt]
    split
    · simp [hd]
    · exact hd _

end Verif
