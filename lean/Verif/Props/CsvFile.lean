import Mathlib.Data.List.Infix
import Verif.Lemmas.CsvFile

/-!
# C99: a PCollection that is written to files comes back

`pcollection_to_df_via_file_io`, for every number of shards, every division of the rows among them, every order in which
the files are listed and whatever else is in the directory.
-/

namespace Verif

/-- **C99** (tables that CSV files can tell apart). The columns come back under their names and in their order, and the
rows are those of the shards, each shard once, in some order; every cell is what it was: numbers, missing values and
texts, among them texts with commas, quotation marks and line breaks. -/
theorem C99_round_trip_partial {V : Type} {N : NumText V} (hN : N.OK) {listing : CsvFiles → CsvFiles}
    (hl : ∀ l, (listing l).Perm l) {dir now : List Char} (hd : NoMagic dir) (hn : PlainTime now) (cleanup : Bool)
    {header : List (List Char)} (hh : header ≠ []) (hc : ∀ s ∈ header, '\r' ∉ s)
    {shards : List (List Char × List (List (CsvCell V)))} (hs : shards ≠ []) (hsl : ∀ p ∈ shards, '/' ∉ p.1)
    (hok : ∀ p ∈ shards, ShardOK N header.length p.2) {fs : CsvFiles}
    (hfs : ∀ f ∈ fs, ¬ ∃ suffix, '/' ∉ suffix ∧ f.1 = shardPath (outputPath dir now) suffix) :
    ∃ order : List (List Char × List (List (CsvCell V))), order.Perm shards ∧
      (viaFileIO N listing dir now cleanup header shards fs).1 = some ⟨header, order.flatMap (·.2)⟩ := by
  have hp := noMagic_outputPath hd hn
  have hold : (fs.filter fun f => globMatch (globToks 0 (outputPath dir now ++ ['-', '*'])) f.1)
      = ([] : List (List Char × List (List (CsvCell V)))).map (shardFile N (outputPath dir now) header) := by
    rw [List.map_nil, List.filter_eq_nil_iff]
    intro f hf h
    exact hfs f hf ((globMatch_path hp _).mp h)
  obtain ⟨order, ho, e⟩ := perm_map_of_perm _ (found_perm hl hp (header := header) hsl hold (by simp)) _ rfl
  rw [List.nil_append] at ho
  refine ⟨order, ho, ?_⟩
  unfold viaFileIO
  simp only
  rw [e, mapM_read hN hh hc order fun p hp => hok p (ho.mem_iff.mp hp), Option.bind_some,
    concat_frames header order (by rintro rfl; exact hs ho.symm.eq_nil)]

/-- **C99** (all rows, once). The rows of the result are those of the PCollection, with their multiplicities. -/
theorem C99_rows_partial {V : Type} {N : NumText V} (hN : N.OK) {listing : CsvFiles → CsvFiles}
    (hl : ∀ l, (listing l).Perm l) {dir now : List Char} (hd : NoMagic dir) (hn : PlainTime now) (cleanup : Bool)
    {header : List (List Char)} (hh : header ≠ []) (hc : ∀ s ∈ header, '\r' ∉ s)
    {shards : List (List Char × List (List (CsvCell V)))} (hs : shards ≠ []) (hsl : ∀ p ∈ shards, '/' ∉ p.1)
    (hok : ∀ p ∈ shards, ShardOK N header.length p.2) {fs : CsvFiles}
    (hfs : ∀ f ∈ fs, ¬ ∃ suffix, '/' ∉ suffix ∧ f.1 = shardPath (outputPath dir now) suffix) :
    ∃ t, (viaFileIO N listing dir now cleanup header shards fs).1 = some t ∧ t.header = header ∧
      t.rows.Perm (shards.flatMap (·.2)) := by
  obtain ⟨order, ho, e⟩ := C99_round_trip_partial hN hl hd hn cleanup hh hc hs hsl hok hfs
  exact ⟨_, e, rfl, ho.flatMap_right _⟩

/-- **C99** (the directory). With `cleanup` the files are those there were before; without, those of the shards are
there in addition. -/
theorem C99_cleanup {V : Type} (N : NumText V) {listing : CsvFiles → CsvFiles}
    (hl : ∀ l, (listing l).Perm l) {dir now : List Char} (hd : NoMagic dir) (hn : PlainTime now)
    (header : List (List Char)) {shards : List (List Char × List (List (CsvCell V)))} (hsl : ∀ p ∈ shards, '/' ∉ p.1)
    {fs : CsvFiles} (hfs : ∀ f ∈ fs, ¬ ∃ suffix, '/' ∉ suffix ∧ f.1 = shardPath (outputPath dir now) suffix) :
    (viaFileIO N listing dir now true header shards fs).2 = fs ∧
      (viaFileIO N listing dir now false header shards fs).2
        = fs ++ shards.map fun p => (shardPath (outputPath dir now) p.1, csvText N header p.2) := by
  have hp := noMagic_outputPath hd hn
  have hw : writeShards N (outputPath dir now) header shards fs
      = fs ++ shards.map (shardFile N (outputPath dir now) header) := by
    unfold writeShards
    simp only
    rw [List.filter_eq_self.mpr]
    · rfl
    · intro f hf
      rw [decide_eq_true_eq, List.map_map]
      intro h
      obtain ⟨p, hp', e⟩ := List.mem_map.mp h
      exact hfs f hf ⟨p.1, hsl p hp', e.symm⟩
  have hold : (fs.filter fun f => globMatch (globToks 0 (outputPath dir now ++ ['-', '*'])) f.1)
      = ([] : List (List Char × List (List (CsvCell V)))).map (shardFile N (outputPath dir now) header) := by
    rw [List.map_nil, List.filter_eq_nil_iff]
    intro f hf h
    exact hfs f hf ((globMatch_path hp _).mp h)
  have hperm := found_perm (N := N) hl hp (header := header) hsl hold (by simp)
  rw [List.nil_append] at hperm
  refine ⟨?_, hw⟩
  unfold viaFileIO
  simp only [if_true]
  generalize (listing (writeShards N (outputPath dir now) header shards fs)).filter
      (fun f => globMatch (globToks 0 (outputPath dir now ++ ['-', '*'])) f.1) = found at hperm ⊢
  rw [hw, List.filter_append]
  have h1 : (fs.filter fun f => decide (f.1 ∉ found.map (·.1))) = fs := by
    rw [List.filter_eq_self]
    intro f hf
    rw [decide_eq_true_eq]
    intro h
    obtain ⟨g, hg, e⟩ := List.mem_map.mp h
    obtain ⟨p, hp', rfl⟩ := List.mem_map.mp (hperm.mem_iff.mp hg)
    exact hfs f hf ⟨p.1, hsl p hp', e.symm⟩
  have h2 : ((shards.map (shardFile N (outputPath dir now) header)).filter fun f => decide (f.1 ∉ found.map (·.1))) = [] := by
    rw [List.filter_eq_nil_iff]
    intro f hf h
    rw [decide_eq_true_eq] at h
    exact h (List.mem_map_of_mem (hperm.mem_iff.mpr hf))
  rw [h1, h2, List.append_nil]

/-- **C99** (the clock). What earlier shards of a run at the same instant left in the directory is read again: their rows
are in the result too. -/
theorem C99_same_instant_violation {V : Type} {N : NumText V} (hN : N.OK) {listing : CsvFiles → CsvFiles}
    (hl : ∀ l, (listing l).Perm l) {dir now : List Char} (hd : NoMagic dir) (hn : PlainTime now) (cleanup : Bool)
    {header : List (List Char)} (hh : header ≠ []) (hc : ∀ s ∈ header, '\r' ∉ s)
    {shards old : List (List Char × List (List (CsvCell V)))} (hs : shards ≠ []) (hsl : ∀ p ∈ old ++ shards, '/' ∉ p.1)
    (hok : ∀ p ∈ old ++ shards, ShardOK N header.length p.2) (hdis : ∀ p ∈ old, p.1 ∉ shards.map (·.1)) :
    ∃ t, (viaFileIO N listing dir now cleanup header shards
          (old.map fun p => (shardPath (outputPath dir now) p.1, csvText N header p.2))).1 = some t ∧
      t.rows.Perm (old.flatMap (·.2) ++ shards.flatMap (·.2)) := by
  have hp := noMagic_outputPath hd hn
  have hold : ((old.map (shardFile N (outputPath dir now) header)).filter
      fun f => globMatch (globToks 0 (outputPath dir now ++ ['-', '*'])) f.1)
      = old.map (shardFile N (outputPath dir now) header) := by
    rw [List.filter_eq_self]
    intro f hf
    obtain ⟨p, hp', rfl⟩ := List.mem_map.mp hf
    exact (globMatch_path hp _).mpr ⟨p.1, hsl p (List.mem_append_left _ hp'), rfl⟩
  obtain ⟨order, ho, e⟩ := perm_map_of_perm _
    (found_perm hl hp (header := header) (fun p hp => hsl p (List.mem_append_right _ hp)) hold hdis) _ rfl
  refine ⟨⟨header, order.flatMap (·.2)⟩, ?_, ?_⟩
  · unfold viaFileIO
    simp only
    rw [show (old.map fun p => (shardPath (outputPath dir now) p.1, csvText N header p.2))
      = old.map (shardFile N (outputPath dir now) header) from rfl, e,
      mapM_read hN hh hc order fun p hp => hok p (ho.mem_iff.mp hp), Option.bind_some,
      concat_frames header order (by rintro rfl; simp [hs] at ho)]
  · rw [← List.flatMap_append]
    exact ho.flatMap_right _

/-! ## What does not come back -/

/-- One column, one file. -/
def csvOne (l : List (CsvCell ℤ)) : Option (CsvFrame ℤ) × CsvFiles :=
  viaFileIO csvInt id "/tmp".toList "2024-05-01 10:00:00".toList true ["grp".toList]
    [("00000-of-00001".toList, l.map fun c => [c])] []

/-- **C99** (violation: names of groups). A group called `NA`, `None`, `null` or by another of these texts comes back
without a name; an empty text too. -/
theorem C99_na_violation : ∀ s ∈ pandasMissing, (csvOne [.text s.toList, .text "x".toList]).1
    = some ⟨["grp".toList], [[.missing], [.text "x".toList]]⟩ := by
  decide +kernel

/-- **C99** (violation: texts of digits). The groups `01` and `1` come back as the same number. -/
theorem C99_digits_violation : (csvOne [.text "01".toList, .text "1".toList]).1
    = some ⟨["grp".toList], [[.num 1], [.num 1]]⟩ := by
  decide +kernel

/-- **C99** (violation: one group becomes two). Rows of the same group `1` in two shards: in the shard that also has the
group `a` it stays a text, in the other it becomes a number. -/
theorem C99_shards_violation : (viaFileIO csvInt id "/tmp".toList "2024-05-01 10:00:00".toList true ["grp".toList]
      [("00000-of-00002".toList, [[.text "1".toList], [.text "a".toList]]), ("00001-of-00002".toList, [[.text "1".toList]])]
      []).1
    = some ⟨["grp".toList], [[.text "1".toList], [.text "a".toList], [.num 1]]⟩ := by
  decide +kernel

/-- Directories called `run[]` and `a[b` are no trouble. -/
example : NoMagic "run[]".toList ∧ NoMagic "a[b".toList ∧ ¬ NoMagic "run[1]".toList := by
  have key : ∀ s : List Char, '*' ∉ s → '?' ∉ s → (∀ t ∈ s.tails, t.head? = some '[' →
      ']' ∉ t.tail.drop (if t.tail.head? = some '!' then 2 else 1)) → NoMagic s := by
    intro s h1 h2 h
    refine ⟨h1, h2, fun a b e => ?_⟩
    exact h _ (by exact (List.mem_tails _ _).mpr ⟨a, e.symm⟩) rfl
  refine ⟨key _ (by decide) (by decide) (by decide), key _ (by decide) (by decide) (by decide), fun h => ?_⟩
  exact h.2.2 "run".toList "1]".toList rfl (by decide)

/-- **C99** (violation: directories with brackets). In a directory called `run[1]` the files are written, and none is
found: an error, whatever the PCollection, and nothing is cleaned up. -/
theorem C99_brackets_violation {V : Type} (N : NumText V) (now : List Char) (cleanup : Bool)
    (header : List (List Char)) (shards : List (List Char × List (List (CsvCell V)))) :
    viaFileIO N id "run[1]".toList now cleanup header shards []
      = (none, shards.map fun p => (shardPath (outputPath "run[1]".toList now) p.1, csvText N header p.2)) := by
  have hw : writeShards N (outputPath "run[1]".toList now) header shards []
      = shards.map fun p => (shardPath (outputPath "run[1]".toList now) p.1, csvText N header p.2) := by
    simp [writeShards]
  have hf : ((shards.map fun p => (shardPath (outputPath "run[1]".toList now) p.1, csvText N header p.2)).filter
      fun f => globMatch (globToks 0 (outputPath "run[1]".toList now ++ ['-', '*'])) f.1) = [] := by
    rw [List.filter_eq_nil_iff]
    intro f hf
    obtain ⟨p, _, rfl⟩ := List.mem_map.mp hf
    obtain ⟨rest, hr⟩ : ∃ rest, outputPath "run[1]".toList now = 'r' :: 'u' :: 'n' :: '[' :: '1' :: ']' :: rest := ⟨_, rfl⟩
    rw [hr]
    simp [shardPath, globToks, globSet, globMatch, inGlobSet]
  unfold viaFileIO
  simp only [hw, id_eq, hf]
  simp [concatFrames]

/-- The files of a run in the directory `dir`. -/
def csvFilesOf {V : Type} (N : NumText V) (dir now : List Char) (header : List (List Char))
    (shards : List (List Char × List (List (CsvCell V)))) : CsvFiles :=
  shards.map fun p => (shardPath (outputPath dir now) p.1, csvText N header p.2)

/-- **C99** (violation: other directories). In a directory called `run[!b-d]` the shards that are written are not read, but those
of a run at the same instant in the directory `runa`, which are deleted; those in `runc` are not. -/
theorem C99_set_violation {V : Type} {N : NumText V} (hN : N.OK) {now : List Char} (hn : PlainTime now)
    {header : List (List Char)} (hh : header ≠ []) (hc : ∀ s ∈ header, '\r' ∉ s)
    (shards third : List (List Char × List (List (CsvCell V)))) {others : List (List Char × List (List (CsvCell V)))}
    (hs : others ≠ []) (hsl : ∀ p ∈ others, '/' ∉ p.1) (hok : ∀ p ∈ others, ShardOK N header.length p.2) :
    viaFileIO N id "run[!b-d]".toList now true header shards
        (csvFilesOf N "runa".toList now header others ++ csvFilesOf N "runc".toList now header third)
      = (some ⟨header, others.flatMap (·.2)⟩,
          csvFilesOf N "runc".toList now header third ++ csvFilesOf N "run[!b-d]".toList now header shards) := by
  obtain ⟨rest, hr, h2, h3⟩ : ∃ rest, NoMagic rest ∧
      outputPath "run[!b-d]".toList now = 'r' :: 'u' :: 'n' :: '[' :: '!' :: 'b' :: '-' :: 'd' :: ']' :: '/' :: rest ∧
      outputPath "runa".toList now = 'r' :: 'u' :: 'n' :: 'a' :: '/' :: rest ∧
      outputPath "runc".toList now = 'r' :: 'u' :: 'n' :: 'c' :: '/' :: rest :=
    ⟨"Meterstick pcollection_to_df_via_file_io at ".toList ++ now,
      noMagic_append ⟨by decide, by decide, fun a b e => absurd (show '[' ∈ "Meterstick pcollection_to_df_via_file_io at ".toList by rw [e]; simp) (by decide)⟩ hn,
      rfl, rfl, rfl⟩
  have hpat : globToks 0 (outputPath "run[!b-d]".toList now ++ ['-', '*'])
      = "run".toList.map .lit ++ .set true "b-d".toList :: (('/' :: rest ++ ['-']).map GlobTok.lit ++ [.star]) := by
    rw [h2]
    have : globToks 0 (rest ++ ['-', '*']) = (rest ++ ['-']).map GlobTok.lit ++ [.star] := by
      rw [globToks_lit rest hr _ (by decide), List.map_append, List.append_assoc]
      rfl
    simp [globToks, globSet, this]
  have hm : ∀ (c : Char) (t : List Char), globMatch (globToks 0 (outputPath "run[!b-d]".toList now ++ ['-', '*']))
      ('r' :: 'u' :: 'n' :: c :: t) = true ↔ (c ≠ '/' ∧ ¬ ('b' ≤ c ∧ c ≤ 'd')) ∧ ∃ u, t = ('/' :: rest ++ ['-']) ++ u ∧ '/' ∉ u := by
    intro c t
    rw [hpat]
    simp only [← globMatch_star]
    rw [← globMatch_lit]
    simp only [String.toList_ofList, List.map_cons, List.map_nil, List.cons_append, List.nil_append, globMatch, inGlobSet,
      decide_true, Bool.true_and, Bool.and_eq_true, decide_eq_true_eq, String.reduceToList, Bool.or_false, bne_iff_ne, ne_eq,
      Bool.not_eq_true, decide_eq_false_iff_not, not_and]
  have ma : ∀ p ∈ others, globMatch (globToks 0 (outputPath "run[!b-d]".toList now ++ ['-', '*']))
      (shardPath (outputPath "runa".toList now) p.1) = true := by
    intro p hp
    rw [h3.1]
    exact (hm 'a' ('/' :: (rest ++ '-' :: p.1))).mpr ⟨by decide, p.1, by simp, hsl p hp⟩
  have mc : ∀ u, globMatch (globToks 0 (outputPath "run[!b-d]".toList now ++ ['-', '*']))
      (shardPath (outputPath "runc".toList now) u) = false := by
    intro u
    rw [h3.2, ← Bool.not_eq_true]
    exact fun h => ((hm 'c' ('/' :: (rest ++ '-' :: u))).mp h).1.2 (by decide)
  have mo : ∀ u, globMatch (globToks 0 (outputPath "run[!b-d]".toList now ++ ['-', '*']))
      (shardPath (outputPath "run[!b-d]".toList now) u) = false := by
    intro u
    rw [← Bool.not_eq_true]
    intro h
    have e0 : shardPath (outputPath "run[!b-d]".toList now) u
        = 'r' :: 'u' :: 'n' :: '[' :: '!' :: 'b' :: '-' :: 'd' :: ']' :: '/' :: (rest ++ '-' :: u) := by
      rw [h2]
      rfl
    rw [e0] at h
    obtain ⟨-, v, e, -⟩ := (hm '[' ('!' :: 'b' :: '-' :: 'd' :: ']' :: '/' :: (rest ++ '-' :: u))).mp h
    simp at e
  have na : ∀ a b, shardPath (outputPath "runa".toList now) a ≠ shardPath (outputPath "run[!b-d]".toList now) b := by
    intro a b e
    rw [h2, h3.1] at e
    simp [shardPath] at e
  have nc : ∀ a b, shardPath (outputPath "runc".toList now) a ≠ shardPath (outputPath "run[!b-d]".toList now) b := by
    intro a b e
    rw [h2, h3.2] at e
    simp [shardPath] at e
  have nac : ∀ a b, shardPath (outputPath "runc".toList now) a ≠ shardPath (outputPath "runa".toList now) b := by
    intro a b e
    rw [h3.1, h3.2] at e
    simp [shardPath] at e
  have hw : writeShards N (outputPath "run[!b-d]".toList now) header shards
        (csvFilesOf N "runa".toList now header others ++ csvFilesOf N "runc".toList now header third)
      = (csvFilesOf N "runa".toList now header others ++ csvFilesOf N "runc".toList now header third)
        ++ csvFilesOf N "run[!b-d]".toList now header shards := by
    unfold writeShards csvFilesOf
    simp only
    congr 1
    rw [List.filter_eq_self]
    intro f hf
    rw [decide_eq_true_eq]
    intro hx
    simp only [List.mem_map] at hx
    obtain ⟨_, ⟨q, -, rfl⟩, e⟩ := hx
    rcases List.mem_append.mp hf with hf | hf <;> obtain ⟨p, -, rfl⟩ := List.mem_map.mp hf
    · exact na _ _ e.symm
    · exact nc _ _ e.symm
  have hfound : ((csvFilesOf N "runa".toList now header others ++ csvFilesOf N "runc".toList now header third)
        ++ csvFilesOf N "run[!b-d]".toList now header shards).filter
          (fun f => globMatch (globToks 0 (outputPath "run[!b-d]".toList now ++ ['-', '*'])) f.1)
      = others.map (shardFile N (outputPath "runa".toList now) header) := by
    rw [List.filter_append, List.filter_append]
    have e1 : (csvFilesOf N "runa".toList now header others).filter
        (fun f => globMatch (globToks 0 (outputPath "run[!b-d]".toList now ++ ['-', '*'])) f.1)
        = csvFilesOf N "runa".toList now header others := by
      rw [List.filter_eq_self]
      intro f hf
      obtain ⟨p, hp, rfl⟩ := List.mem_map.mp hf
      exact ma p hp
    have e2 : (csvFilesOf N "runc".toList now header third).filter
        (fun f => globMatch (globToks 0 (outputPath "run[!b-d]".toList now ++ ['-', '*'])) f.1) = [] := by
      rw [List.filter_eq_nil_iff]
      intro f hf
      obtain ⟨p, hp, rfl⟩ := List.mem_map.mp hf
      exact Bool.eq_false_iff.mp (mc p.1)
    have e3 : (csvFilesOf N "run[!b-d]".toList now header shards).filter
        (fun f => globMatch (globToks 0 (outputPath "run[!b-d]".toList now ++ ['-', '*'])) f.1) = [] := by
      rw [List.filter_eq_nil_iff]
      intro f hf
      obtain ⟨p, hp, rfl⟩ := List.mem_map.mp hf
      exact Bool.eq_false_iff.mp (mo p.1)
    rw [e1, e2, e3, List.append_nil, List.append_nil]
    rfl
  unfold viaFileIO
  simp only [hw, id_eq, hfound, if_true]
  rw [mapM_read hN hh hc others hok, Option.bind_some, concat_frames header others hs, List.filter_append, List.filter_append]
  have hmem : ∀ (dir : List Char) (l : List (List Char × List (List (CsvCell V)))), (∀ a b,
      shardPath (outputPath dir now) a ≠ shardPath (outputPath "runa".toList now) b) →
      (csvFilesOf N dir now header l).filter (fun f => decide (f.1 ∉
        (others.map (shardFile N (outputPath "runa".toList now) header)).map (·.1))) = csvFilesOf N dir now header l := by
    intro dir l hne
    rw [List.filter_eq_self]
    intro f hf
    obtain ⟨p, hp, rfl⟩ := List.mem_map.mp hf
    rw [decide_eq_true_eq]
    intro hx
    simp only [List.mem_map] at hx
    obtain ⟨_, ⟨q, -, rfl⟩, e⟩ := hx
    exact hne _ _ e.symm
  rw [hmem _ third nac, hmem _ shards fun a b e => na b a e.symm]
  have : (csvFilesOf N "runa".toList now header others).filter (fun f => decide (f.1 ∉
        (others.map (shardFile N (outputPath "runa".toList now) header)).map (·.1))) = [] := by
    rw [List.filter_eq_nil_iff]
    intro f hf h
    rw [decide_eq_true_eq] at h
    exact h (List.mem_map_of_mem hf)
  rw [this, List.nil_append]

/-- **C99** (violation: other directories). In a directory called `a?b` the shards of a run at the same instant in the directory
`axb` are read too, and deleted; those in `a/b` are not. -/
theorem C99_question_violation {V : Type} {N : NumText V} (hN : N.OK) {now : List Char} (hn : PlainTime now)
    {header : List (List Char)} (hh : header ≠ []) (hc : ∀ s ∈ header, '\r' ∉ s)
    (third : List (List Char × List (List (CsvCell V)))) {shards others : List (List Char × List (List (CsvCell V)))}
    (hs : shards ≠ []) (hsl : ∀ p ∈ others ++ shards, '/' ∉ p.1) (hok : ∀ p ∈ others ++ shards, ShardOK N header.length p.2) :
    viaFileIO N id "a?b".toList now true header shards
        (csvFilesOf N "axb".toList now header others ++ csvFilesOf N "a/b".toList now header third)
      = (some ⟨header, others.flatMap (·.2) ++ shards.flatMap (·.2)⟩, csvFilesOf N "a/b".toList now header third) := by
  obtain ⟨rest, hr, h2, h3, h4⟩ : ∃ rest, NoMagic rest ∧
      outputPath "a?b".toList now = 'a' :: '?' :: 'b' :: '/' :: rest ∧
      outputPath "axb".toList now = 'a' :: 'x' :: 'b' :: '/' :: rest ∧
      outputPath "a/b".toList now = 'a' :: '/' :: 'b' :: '/' :: rest :=
    ⟨"Meterstick pcollection_to_df_via_file_io at ".toList ++ now,
      noMagic_append ⟨by decide, by decide, fun a b e =>
        absurd (show '[' ∈ "Meterstick pcollection_to_df_via_file_io at ".toList by rw [e]; simp) (by decide)⟩ hn,
      rfl, rfl, rfl⟩
  have hpat : globToks 0 (outputPath "a?b".toList now ++ ['-', '*'])
      = .lit 'a' :: .one :: (('b' :: '/' :: rest ++ ['-']).map GlobTok.lit ++ [.star]) := by
    rw [h2]
    have : globToks 0 (rest ++ ['-', '*']) = (rest ++ ['-']).map GlobTok.lit ++ [.star] := by
      rw [globToks_lit rest hr _ (by decide), List.map_append, List.append_assoc]
      rfl
    simp [globToks, this]
  have hm : ∀ (c : Char) (t : List Char), globMatch (globToks 0 (outputPath "a?b".toList now ++ ['-', '*']))
      ('a' :: c :: t) = true ↔ c ≠ '/' ∧ ∃ u, t = ('b' :: '/' :: rest ++ ['-']) ++ u ∧ '/' ∉ u := by
    intro c t
    rw [hpat]
    simp only [← globMatch_star]
    rw [← globMatch_lit]
    simp only [globMatch, decide_true, Bool.true_and, Bool.and_eq_true, decide_eq_true_eq]
  have ma : ∀ (dir : List Char) (c : Char), c ≠ '/' → outputPath dir now = 'a' :: c :: 'b' :: '/' :: rest → ∀ u, '/' ∉ u →
      globMatch (globToks 0 (outputPath "a?b".toList now ++ ['-', '*'])) (shardPath (outputPath dir now) u) = true := by
    intro dir c hc e u hu
    rw [e]
    exact (hm c ('b' :: '/' :: (rest ++ '-' :: u))).mpr ⟨hc, u, by simp, hu⟩
  have mc : ∀ u, globMatch (globToks 0 (outputPath "a?b".toList now ++ ['-', '*']))
      (shardPath (outputPath "a/b".toList now) u) = false := by
    intro u
    rw [h4, ← Bool.not_eq_true]
    exact fun h => ((hm '/' ('b' :: '/' :: (rest ++ '-' :: u))).mp h).1 rfl
  have na : ∀ a b, shardPath (outputPath "axb".toList now) a ≠ shardPath (outputPath "a?b".toList now) b := by
    intro a b e
    rw [h2, h3] at e
    simp [shardPath] at e
  have nc : ∀ a b, shardPath (outputPath "a/b".toList now) a ≠ shardPath (outputPath "a?b".toList now) b := by
    intro a b e
    rw [h2, h4] at e
    simp [shardPath] at e
  have nac : ∀ a b, shardPath (outputPath "a/b".toList now) a ≠ shardPath (outputPath "axb".toList now) b := by
    intro a b e
    rw [h3, h4] at e
    simp [shardPath] at e
  have hw : writeShards N (outputPath "a?b".toList now) header shards
        (csvFilesOf N "axb".toList now header others ++ csvFilesOf N "a/b".toList now header third)
      = (csvFilesOf N "axb".toList now header others ++ csvFilesOf N "a/b".toList now header third)
        ++ csvFilesOf N "a?b".toList now header shards := by
    unfold writeShards csvFilesOf
    simp only
    congr 1
    rw [List.filter_eq_self]
    intro f hf
    rw [decide_eq_true_eq]
    intro hx
    simp only [List.mem_map] at hx
    obtain ⟨_, ⟨q, -, rfl⟩, e⟩ := hx
    rcases List.mem_append.mp hf with hf | hf <;> obtain ⟨p, -, rfl⟩ := List.mem_map.mp hf
    · exact na _ _ e.symm
    · exact nc _ _ e.symm
  have hfound : ((csvFilesOf N "axb".toList now header others ++ csvFilesOf N "a/b".toList now header third)
        ++ csvFilesOf N "a?b".toList now header shards).filter
          (fun f => globMatch (globToks 0 (outputPath "a?b".toList now ++ ['-', '*'])) f.1)
      = others.map (shardFile N (outputPath "axb".toList now) header)
        ++ shards.map (shardFile N (outputPath "a?b".toList now) header) := by
    rw [List.filter_append, List.filter_append]
    have e1 : (csvFilesOf N "axb".toList now header others).filter
        (fun f => globMatch (globToks 0 (outputPath "a?b".toList now ++ ['-', '*'])) f.1)
        = csvFilesOf N "axb".toList now header others := by
      rw [List.filter_eq_self]
      intro f hf
      obtain ⟨p, hp, rfl⟩ := List.mem_map.mp hf
      exact ma _ 'x' (by decide) h3 p.1 (hsl p (List.mem_append_left _ hp))
    have e2 : (csvFilesOf N "a/b".toList now header third).filter
        (fun f => globMatch (globToks 0 (outputPath "a?b".toList now ++ ['-', '*'])) f.1) = [] := by
      rw [List.filter_eq_nil_iff]
      intro f hf
      obtain ⟨p, hp, rfl⟩ := List.mem_map.mp hf
      exact Bool.eq_false_iff.mp (mc p.1)
    have e3 : (csvFilesOf N "a?b".toList now header shards).filter
        (fun f => globMatch (globToks 0 (outputPath "a?b".toList now ++ ['-', '*'])) f.1)
        = csvFilesOf N "a?b".toList now header shards := by
      rw [List.filter_eq_self]
      intro f hf
      obtain ⟨p, hp, rfl⟩ := List.mem_map.mp hf
      exact ma _ '?' (by decide) h2 p.1 (hsl p (List.mem_append_right _ hp))
    rw [e1, e2, e3, List.append_nil]
    rfl
  unfold viaFileIO
  simp only [hw, id_eq, hfound, if_true]
  rw [List.mapM_append, mapM_read hN hh hc others fun p hp => hok p (List.mem_append_left _ hp),
    mapM_read hN hh hc shards fun p hp => hok p (List.mem_append_right _ hp)]
  have hcat : (do let a ← some (others.map fun p => (⟨header, p.2⟩ : CsvFrame V))
                  let b ← some (shards.map fun p => (⟨header, p.2⟩ : CsvFrame V))
                  pure (a ++ b)) = some ((others ++ shards).map fun p => (⟨header, p.2⟩ : CsvFrame V)) := by
    rw [List.map_append]
    rfl
  rw [hcat, Option.bind_some, concat_frames header (others ++ shards) (by simp [hs]), List.filter_append, List.filter_append,
    List.flatMap_append]
  have hin : ∀ (dir : List Char) (l : List (List Char × List (List (CsvCell V)))), (∀ f ∈ csvFilesOf N dir now header l,
      f ∈ others.map (shardFile N (outputPath "axb".toList now) header)
        ++ shards.map (shardFile N (outputPath "a?b".toList now) header)) →
      (csvFilesOf N dir now header l).filter (fun f => decide (f.1 ∉
        (others.map (shardFile N (outputPath "axb".toList now) header)
          ++ shards.map (shardFile N (outputPath "a?b".toList now) header)).map (·.1))) = [] := by
    intro dir l h
    rw [List.filter_eq_nil_iff]
    intro f hf h'
    rw [decide_eq_true_eq] at h'
    exact h' (List.mem_map_of_mem (h f hf))
  rw [hin _ others fun f hf => List.mem_append_left _ hf, hin _ shards fun f hf => List.mem_append_right _ hf]
  have hthird : (csvFilesOf N "a/b".toList now header third).filter (fun f => decide (f.1 ∉
        (others.map (shardFile N (outputPath "axb".toList now) header)
          ++ shards.map (shardFile N (outputPath "a?b".toList now) header)).map (·.1)))
      = csvFilesOf N "a/b".toList now header third := by
    rw [List.filter_eq_self]
    intro f hf
    obtain ⟨p, hp, rfl⟩ := List.mem_map.mp hf
    rw [decide_eq_true_eq]
    intro hx
    simp only [List.mem_map, List.mem_append] at hx
    obtain ⟨_, (⟨q, -, rfl⟩ | ⟨q, -, rfl⟩), e⟩ := hx
    · exact nac _ _ e.symm
    · exact nc _ _ e.symm
  rw [hthird, List.nil_append, List.append_nil]

/-! ## The hypotheses are met -/

/-- Two shards; texts with a comma, quotation marks and a line break; a missing value; a negative number. -/
def csvEx : List (List Char × List (List (CsvCell ℤ))) :=
  [("00000-of-00002".toList, [[.text "a,b".toList, .num 3], [.text "say \"x\"\n".toList, .missing]]),
    ("00001-of-00002".toList, [[.text "zzz".toList, .num (-12)]])]

theorem C99_example : (∀ p ∈ csvEx, ShardOK csvInt 2 p.2) ∧ csvInt.OK ∧
    (viaFileIO csvInt List.reverse "/tmp".toList "2024-05-01 10:00:00".toList true ["grp".toList, "n, all".toList] csvEx
      [("/tmp/other-1".toList, [])])
    = (some ⟨["grp".toList, "n, all".toList], [[.text "zzz".toList, .num (-12)], [.text "a,b".toList, .num 3],
      [.text "say \"x\"\n".toList, .missing]]⟩, [("/tmp/other-1".toList, [])]) := by
  refine ⟨?_, csvInt_ok, by decide +kernel⟩
  intro p hp
  simp only [csvEx, List.mem_cons, List.not_mem_nil, or_false] at hp
  rcases hp with rfl | rfl
  · refine ⟨by simp, ?_, ?_⟩
    · intro r hr s hs
      simp only [List.mem_cons, List.not_mem_nil, or_false] at hr
      rcases hr with rfl | rfl <;> simp only [List.mem_cons, List.not_mem_nil, or_false, CsvCell.text.injEq, reduceCtorEq] at hs <;>
        subst hs <;> exact ⟨by decide +kernel, by decide⟩
    · rintro (_ | _ | j) h
      · refine ⟨by simp, _, List.mem_cons_self, "a,b".toList, rfl, by decide +kernel⟩
      · simp at h
      · simp at h
  · refine ⟨by simp, ?_, ?_⟩
    · intro r hr s hs
      simp only [List.mem_cons, List.not_mem_nil, or_false] at hr
      subst hr
      simp only [List.mem_cons, List.not_mem_nil, or_false, CsvCell.text.injEq, reduceCtorEq] at hs
      subst hs
      exact ⟨by decide +kernel, by decide⟩
    · rintro (_ | _ | j) h
      · refine ⟨by simp, _, List.mem_cons_self, "zzz".toList, rfl, by decide +kernel⟩
      · simp at h
      · simp at h

end Verif
