import Mathlib.Data.List.Basic
import Mathlib.Data.Int.Notation
import Mathlib.Data.Nat.Notation

/-!
# A PCollection written to files and read back

`pcollection_to_df_via_file_io`, /repo/utils.py:674-706, the helper for the `execute` of `compute_on_beam`. pandas' CSV
writer and reader and `glob` are modelled from their documentation: the writer quotes a field only where it has to, the
reader finds out the kind of a column from its fields, file by file, and takes a list of texts for missing values.
Beam's numbers of shards and their names are arbitrary.
-/

namespace Verif

/-- A cell of a table: missing, a number (or truth value), a text. -/
inductive CsvCell (V : Type) where
  | missing
  | num (v : V)
  | text (s : List Char)
  deriving DecidableEq

/-- How numbers are written, and which texts are read as numbers. -/
structure NumText (V : Type) where
  render : V → List Char
  read : List Char → Option V

/-! ## Writing (`io.to_csv(pcol, output_path, index=False)`, /repo/utils.py:698) -/

/-- The field of a cell: a missing value is written as nothing. -/
def csvField {V : Type} (N : NumText V) : CsvCell V → List Char
  | .missing => []
  | .num v => N.render v
  | .text s => s

/-- A field in a file: in quotation marks if it has a comma, a quotation mark or a line feed, with its quotation marks
doubled (`csv.QUOTE_MINIMAL`). Carriage returns: newer versions of Python quote them too, older do not; the theorems
exclude them. -/
def quoteField (s : List Char) : List Char :=
  if ',' ∈ s ∨ '"' ∈ s ∨ '\n' ∈ s then '"' :: (s.flatMap fun c => if c = '"' then ['"', '"'] else [c]) ++ ['"'] else s

/-- The fields of a row, separated by commas. -/
def joinFields : List (List Char) → List Char
  | [] => []
  | [s] => quoteField s
  | s :: t => quoteField s ++ ',' :: joinFields t

/-- A line. A row that is one empty field is written as two quotation marks, so that it is no blank line. -/
def csvLine (r : List (List Char)) : List Char :=
  (if r = [[]] then ['"', '"'] else joinFields r) ++ ['\n']

/-- A file: the names of the columns and the rows. -/
def csvText {V : Type} (N : NumText V) (header : List (List Char)) (rows : List (List (CsvCell V))) : List Char :=
  csvLine header ++ rows.flatMap fun r => csvLine (r.map (csvField N))

/-! ## Reading (`pd.read_csv(f)`, /repo/utils.py:703) -/

/-- Where the reader is: at the start of a field, in a field, in a quoted field, behind a quotation mark in one. -/
inductive CsvMode where
  | start
  | plain
  | quoted
  | closed
  deriving DecidableEq

/-- The rows of a text; `f` is what is read of the field, `r` are the fields read of the row. Blank lines are skipped. A
text that ends in a quoted field (an error in pandas) does not occur. -/
def csvScan : CsvMode → List Char → List (List Char) → List Char → List (List (List Char))
  | m, f, r, [] => if m = .start ∧ r = [] then [] else [r ++ [f]]
  | .start, _, r, c :: t =>
      if c = '"' then csvScan .quoted [] r t
      else if c = ',' then csvScan .start [] (r ++ [[]]) t
      else if c = '\n' ∨ c = '\r' then
        (if r = [] then csvScan .start [] [] t else (r ++ [[]]) :: csvScan .start [] [] t)
      else csvScan .plain [c] r t
  | .plain, f, r, c :: t =>
      if c = ',' then csvScan .start [] (r ++ [f]) t
      else if c = '\n' ∨ c = '\r' then (r ++ [f]) :: csvScan .start [] [] t
      else csvScan .plain (f ++ [c]) r t
  | .quoted, f, r, c :: t => if c = '"' then csvScan .closed f r t else csvScan .quoted (f ++ [c]) r t
  | .closed, f, r, c :: t =>
      if c = '"' then csvScan .quoted (f ++ [c]) r t
      else if c = ',' then csvScan .start [] (r ++ [f]) t
      else if c = '\n' ∨ c = '\r' then (r ++ [f]) :: csvScan .start [] [] t
      else csvScan .plain (f ++ [c]) r t

/-- The texts that `read_csv` takes for a missing value if nothing else is asked for. -/
def naTexts : List (List Char) :=
  ["", "#N/A", "#N/A N/A", "#NA", "-1.#IND", "-1.#QNAN", "-NaN", "-nan", "1.#IND", "1.#QNAN", "<NA>", "N/A", "NA",
    "NULL", "NaN", "None", "n/a", "nan", "null"].map String.toList

/-- A column is one of numbers if every field is a number or stands for a missing value. -/
def numColumn {V : Type} (N : NumText V) (rows : List (List (List Char))) (j : ℕ) : Bool :=
  rows.all fun r => decide (r.getD j [] ∈ naTexts) || (N.read (r.getD j [])).isSome

/-- The cell that a field is read as, in a column of numbers or not. -/
def csvCell {V : Type} (N : NumText V) (numeric : Bool) (s : List Char) : CsvCell V :=
  if s ∈ naTexts then .missing
  else if numeric then (match N.read s with | some v => .num v | none => .text s)
  else .text s

/-- A table. -/
structure CsvFrame (V : Type) where
  header : List (List Char)
  rows : List (List (CsvCell V))
  deriving DecidableEq

/-- The table of a file: the first row has the names. `none` if there is no row. That the names are distinct and not
empty is taken for granted (pandas renames them otherwise). -/
def readCsv {V : Type} (N : NumText V) (t : List Char) : Option (CsvFrame V) :=
  match csvScan .start [] [] t with
  | [] => none
  | h :: rows => some ⟨h, rows.map fun r => r.zipIdx.map fun p => csvCell N (numColumn N rows p.2) p.1⟩

/-! ## Finding the files (`glob.glob(f'{output_path}-*')`, /repo/utils.py:702) -/

/-- A part of a pattern. -/
inductive GlobTok where
  | star
  | one
  | set (negated : Bool) (cs : List Char)
  | lit (c : Char)
  deriving DecidableEq

/-- The set that begins behind `[`, whether it is negated, and its number of characters with the closing bracket. The
first character belongs to it even if it is a bracket. -/
def globSet (p : List Char) : Option (Bool × List Char × ℕ) :=
  let neg := decide (p.head? = some '!')
  let q := if neg then p.tail else p
  match q with
  | [] => none
  | a :: t => if ']' ∈ t then some (neg, a :: t.takeWhile (· ≠ ']'), (if neg then 3 else 2) + (t.takeWhile (· ≠ ']')).length)
      else none

/-- A pattern in its parts; the first argument counts characters that are part of a set. -/
def globToks : ℕ → List Char → List GlobTok
  | _, [] => []
  | k + 1, _ :: p => globToks k p
  | 0, c :: p =>
      if c = '*' then .star :: globToks 0 p
      else if c = '?' then .one :: globToks 0 p
      else if c = '[' then
        (match globSet p with
          | some (neg, cs, k) => .set neg cs :: globToks k p
          | none => .lit c :: globToks 0 p)
      else .lit c :: globToks 0 p

/-- Is the character in the set? `a-z` is a range. -/
def inGlobSet : List Char → Char → Bool
  | a :: '-' :: b :: t, c => (decide (a ≤ c) && decide (c ≤ b)) || inGlobSet t c
  | a :: t, c => decide (a = c) || inGlobSet t c
  | [], _ => false

/-- A star: the rest matches here or behind some characters that are no slash. -/
def starMatch (m : List Char → Bool) : List Char → Bool
  | [] => m []
  | c :: s => m (c :: s) || (decide (c ≠ '/') && starMatch m s)

/-- Does the path match? No wildcard matches a slash. (Hidden files, which wildcards leave out, are not modelled; `**` has no special
meaning because `recursive` is not given.) -/
def globMatch : List GlobTok → List Char → Bool
  | [], s => s.isEmpty
  | .star :: p, s => starMatch (globMatch p) s
  | .one :: p, c :: s => decide (c ≠ '/') && globMatch p s
  | .set neg cs :: p, c :: s => decide (c ≠ '/') && (inGlobSet cs c != neg) && globMatch p s
  | .lit a :: p, c :: s => decide (a = c) && globMatch p s
  | _ :: _, [] => false

/-- Files: paths and contents. -/
abbrev CsvFiles := List (List Char × List Char)

/-- `os.path.join(output_dir, filename)` (/repo/utils.py:694-696). -/
def outputPath (dir now : List Char) : List Char :=
  let file := "Meterstick pcollection_to_df_via_file_io at ".toList ++ now
  if dir = [] then file else if dir.getLast? = some '/' then dir ++ file else dir ++ '/' :: file

/-- The path of a shard: `output_path-` and a suffix that Beam chooses. -/
def shardPath (path suffix : List Char) : List Char := path ++ '-' :: suffix

/-- Running the pipeline (/repo/utils.py:697-699): every shard becomes a file with the names of the columns; a file that
exists is written over. -/
def writeShards {V : Type} (N : NumText V) (path : List Char) (header : List (List Char))
    (shards : List (List Char × List (List (CsvCell V)))) (fs : CsvFiles) : CsvFiles :=
  let new := shards.map fun p => (shardPath path p.1, csvText N header p.2)
  (fs.filter fun f => decide (f.1 ∉ new.map (·.1))) ++ new

/-- `pd.concat(res, ignore_index=True)` (/repo/utils.py:706): an error without tables; all have the same columns. -/
def concatFrames {V : Type} : List (CsvFrame V) → Option (CsvFrame V)
  | [] => none
  | f :: t => some ⟨f.header, (f :: t).flatMap (·.rows)⟩

/-- `pcollection_to_df_via_file_io` (/repo/utils.py:674-706): the table, or `none` for an error, and the files that are
there in the end. `listing` is the order in which the operating system lists files. -/
def viaFileIO {V : Type} (N : NumText V) (listing : CsvFiles → CsvFiles) (dir now : List Char) (cleanup : Bool)
    (header : List (List Char)) (shards : List (List Char × List (List (CsvCell V)))) (fs : CsvFiles) :
    Option (CsvFrame V) × CsvFiles :=
  let path := outputPath dir now
  let files := writeShards N path header shards fs
  let found := (listing files).filter fun f => globMatch (globToks 0 (path ++ ['-', '*'])) f.1
  ((found.mapM fun f => readCsv N f.2).bind concatFrames,
    if cleanup then files.filter fun f => decide (f.1 ∉ found.map (·.1)) else files)

/-- Digits as a number, at least one. -/
def csvNat (s : List Char) : Option ℕ :=
  if s ≠ [] ∧ s.all Char.isDigit then some (Nat.ofDigitChars 10 s 0) else none

/-- Integers in decimal; what is read may have a minus sign and leading zeros. -/
def csvInt : NumText ℤ where
  render n := if n < 0 then '-' :: Nat.toDigits 10 n.natAbs else Nat.toDigits 10 n.natAbs
  read s := match s with
    | '-' :: t => (csvNat t).map fun n : ℕ => -(n : ℤ)
    | _ => (csvNat s).map fun n : ℕ => (n : ℤ)

end Verif
