import Verif.Model.CsvFile

/-! # What reading back what was written means (C99) -/

namespace Verif

/-- The texts that pandas takes for missing values (the documentation of `read_csv`, `na_values`). -/
def pandasMissing : List String :=
  ["", "#N/A", "#N/A N/A", "#NA", "-1.#IND", "-1.#QNAN", "-NaN", "-nan", "1.#IND", "1.#QNAN", "<NA>", "N/A", "NA",
    "NULL", "NaN", "None", "n/a", "nan", "null"]

/-- Numbers are read as what was written, and none is written like a missing value or with a carriage return. -/
structure NumText.OK {V : Type} (N : NumText V) : Prop where
  read_render : ∀ v, N.read (N.render v) = some v
  not_na : ∀ v, String.ofList (N.render v) ∉ pandasMissing
  no_cr : ∀ v, '\r' ∉ N.render v

/-- The text is none of those that pandas takes for a missing value (`""`, `NA`, `None`, `null`, ...), and has no carriage
return. -/
def PlainText (s : List Char) : Prop := String.ofList s ∉ pandasMissing ∧ '\r' ∉ s

/-- What a file must be like: every row has one cell for every column, every text is plain, and a column that has a text
has no numbers, and at least one text that cannot be read as a number. -/
structure ShardOK {V : Type} (N : NumText V) (width : ℕ) (rows : List (List (CsvCell V))) : Prop where
  width : ∀ r ∈ rows, r.length = width
  plain : ∀ r ∈ rows, ∀ s, CsvCell.text s ∈ r → PlainText s
  kind : ∀ j : ℕ, (∃ r ∈ rows, ∃ s, r[j]? = some (CsvCell.text s)) →
    (∀ r ∈ rows, ∀ v, r[j]? ≠ some (CsvCell.num v)) ∧ ∃ r ∈ rows, ∃ s, r[j]? = some (CsvCell.text s) ∧ N.read s = none

/-- A text without wildcards: no star, no question mark and no set of characters in brackets. `[` alone is none, nor is `[]`, nor
`[!]`: the first character behind `[` or `[!` does not close the set. -/
def NoMagic (s : List Char) : Prop :=
  '*' ∉ s ∧ '?' ∉ s ∧ ∀ a b, s = a ++ '[' :: b → ']' ∉ b.drop (if b.head? = some '!' then 2 else 1)

/-- The text of an instant has no wildcards and no brackets. -/
def PlainTime (s : List Char) : Prop := '*' ∉ s ∧ '?' ∉ s ∧ '[' ∉ s ∧ ']' ∉ s

end Verif
