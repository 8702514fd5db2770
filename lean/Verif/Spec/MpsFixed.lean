import Verif.Model.MpsParse

/-!
# Specification: lines in the fixed format that can be read

From the model it uses only `isWhitespace`, which is a function of the standard library.
-/

namespace Relp.Spec

open Mps (isWhitespace)

/-- The characters of a line from `start` up to and without `stop`. -/
def field (start stop : ℕ) (line : Text) : Text := (line.drop start).take (stop - start)

/-- There is something in the field for the first number. -/
def HasNumber (line : Text) : Prop := ∃ c ∈ field 24 36 line, ¬isWhitespace c

/-- A section starts with a line without space in front. This is the one that the line after these ones is in. -/
def sectionAfter (before : List Text) : Option Text :=
  (before.filter fun line => line.head? ≠ some ' ').getLast?

/-- A line in a section has the fields that are read from it. In the section of columns, a line that is long enough
for a number has one unless it is a marker; this also holds for lines after the end of a file, because they are read
as columns if the end is directly after the rows. In the sections of right-hand sides and ranges, it has one. In
the section of bounds, a line that is long enough for the name of a column is as long as its field, the bound
is not semi-continuous, and a number is there, if the line is long enough for it, unless the bound has none. -/
structure FixedLine (section_ : Option Text) (line : Text) : Prop where
  columns : section_ = some "COLUMNS".toList ∨ section_ = some "ENDATA".toList → 36 ≤ line.length →
    field 14 22 line = "'MARKER'".toList ∨ HasNumber line
  values : section_ = some "RHS".toList ∨ section_ = some "RANGES".toList → 36 ≤ line.length → HasNumber line
  bounds : section_ = some "BOUNDS".toList → 14 ≤ line.length →
    22 ≤ line.length ∧ field 1 3 line ≠ "SC".toList ∧
      (36 ≤ line.length → HasNumber line ∨
        field 1 3 line ∈ ["FR".toList, "MI".toList, "PL".toList, "BV".toList])

end Relp.Spec
