import Verif.Model.MpsParse
import Verif.Spec.Number

/-!
# Specification: MPS files

What an MPS file consists of, how it is written in the free and in the fixed format, and which program it
describes. Follows the format (<http://lpsolve.sourceforge.net/5.5/mps-format.htm>) and the documentation of
`/repo/src/io/mps/`. From the model it uses only the type of MPS programs and `isWhitespace`, which is a function
of the standard library.
-/

namespace Relp.Spec

open Mps (Relation BoundType Listing isWhitespace)

/-! ### Contents -/

/-- A number for a row. -/
structure Entry where
  row : Text
  number : Numeral

/-- One line has one or two entries. -/
structure EntryLine where
  first : Entry
  second : Option Entry

/-- The entries of a line. -/
def EntryLine.entries (l : EntryLine) : List Entry := l.first :: l.second.toList

/-- Consecutive lines that start with the same name. -/
structure Block (α : Type) where
  name : Text
  lines : List α

/-- The entries of a block, in order. -/
def Block.entries (b : Block EntryLine) : List Entry := b.lines.flatMap EntryLine.entries

/-- What the section of columns consists of. -/
inductive ColumnItem
  /-- from here on, variables are integer or not -/
  | marker (integer : Bool)
  | column (block : Block EntryLine)

/-- A bound. -/
inductive BoundText
  | lo (number : Numeral)
  | up (number : Numeral)
  | fx (number : Numeral)
  | li (number : Numeral)
  | ui (number : Numeral)
  | fr
  | mi
  | pl
  | bv

/-- The code of a type of bound. -/
def BoundText.code : BoundText → Text
  | .lo _ => ['L', 'O']
  | .up _ => ['U', 'P']
  | .fx _ => ['F', 'X']
  | .li _ => ['L', 'I']
  | .ui _ => ['U', 'I']
  | .fr => ['F', 'R']
  | .mi => ['M', 'I']
  | .pl => ['P', 'L']
  | .bv => ['B', 'V']

/-- The number of a bound, if it has one. -/
def BoundText.number : BoundText → Option Numeral
  | .lo n => some n
  | .up n => some n
  | .fx n => some n
  | .li n => some n
  | .ui n => some n
  | _ => none

/-- The bound that is meant. -/
def BoundText.meaning : BoundText → BoundType
  | .lo n => .lowerContinuous n.value
  | .up n => .upperContinuous n.value
  | .fx n => .fixed n.value
  | .li n => .lowerInteger n.value
  | .ui n => .upperInteger n.value
  | .fr => .free
  | .mi => .lowerMinusInfinity
  | .pl => .upperInfinity
  | .bv => .binary

/-- A line of the section of bounds, without the name of the group. -/
structure BoundLine where
  bound : BoundText
  column : Text

/-- The contents of an MPS file. A row without relation is a cost row. -/
structure File where
  name : Text
  sense : Option Objective
  rows : List (Option Relation × Text)
  columns : List ColumnItem
  rhs : Option (List (Block EntryLine))
  ranges : Option (List (Block EntryLine))
  bounds : Option (List (Block BoundLine))

/-! ### Writing -/

/-- A text consists of these words, with whitespace in between, and possibly in front and at the end. -/
inductive Words : Text → List Text → Prop
  | nil {blanks : Text} : (∀ c ∈ blanks, isWhitespace c) → Words blanks []
  | cons {blanks word rest : Text} {words : List Text} : (∀ c ∈ blanks, isWhitespace c) → word ≠ [] →
      (∀ c ∈ word, ¬isWhitespace c) → (rest = [] ∨ ∃ c t, rest = c :: t ∧ isWhitespace c) → Words rest words →
      Words (blanks ++ word ++ rest) (word :: words)

/-- How the lines within sections are written. -/
structure Layout where
  /-- type and name of a row -/
  row : (type name : Text) → Text → Prop
  /-- a marker -/
  marker : (kind : Text) → Text → Prop
  /-- a name, and one or two rows with their number -/
  entries : (name : Text) → (first : Text × Text) → (second : Option (Text × Text)) → Text → Prop
  /-- type, group, column and, if there is one, the number -/
  bound : (type group column : Text) → (number : Option Text) → Text → Prop

/-- The free format: a space, and the words of the line in order. A marker has a name in front, that
does not matter. What follows a bound does not matter. -/
def freeLayout : Layout where
  row type name line := line.head? = some ' ' ∧ Words line [type, name]
  marker kind line := line.head? = some ' ' ∧ ∃ name, Words line [name, "'MARKER'".toList, kind]
  entries name first second line := line.head? = some ' ' ∧
    Words line ([name, first.1, first.2] ++ match second with
      | some second => [second.1, second.2]
      | none => [])
  bound type group column number line := line.head? = some ' ' ∧
    ∃ more, Words line ([type, group, column] ++ number.toList ++ more)

/-- A name or code that fits in a field of `n` characters: characters from ASCII, without whitespace at the
end. -/
def IsName (n : ℕ) (word : Text) : Prop :=
  (∀ c ∈ word, c.toNat < 128) ∧ (∀ c, word.getLast? = some c → ¬isWhitespace c) ∧ word.length ≤ n

/-- A number that fits in a field of `n` characters: characters from ASCII, without whitespace in front. -/
def IsFigure (n : ℕ) (word : Text) : Prop :=
  (∀ c ∈ word, c.toNat < 128) ∧ (∀ c, word.head? = some c → ¬isWhitespace c) ∧ word.length ≤ n

/-- Spaces. -/
def spaces (n : ℕ) : Text := List.replicate n ' '

/-- At the left of a field of `n` characters. -/
def left (n : ℕ) (word : Text) : Text := word ++ spaces (n - word.length)

/-- At the right of a field of `n` characters. -/
def right (n : ℕ) (word : Text) : Text := spaces (n - word.length) ++ word

/-- The fixed format. Counting from one, fields are in columns 2-3, 5-12, 15-22, 25-36, 40-47 and 50-61. Names
and codes are at the left of their field, numbers are at the right. Everything else are spaces, but what
follows the last field of a line does not matter. -/
def fixedLayout : Layout where
  row type name line := IsName 2 type ∧ IsName 8 name ∧ name ≠ [] ∧
    ∃ k, line = spaces 1 ++ left 2 type ++ spaces 1 ++ name ++ spaces k
  marker kind line := IsName 8 kind ∧ ∃ name more, IsName 8 name ∧
    line = spaces 4 ++ left 8 name ++ spaces 2 ++ "'MARKER'".toList ++ spaces 17 ++ left 8 kind ++ more
  entries name first second line := IsName 8 name ∧ IsName 8 first.1 ∧ IsFigure 12 first.2 ∧ ∃ rest,
    line = spaces 4 ++ left 8 name ++ spaces 2 ++ left 8 first.1 ++ spaces 2 ++ right 12 first.2 ++ rest ∧
    match second with
    | none => ∃ k, rest = spaces k
    | some second => IsName 8 second.1 ∧ second.1 ≠ [] ∧ IsFigure 12 second.2 ∧ second.2 ≠ [] ∧
      ∃ more, rest = spaces 3 ++ left 8 second.1 ++ spaces 2 ++ right 12 second.2 ++ more
  bound type group column number line := IsName 2 type ∧ IsName 8 group ∧ IsName 8 column ∧ ∃ rest,
    line = spaces 1 ++ left 2 type ++ spaces 1 ++ left 8 group ++ spaces 2 ++ left 8 column ++ rest ∧
    match number with
    | none => True
    | some number => IsFigure 12 number ∧ ∃ more, rest = spaces 2 ++ right 12 number ++ more

/-- The code of a type of row. -/
def rowCode : Option Relation → Text
  | none => ['N']
  | some .less => ['L']
  | some .equal => ['E']
  | some .greater => ['G']

/-- The lines up to the rows: without direction, or with a section for it. -/
def SenseWritten (sense : Option Objective) (lines : List Text) : Prop :=
  match sense with
  | none => ∃ k, lines = ["ROWS".toList ++ spaces k]
  | some sense => ∃ k l m word, lines = ["OBJSENSE".toList ++ spaces k, spaces 2 ++ word ++ spaces l,
        "ROWS".toList ++ spaces m] ∧
      match sense with
      | .minimize => word = "MIN".toList ∨ word = "MINIMIZE".toList
      | .maximize => word = "MAX".toList ∨ word = "MAXIMIZE".toList

/-- An entry line under a name. -/
def EntryLine.Written (L : Layout) (name : Text) (l : EntryLine) (line : Text) : Prop :=
  L.entries name (l.first.row, l.first.number.text) (l.second.map fun e => (e.row, e.number.text)) line

/-- The lines of a block. -/
def Block.Written {α : Type} (written : (name : Text) → α → Text → Prop) (b : Block α) (lines : List Text) : Prop :=
  List.Forall₂ (written b.name) b.lines lines

/-- The lines of several blocks or items. -/
def AllWritten {α : Type} (written : α → List Text → Prop) (items : List α) (lines : List Text) : Prop :=
  ∃ parts, List.Forall₂ written items parts ∧ lines = parts.flatten

/-- The lines of an item of the section of columns. -/
def ColumnItem.Written (L : Layout) (item : ColumnItem) (lines : List Text) : Prop :=
  match item with
  | .marker integer => ∃ line, lines = [line] ∧
      L.marker (if integer then "'INTORG'".toList else "'INTEND'".toList) line
  | .column block => block.Written (EntryLine.Written L) lines

/-- A line of the section of bounds. -/
def BoundLine.Written (L : Layout) (group : Text) (l : BoundLine) (line : Text) : Prop :=
  L.bound l.bound.code group l.column (l.bound.number.map (·.text)) line

/-- The lines of a section that is not mandatory. -/
def SectionWritten {α : Type} (header : Text) (written : (name : Text) → α → Text → Prop)
    (blocks : Option (List (Block α))) (lines : List Text) : Prop :=
  match blocks with
  | none => lines = []
  | some blocks => ∃ rest, lines = header :: rest ∧ AllWritten (Block.Written written) blocks rest

/-- The lines of a file. -/
def File.Written (L : Layout) (F : File) (lines : List Text) : Prop :=
  ∃ name more sense rows columns rhs ranges bounds,
    lines = ("NAME".toList ++ name) :: (sense ++ rows ++ ["COLUMNS".toList] ++ columns ++ rhs ++ ranges ++ bounds ++
      ["ENDATA".toList]) ∧
    Words name (F.name :: more) ∧
    SenseWritten F.sense sense ∧
    List.Forall₂ (fun row line => L.row (rowCode row.1) row.2 line) F.rows rows ∧
    AllWritten (ColumnItem.Written L) F.columns columns ∧
    SectionWritten "RHS".toList (EntryLine.Written L) F.rhs rhs ∧
    SectionWritten "RANGES".toList (EntryLine.Written L) F.ranges ranges ∧
    SectionWritten "BOUNDS".toList (BoundLine.Written L) F.bounds bounds

/-- A line that is a comment. -/
def Comment (line : Text) : Prop :=
  ∃ blanks text, (∀ c ∈ blanks, isWhitespace c) ∧ line = blanks ++ '*' :: text

/-- A text has these lines that are neither empty nor a comment, in order. Lines end with a newline, possibly
after a carriage return; the last line may be without. -/
inductive Contents : Text → List Text → Prop
  | nil : Contents [] []
  | lastComment {line : Text} : '\n' ∉ line → Comment line → Contents line []
  | last {line : Text} : '\n' ∉ line → line.getLast? ≠ some '\r' → line ≠ [] → ¬Comment line → Contents line [line]
  | comment {line text : Text} {lines : List Text} : '\n' ∉ line → line = [] ∨ line = ['\r'] ∨ Comment line →
      Contents text lines → Contents (line ++ '\n' :: text) lines
  | line {line text : Text} {lines : List Text} : '\n' ∉ line → line.getLast? ≠ some '\r' → line ≠ [] →
      ¬Comment line → Contents text lines → Contents (line ++ '\n' :: text) (line :: lines)
  | lineReturn {line text : Text} {lines : List Text} : '\n' ∉ line → line ≠ [] → ¬Comment line →
      Contents text lines → Contents (line ++ '\r' :: '\n' :: text) (line :: lines)

/-! ### Syntax -/

/-- The columns of a file. -/
def File.blocks (F : File) : List (Block EntryLine) :=
  F.columns.filterMap fun item =>
    match item with
    | .marker _ => none
    | .column block => some block

/-- All numbers in a file. -/
def File.numerals (F : File) : List Numeral :=
  (F.blocks ++ F.rhs.getD [] ++ F.ranges.getD []).flatMap (fun b => b.entries.map (·.number)) ++
    (F.bounds.getD []).flatMap fun b => b.lines.filterMap (·.bound.number)

/-- Blocks have at least one line, and do not continue one another. -/
def Separate {α : Type} (blocks : List (Block α)) : Prop :=
  (∀ b ∈ blocks, b.lines ≠ []) ∧ blocks.IsChain fun a b => a.name ≠ b.name

/-- Blocks have at least one line and do not continue one another, numbers are numerals that fit in 64 bits,
and no row is named like a marker. -/
structure File.Proper (F : File) : Prop where
  columns : (∀ b ∈ F.blocks, b.lines ≠ []) ∧
    F.columns.IsChain fun a b => ∀ c d, a = .column c → b = .column d → c.name ≠ d.name
  rhs : Separate (F.rhs.getD [])
  ranges : Separate (F.ranges.getD [])
  bounds : Separate (F.bounds.getD [])
  numbers : ∀ n ∈ F.numerals, n.Proper ∧ n.Fits
  reserved : ∀ b ∈ F.blocks, ∀ e ∈ b.entries, e.row ≠ "'MARKER'".toList

/-! ### Consistency -/

/-- The row with this name is a constraint. -/
def File.IsConstraint (F : File) (name : Text) : Prop := ∃ relation, (some relation, name) ∈ F.rows

/-- The entries are for different constraints. -/
def File.EntriesConsistent (F : File) (entries : List Entry) : Prop :=
  (∀ e ∈ entries, F.IsConstraint e.row) ∧ (entries.map (·.row)).Nodup

/-- There is one cost row, the names of rows are different, and names refer to rows and columns that are
there, and in each column and each group of right-hand sides once; there is at most one range for each row. -/
structure File.Consistent (F : File) : Prop where
  cost : (F.rows.filter fun row => row.1.isNone).length = 1
  rows : (F.rows.map (·.2)).Nodup
  columns : ∀ b ∈ F.blocks, F.EntriesConsistent (b.entries.filter fun e => (none, e.row) ∉ F.rows)
  rhs : ∀ b ∈ F.rhs.getD [], F.EntriesConsistent b.entries
  ranges : F.EntriesConsistent ((F.ranges.getD []).flatMap Block.entries)
  bounds : ∀ b ∈ F.bounds.getD [], ∀ l ∈ b.lines, l.column ∈ F.blocks.map (·.name)

/-! ### The program -/

/-- The columns, each of them integer or not according to the last marker before it. -/
def typedColumns : (integer : Bool) → List ColumnItem → List (VariableType × Block EntryLine)
  | _, [] => []
  | _, .marker integer :: items => typedColumns integer items
  | integer, .column block :: items =>
    (if integer then .integer else .continuous, block) :: typedColumns integer items

/-- The values for rows, which are given by index and sorted, are these entries. -/
def RowValues (p : Mps) (values : List (ℕ × ℚ)) (entries : List Entry) : Prop :=
  values.Pairwise (fun a b => a.1 < b.1) ∧
    (values.map fun q => ((p.rows[q.1]?).map (·.name), q.2)).Perm
      (entries.map fun e => (some e.row, e.number.value))

/-- The values for columns, which are given by index, are these bounds. -/
def ColumnValues (p : Mps) (values : List (ℕ × BoundType)) (bounds : List BoundLine) : Prop :=
  (values.map fun q => ((p.columns[q.1]?).map (·.name), q.2)).Perm
    (bounds.map fun l => (some l.column, l.bound.meaning))

/-- The program that a file describes, in which rows and columns have an index. The order of the rows does
not matter; that of the columns is kept. -/
structure File.Describes (F : File) (p : Mps) : Prop where
  name : p.name = F.name
  objective : p.objective = F.sense.getD .minimize
  cost : (none, p.costRowName) ∈ F.rows
  rows : (p.rows.map fun row => (some row.relation, row.name)).Perm (F.rows.filter fun row => row.1.isSome)
  columns : List.Forall₂ (fun column b => column.name = b.2.name ∧ column.variableType = b.1 ∧
    RowValues p column.values (b.2.entries.filter fun e => e.row ≠ p.costRowName)) p.columns
      (typedColumns false F.columns)
  costs : p.costValues = F.blocks.zipIdx.flatMap fun q =>
    (q.1.entries.filter fun e => e.row = p.costRowName).map fun e => (q.2, e.number.value)
  rhs : List.Forall₂ (fun group b => group.name = b.name ∧ RowValues p group.values b.entries) p.rhss
    (F.rhs.getD [])
  ranges : List.Forall₂ (fun group b => group.name = b.name ∧ RowValues p group.values b.entries) p.ranges
    (F.ranges.getD [])
  bounds : List.Forall₂ (fun group b => group.name = b.name ∧ ColumnValues p group.values b.lines) p.bounds
    (F.bounds.getD [])

end Relp.Spec
