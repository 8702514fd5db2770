import Verif.Model.Mps

/-!
# Model of the parsing of MPS files

Models `/repo/src/io/mps/parse/`. Texts are lists of characters; the indices of slices count bytes, as in the
code, and a slice that is out of range or does not start and end at a character aborts. Lines are without
their numbers, which are for error messages only. Iterators over lines are lists, and functions that advance
them return the remaining lines. Hash maps from names to indices are looked up in the list that they are made
from. Violations of `debug_assert`s are not modelled.
-/

namespace Relp.Mps

/-! ### Functions of the standard library -/

/-- `char::is_whitespace`: the property `White_Space` of Unicode. -/
def isWhitespace (c : Char) : Bool :=
  let n := c.toNat
  (9 ≤ n && n ≤ 13) || n == 0x20 || n == 0x85 || n == 0xA0 || n == 0x1680 || (0x2000 ≤ n && n ≤ 0x200A) ||
    n == 0x2028 || n == 0x2029 || n == 0x202F || n == 0x205F || n == 0x3000

/-- `str::trim_start` -/
def trimStart (t : Text) : Text := t.dropWhile isWhitespace

/-- `str::trim_end` -/
def trimEnd (t : Text) : Text := (t.reverse.dropWhile isWhitespace).reverse

/-- Loop of `splitWhitespace`; `word` is the word that is being read, in reverse. -/
def splitWords : Text → (word : Text) → List Text
  | [], word => if word.isEmpty then [] else [word.reverse]
  | c :: t, word =>
    if isWhitespace c then
      if word.isEmpty then splitWords t [] else word.reverse :: splitWords t []
    else splitWords t (c :: word)

/-- `str::split_whitespace` -/
def splitWhitespace (t : Text) : List Text := splitWords t []

/-- `str::len`: the number of bytes. -/
def byteLength (t : Text) : ℕ := (t.map Char.utf8Size).sum

/-- `&text[n..]` -/
def dropBytes : ℕ → Text → Import Text
  | 0, t => .ok t
  | _ + 1, [] => .error .panic
  | n + 1, c :: t => if c.utf8Size ≤ n + 1 then dropBytes (n + 1 - c.utf8Size) t else .error .panic

/-- `&text[..n]` -/
def takeBytes : ℕ → Text → Import Text
  | 0, _ => .ok []
  | _ + 1, [] => .error .panic
  | n + 1, c :: t =>
    if c.utf8Size ≤ n + 1 then do
      let rest ← takeBytes (n + 1 - c.utf8Size) t
      pure (c :: rest)
    else .error .panic

/-- `&text[start..end]` -/
def slice (start stop : ℕ) (t : Text) : Import Text := do
  let t ← dropBytes start t
  takeBytes (stop - start) t

/-- Loop of `lines`; `line` is the line that is being read, in reverse. A carriage return before the newline
is removed. -/
def splitLines : Text → (line : Text) → List Text
  | [], line => if line.isEmpty then [] else [line.reverse]
  | c :: t, line =>
    if c = '\n' then
      (match line with
      | '\r' :: line => line.reverse
      | line => line.reverse) :: splitLines t []
    else splitLines t (c :: line)

/-- `str::lines` -/
def lines (t : Text) : List Text := splitLines t []

/-! ### Lines -/

/-- `into_lines` (parse/mod.rs:104-110) with `COMMENT_INDICATOR` (token.rs:4). -/
def intoLines (t : Text) : List Text :=
  ((lines t).filter fun line => (trimStart line).head? ≠ some '*').filter fun line => !line.isEmpty

/-- `ColumnLineContent` (parse/mod.rs:157-160). -/
inductive ColumnLineContent (R : Type)
  | marker (text : Text)
  | data (column row value : Text) (rest : R)

/-- `ColumnRetriever` (parse/mod.rs:112-156). -/
structure Retriever where
  RestOfLine : Type
  twoOrThree : Text → Import Text
  oneAndTwo : Text → Import (Text × Text)
  isColumnMarkerLine : Text → Import (ColumnLineContent RestOfLine)
  twoThroughFour : Text → Import ((Text × Text × Text) × RestOfLine)
  fiveAndSix : RestOfLine → Import (Option (Text × Text))
  oneThroughThree : Text → Import ((Text × Text × Text) × RestOfLine)
  four : RestOfLine → Import Text

/-- `COLUMN_SECTION_MARKER` (token.rs:16). -/
def columnSectionMarker : Text := "'MARKER'".toList

/-- `Free` (free.rs:33-120). -/
def free : Retriever where
  RestOfLine := List Text
  twoOrThree line :=
    match splitWhitespace line with
    | name :: _ => .ok name
    | _ => .error .parse
  oneAndTwo line :=
    match splitWhitespace line with
    | one :: two :: _ => .ok (one, two)
    | _ => .error .parse
  isColumnMarkerLine line :=
    match splitWhitespace line with
    | two :: three :: four :: parts =>
      .ok (if three = columnSectionMarker then .marker four else .data two three four parts)
    | _ => .error .parse
  twoThroughFour line :=
    match splitWhitespace line with
    | two :: three :: four :: parts => .ok ((two, three, four), parts)
    | _ => .error .parse
  fiveAndSix parts :=
    match parts with
    | [] => .ok none
    | [five, six] => .ok (some (five, six))
    | _ => .error .parse
  oneThroughThree line :=
    match splitWhitespace line with
    | one :: two :: three :: parts => .ok ((one, two, three), parts)
    | _ => .error .parse
  four parts :=
    match parts with
    | value :: _ => .ok value
    | [] => .error .parse

/-- `Fixed` (fixed.rs:33-134) with `FIELDS` (fixed.rs:137-147). -/
def fixed : Retriever where
  RestOfLine := Text
  twoOrThree := free.twoOrThree
  oneAndTwo line :=
    if 4 < byteLength line then do
      let typeText ← slice 1 3 line
      let name ← slice 4 (min 12 (byteLength line)) line
      if (trimEnd name).isEmpty then .error .parse else pure (typeText, trimEnd name)
    else .error .parse
  isColumnMarkerLine line :=
    if 36 ≤ byteLength line then do
      let three ← slice 14 22 line
      if three = columnSectionMarker then
        if 47 ≤ byteLength line then do
          let five ← slice 39 47 line
          pure (.marker five)
        else .error .parse
      else do
        let two ← slice 4 12 line
        let four ← slice 24 36 line
        let rest ← dropBytes 36 line
        pure (.data (trimEnd two) (trimEnd three) (trimStart four) rest)
    else .error .parse
  twoThroughFour line :=
    if 36 ≤ byteLength line then do
      let two ← slice 4 12 line
      let three ← slice 14 22 line
      let four ← slice 24 36 line
      let rest ← dropBytes 36 line
      pure ((trimEnd two, trimEnd three, trimStart four), rest)
    else .error .parse
  fiveAndSix rest :=
    if 25 ≤ byteLength rest then do
      let five ← slice 3 11 rest
      let six ← slice 13 25 rest
      if !(trimEnd five).isEmpty && !(trimStart six).isEmpty then pure (some (trimEnd five, trimStart six))
      else pure none
    else .ok none
  oneThroughThree line :=
    if 14 ≤ byteLength line then do
      let typeText ← slice 1 3 line
      let name ← slice 4 12 line
      let column ← slice 14 22 line
      let rest ← dropBytes 22 line
      pure ((typeText, trimEnd name, trimEnd column), rest)
    else .error .parse
  four rest :=
    if 14 ≤ byteLength rest then do
      let value ← slice 2 14 rest
      pure (trimStart value)
    else .error .parse

/-! ### Sections -/

/-- `Section` (mps/mod.rs:114-129). -/
inductive Section
  | rows
  | columns
  | rhs
  | bounds
  | ranges
  | endata
  deriving DecidableEq

/-- `FromStr for Section` (parse/mod.rs:774-801). -/
def Section.fromStr (t : Text) : Import Section :=
  if t = "ROWS".toList then .ok .rows
  else if t = "COLUMNS".toList then .ok .columns
  else if t = "RHS".toList then .ok .rhs
  else if t = "BOUNDS".toList then .ok .bounds
  else if t = "RANGES".toList then .ok .ranges
  else if t = "ENDATA".toList then .ok .endata
  else .error .parse

/-- `FromStr for RowType` (parse/mod.rs:803-832); `none` is the cost row. -/
def rowTypeFromStr (word : Text) : Import (Option Relation) := do
  let first ← slice 0 1 word
  if first = ['N'] then pure none
  else if first = ['L'] then pure (some .less)
  else if first = ['E'] then pure (some .equal)
  else if first = ['G'] then pure (some .greater)
  else .error .parse

/-- `try_parse_next_section` (parse/mod.rs:753-766). -/
def tryParseNextSection (line : Text) (acceptable : List Section) : Import Section := do
  let newSection ← Section.fromStr line
  if newSection ≠ .endata ∧ newSection ∉ acceptable then .error .parse else pure newSection

/-- `is_part_of_same_section` (parse/mod.rs:768-772). -/
def isPartOfSameSection (line : Text) : Bool := line.head? = some ' '

variable (CR : Retriever)

/-- `parse_program_name` (parse/mod.rs:172-198). -/
def parseProgramName : List Text → Import (Text × List Text)
  | [] => .error .parse
  | line :: lines =>
    if byteLength line < 4 then .error .parse
    else do
      let expectedName ← takeBytes 4 line
      if expectedName = "NAME".toList then do
        let rest ← dropBytes 4 line
        let name ← CR.twoOrThree rest
        pure (name, lines)
      else .error .parse

/-- `parse_objsense_section` (parse/mod.rs:214-250). -/
def parseObjsenseSection : List Text → Import (Objective × List Text)
  | [] => .error .parse
  | line :: lines =>
    if trimEnd line = "ROWS".toList then .ok (.minimize, lines)
    else if trimEnd line = "OBJSENSE".toList then
      match lines with
      | direction :: rows :: lines =>
        if rows.take 4 ≠ "ROWS".toList then .error .parse
        else if trimEnd direction = "  MINIMIZE".toList ∨ trimEnd direction = "  MIN".toList then
          .ok (.minimize, lines)
        else if trimEnd direction = "  MAXIMIZE".toList ∨ trimEnd direction = "  MAX".toList then
          .ok (.maximize, lines)
        else .error .parse
      | _ => .error .parse
    else .error .parse

/-- `parse_row_section` (parse/mod.rs:252-292): the name of the cost row, the other rows and the remaining
lines. -/
def parseRowSection : List Text → Option Text → List Row → Import (Option Text × List Row × List Text)
  | [], _, _ => .error .parse
  | line :: lines, costRowName, rows =>
    if isPartOfSameSection line then do
      let (rowType, name) ← CR.oneAndTwo line
      match ← rowTypeFromStr rowType with
      | none => if costRowName.isSome then .error .parse else parseRowSection lines (some name) rows
      | some relation => parseRowSection lines costRowName (rows ++ [⟨name, relation⟩])
    else do
      let _ ← tryParseNextSection line [.columns]
      pure (costRowName, rows, lines)

/-- Comparison of strings by their characters, which orders them as `str::cmp` does by their bytes. -/
def textLe : Text → Text → Bool
  | [], _ => true
  | _ :: _, [] => false
  | a :: s, b :: t => if a = b then textLe s t else a.toNat < b.toNat

/-- `check_row_section_consistency` (parse/mod.rs:294-313). Simplified to a stable sort; it fails if there
are equal names. -/
def checkRowSectionConsistency (costRowName : Option Text) (rows : List Row) : Import (Text × List Row) :=
  match costRowName with
  | none => .error .inconsistency
  | some costName =>
    let rows := rows.insertionSort fun a b => textLe a.name b.name
    if rows.any fun row => row.name = costName then .error .inconsistency
    else if (rows.zip rows.tail).any fun w => w.1.name = w.2.name then .error .inconsistency
    else .ok (costName, rows)

/-- Looking up a name in the map of `build_row_index` (parse/mod.rs:334-351): the index of the row. Names are
unique after the check before; `build_row_index` does not fail. -/
def rowIndex (rows : List Row) (name : Text) : Option ℕ :=
  let i := rows.findIdx fun row => row.name = name
  if i < rows.length then some i else none

/-- Sorting by index, and failure if an index occurs twice: in `save_to_column_collector` and
`save_to_group_collector` (parse/mod.rs:473-476, 635-644). -/
def sortedUnlessDuplicate {α : Type} (values : List (ℕ × α)) : Import (List (ℕ × α)) :=
  if hasAdjacentDuplicate (sortByIndex values) then .error .inconsistency else .ok (sortByIndex values)

/-- The variables of `parse_column_section` (parse/mod.rs:358-368). -/
structure ColumnState where
  collector : List Column
  columnCollector : List (ℕ × ℚ)
  costValuesCollector : List (ℕ × ℚ)
  columnToBeSaved : Option Text
  activeVariableType : VariableType

/-- `save_to_column_collector` (parse/mod.rs:464-488). -/
def saveToColumnCollector (newColumn : Option Text) (s : ColumnState) : Import ColumnState :=
  match s.columnToBeSaved with
  | some name => do
    let values ← sortedUnlessDuplicate s.columnCollector
    pure { s with
      columnCollector := []
      collector := s.collector ++ [⟨name, s.activeVariableType, values⟩]
      columnToBeSaved := newColumn }
  | none => .ok { s with columnToBeSaved := newColumn }

/-- The closure `save_pair` in `parse_column_section` (parse/mod.rs:413-429). -/
def saveColumnPair (costRowName : Text) (rows : List Row) (s : ColumnState) (rowName valueText : Text) :
    Import ColumnState := do
  let value ← Number.parse valueText
  match rowIndex rows rowName with
  | none =>
    if rowName = costRowName then
      pure { s with costValuesCollector := s.costValuesCollector ++ [(s.collector.length, value)] }
    else .error .inconsistency
  | some i => pure { s with columnCollector := s.columnCollector ++ [(i, value)] }

/-- A data line in `parse_column_section` (parse/mod.rs:400-440). -/
def parseColumnData (costRowName : Text) (rows : List Row) (s : ColumnState)
    (columnName rowName valueText : Text) (rest : CR.RestOfLine) : Import ColumnState := do
  let s ← match s.columnToBeSaved with
    | some active => if active ≠ columnName then saveToColumnCollector (some columnName) s else .ok s
    | none => .ok { s with columnToBeSaved := some columnName }
  let s ← saveColumnPair costRowName rows s rowName valueText
  match ← CR.fiveAndSix rest with
  | some (rowName, valueText) => saveColumnPair costRowName rows s rowName valueText
  | none => pure s

/-- A line of `parse_column_section` (parse/mod.rs:374-441) with `START_OF_INTEGER` and `END_OF_INTEGER`
(token.rs:23, 32). -/
def parseColumnLine (costRowName : Text) (rows : List Row) (s : ColumnState) (line : Text) :
    Import ColumnState := do
  match ← CR.isColumnMarkerLine line with
  | .marker markerText => do
    let s ← saveToColumnCollector none s
    if markerText = "'INTORG'".toList then pure { s with activeVariableType := .integer }
    else if markerText = "'INTEND'".toList then pure { s with activeVariableType := .continuous }
    else .error .parse
  | .data columnName rowName valueText rest =>
    parseColumnData CR costRowName rows s columnName rowName valueText rest

/-- `parse_column_section` (parse/mod.rs:353-459). -/
def parseColumnSection (costRowName : Text) (rows : List Row) :
    List Text → ColumnState → Import (List Column × List (ℕ × ℚ) × Section × List Text)
  | [], _ => .error .parse
  | line :: lines, s =>
    if isPartOfSameSection line then do
      let s ← parseColumnLine CR costRowName rows s line
      parseColumnSection costRowName rows lines s
    else do
      let nextSection ← tryParseNextSection line [.rhs, .ranges, .bounds]
      let s ← saveToColumnCollector none s
      pure (s.collector, s.costValuesCollector, nextSection, lines)

/-- Looking up a name in the map of `build_column_index` (parse/mod.rs:505-515): of columns with the same
name, the last one. -/
def columnIndex (columns : List Column) (name : Text) : Option ℕ :=
  let i := columns.reverse.findIdx fun column => column.name = name
  if i < columns.length then some (columns.length - 1 - i) else none

/-- The variables of `parse_optional_section` and `parse_bounds_section` (parse/mod.rs:555-557, 668-670). -/
structure GroupState (α : Type) where
  collector : List (Listing α)
  groupCollector : List (ℕ × α)
  groupToBeSaved : Option Text

/-- `save_to_group_collector` (parse/mod.rs:627-652). -/
def saveToGroupCollector {α : Type} (canHaveDuplicates : Bool) (newGroup : Option Text) (s : GroupState α) :
    Import (GroupState α) :=
  match s.groupToBeSaved with
  | some name => do
    let values ← if canHaveDuplicates then .ok (sortByIndex s.groupCollector)
      else sortedUnlessDuplicate s.groupCollector
    pure ⟨s.collector ++ [⟨name, values⟩], [], newGroup⟩
  | none => .ok { s with groupToBeSaved := newGroup }

/-- Saving a group when the next one starts (parse/mod.rs:597-606, 713-722). -/
def startGroup {α : Type} (canHaveDuplicates : Bool) (groupName : Text) (s : GroupState α) :
    Import (GroupState α) :=
  match s.groupToBeSaved with
  | some active => if active ≠ groupName then saveToGroupCollector canHaveDuplicates (some groupName) s else .ok s
  | none => .ok { s with groupToBeSaved := some groupName }

/-- The closure `save_pair` in `parse_value_section_line` (parse/mod.rs:608-617). The value is parsed
before the row is known to exist, which matters if that aborts. -/
def saveGroupPair (rows : List Row) (s : GroupState ℚ) (rowName valueText : Text) : Import (GroupState ℚ) :=
  match rowIndex rows rowName, Number.parse valueText with
  | _, .error .panic => .error .panic
  | none, _ => .error .inconsistency
  | some _, .error e => .error e
  | some i, .ok value => .ok { s with groupCollector := s.groupCollector ++ [(i, value)] }

/-- A line of `parse_optional_section` with `parse_value_section_line` (parse/mod.rs:560-572,
586-625). -/
def parseValueLine (rows : List Row) (s : GroupState ℚ) (line : Text) : Import (GroupState ℚ) := do
  let ((groupName, rowName, valueText), rest) ← CR.twoThroughFour line
  let s ← startGroup false groupName s
  let s ← saveGroupPair rows s rowName valueText
  match ← CR.fiveAndSix rest with
  | some (rowName, valueText) => saveGroupPair rows s rowName valueText
  | none => pure s

/-- `parse_optional_section` (parse/mod.rs:543-584). -/
def parseOptionalSection (validNextSections : List Section) (rows : List Row) :
    List Text → GroupState ℚ → Import (List (Listing ℚ) × Section × List Text)
  | [], _ => .error .parse
  | line :: lines, s =>
    if isPartOfSameSection line then do
      let s ← parseValueLine CR rows s line
      parseOptionalSection validNextSections rows lines s
    else do
      let nextSection ← tryParseNextSection line validNextSections
      let s ← saveToGroupCollector false none s
      pure (s.collector, nextSection, lines)

/-- `check_ranges_consistency` (parse/mod.rs:654-662). -/
def checkRangesConsistency (ranges : List (Listing ℚ)) : Import Unit :=
  if ((flatten ranges).map (·.1)).Nodup then .ok () else .error .inconsistency

/-- The bound type in `parse_bound_line` (parse/mod.rs:724-746). -/
def parseBoundType (text : Text) (rest : CR.RestOfLine) : Import BoundType :=
  let withValue (f : ℚ → BoundType) : Import BoundType := do
    let valueText ← CR.four rest
    let value ← Number.parse valueText
    pure (f value)
  if text = "FR".toList then .ok .free
  else if text = "MI".toList then .ok .lowerMinusInfinity
  else if text = "PL".toList then .ok .upperInfinity
  else if text = "BV".toList then .ok .binary
  else if text = "LO".toList then withValue .lowerContinuous
  else if text = "UP".toList then withValue .upperContinuous
  else if text = "FX".toList then withValue .fixed
  else if text = "LI".toList then withValue .lowerInteger
  else if text = "UI".toList then withValue .upperInteger
  else if text = "SC".toList then .error .panic
  else .error .parse

/-- A line of `parse_bounds_section` with `parse_bound_line` (parse/mod.rs:673-685, 699-751). -/
def parseBoundLine (columns : List Column) (s : GroupState BoundType) (line : Text) :
    Import (GroupState BoundType) := do
  let ((typeText, boundName, columnName), rest) ← CR.oneThroughThree line
  match columnIndex columns columnName with
  | none => .error .inconsistency
  | some j => do
    let s ← startGroup true boundName s
    let boundType ← parseBoundType CR typeText rest
    pure { s with groupCollector := s.groupCollector ++ [(j, boundType)] }

/-- `parse_bounds_section` (parse/mod.rs:664-697). -/
def parseBoundsSection (columns : List Column) :
    List Text → GroupState BoundType → Import (List (Listing BoundType) × List Text)
  | [], _ => .error .parse
  | line :: lines, s =>
    if isPartOfSameSection line then do
      let s ← parseBoundLine CR columns s line
      parseBoundsSection columns lines s
    else do
      let _ ← tryParseNextSection line []
      let s ← saveToGroupCollector true none s
      pure (s.collector, lines)

/-- The sections after the columns that a program can do without, in `parse` (parse/mod.rs:64-80). -/
def parseOptionalSections (rows : List Row) (columns : List Column) (nextSection : Section) (lines : List Text) :
    Import (List (Listing ℚ) × List (Listing ℚ) × List (Listing BoundType) × List Text) := do
  let (rhss, nextSection, lines) ←
    if nextSection = .rhs then parseOptionalSection CR [.ranges, .bounds] rows lines ⟨[], [], none⟩
    else .ok ([], nextSection, lines)
  let (ranges, nextSection, lines) ←
    if nextSection = .ranges then parseOptionalSection CR [.bounds] rows lines ⟨[], [], none⟩
    else .ok ([], nextSection, lines)
  checkRangesConsistency ranges
  let (bounds, lines) ←
    if nextSection = .bounds then parseBoundsSection CR columns lines ⟨[], [], none⟩ else .ok ([], lines)
  pure (rhss, ranges, bounds, lines)

/-- `parse` (parse/mod.rs:40-93). -/
def parseLines (lines : List Text) : Import Mps := do
  let (name, lines) ← parseProgramName CR lines
  let (objective, lines) ← parseObjsenseSection lines
  let (costRowName, rows, lines) ← parseRowSection CR lines none []
  let (costRowName, rows) ← checkRowSectionConsistency costRowName rows
  let (columns, costValues, nextSection, lines) ←
    parseColumnSection CR costRowName rows lines ⟨[], [], [], none, .continuous⟩
  let (rhss, ranges, bounds, lines) ← parseOptionalSections CR rows columns nextSection lines
  if lines.isEmpty then pure ⟨name, objective, costRowName, costValues, rows, columns, rhss, ranges, bounds⟩
  else .error .parse

/-- `parse_free` (free.rs:28-30), which `parse` (mps/mod.rs:41-45) is. -/
def parseFree (text : Text) : Import Mps := parseLines free (intoLines text)

/-- `parse_fixed` (fixed.rs:28-30). -/
def parseFixed (text : Text) : Import Mps := parseLines fixed (intoLines text)

/-- Errors of `import` (error.rs:14-36), with those of parsing and `panic`. -/
inductive FileError
  | io
  | fileExtension
  | text (e : ImportError)
  deriving DecidableEq

/-- `import` (io/mod.rs:32-60) with the contents of the file, if it can be read, and its extension, if it has one
and that is valid unicode. -/
def importFile (contents : Option Text) (extension : Option (Option Text)) : Except FileError Mps :=
  match contents with
  | none => .error .io
  | some program =>
    match extension with
    | some (some extension) =>
      if extension = "mps".toList ∨ extension = "SIF".toList then
        match parseFree program with
        | .ok p => .ok p
        | .error e => .error (.text e)
      else .error .fileExtension
    | some none => .error .fileExtension
    | none => .error .fileExtension

end Relp.Mps
