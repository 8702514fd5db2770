import Verif.Model.SolveFile
import Verif.Model.DebugForm

/-!
# Model of reading and converting MPS files in a debug build

The definitions here are those of `Model/Number.lean`, `Model/MpsParse.lean`, `Model/Mps.lean` and
`Model/SolveFile.lean` with the checks (`debug_assert!`) that a debug build makes in them, and with arithmetic on
`u64` that aborts on overflow instead of wrapping around. Functions without checks are shared.
-/

namespace Relp

/-- `debug_assert!` in a function that reads a file: abort if the condition does not hold. -/
def importAssert (condition : Bool) : Import Unit :=
  if condition then .ok () else .error .panic

/-- A function that is called while a file is converted, and can only abort. -/
def Import.ofRes {α : Type} : Res α → Import α
  | .ok a => .ok a
  | .error _ => .error .panic

namespace Number

/-- The digits as one integer, and the number of decimals (parse.rs:97-107): `10_u64.pow`, the product and the sum
abort on overflow. -/
def parseMagnitudeDebug (text : Text) : Import (ℕ × ℕ) :=
  match splitAtPoint text with
  | (whole, none) => do
    let integer ← parsePart whole
    pure (integer, 0)
  | (whole, some decimals) => do
    let integerPart ← parsePart whole
    let mantissaPart ← parsePart decimals
    importAssert (10 ^ decimals.length < u64)
    importAssert (integerPart * 10 ^ decimals.length < u64)
    importAssert (integerPart * 10 ^ decimals.length + mantissaPart < u64)
    pure (integerPart * 10 ^ decimals.length + mantissaPart, decimals.length)

/-- `Raw::try_from` (parse.rs:80-118). -/
def Raw.tryFromDebug (text : Text) : Import Raw :=
  match text with
  | [] => .error .panic
  | first :: rest =>
    if 128 ≤ first.toNat then .error .panic
    else do
      let hasMinus := decide (first = '-')
      let (integer, steps) ← parseMagnitudeDebug (if hasMinus then rest else text)
      let sign := if integer = 0 then Sign.zero else if hasMinus then .negative else .positive
      pure ⟨sign, integer, steps⟩

/-- `From<Raw> for Rational64` (parse.rs:55-65). -/
def Raw.toRationalDebug (raw : Raw) : Import ℚ := do
  importAssert (raw.sign ≠ .zero ∨ raw.integer = 0)
  importAssert (10 ^ raw.decimalSteps < u64)
  pure raw.toRational

/-- `Rational64::parse` (parse.rs:46-53). -/
def parseDebug (text : Text) : Import ℚ := do
  let raw ← Raw.tryFromDebug text
  raw.toRationalDebug

end Number

namespace Mps

/-! ### Parsing -/

/-- `is_part_of_same_section` (parse/mod.rs:768-772). -/
def isPartOfSameSectionDebug (line : Text) : Import Bool := do
  importAssert (!line.isEmpty)
  pure (isPartOfSameSection line)

variable (CR : Retriever)

/-- `parse_row_section` (parse/mod.rs:252-292). -/
def parseRowSectionDebug : List Text → Option Text → List Row → Import (Option Text × List Row × List Text)
  | [], _, _ => .error .parse
  | line :: lines, costRowName, rows => do
    let same ← isPartOfSameSectionDebug line
    if same then do
      let (rowType, name) ← CR.oneAndTwo line
      match ← rowTypeFromStr rowType with
      | none => if costRowName.isSome then .error .parse else parseRowSectionDebug lines (some name) rows
      | some relation => parseRowSectionDebug lines costRowName (rows ++ [⟨name, relation⟩])
    else do
      let _ ← tryParseNextSection line [.columns]
      pure (costRowName, rows, lines)

/-- The checks of `build_row_index` (parse/mod.rs:338-340). -/
def checkRowIndex (costRowName : Text) (rows : List Row) : Import Unit := do
  importAssert ((rows.map (·.name)).toFinset.card = rows.length)
  importAssert (decide (costRowName ∉ (rows.map (·.name))))

/-- The closure `save_pair` in `parse_column_section` (parse/mod.rs:413-429). -/
def saveColumnPairDebug (costRowName : Text) (rows : List Row) (s : ColumnState) (rowName valueText : Text) :
    Import ColumnState := do
  let value ← Number.parseDebug valueText
  match rowIndex rows rowName with
  | none =>
    if rowName = costRowName then
      pure { s with costValuesCollector := s.costValuesCollector ++ [(s.collector.length, value)] }
    else .error .inconsistency
  | some i => pure { s with columnCollector := s.columnCollector ++ [(i, value)] }

/-- A data line in `parse_column_section` (parse/mod.rs:400-440). -/
def parseColumnDataDebug (costRowName : Text) (rows : List Row) (s : ColumnState)
    (columnName rowName valueText : Text) (rest : CR.RestOfLine) : Import ColumnState := do
  let s ← match s.columnToBeSaved with
    | some active => if active ≠ columnName then saveToColumnCollector (some columnName) s else .ok s
    | none => .ok { s with columnToBeSaved := some columnName }
  let s ← saveColumnPairDebug costRowName rows s rowName valueText
  match ← CR.fiveAndSix rest with
  | some (rowName, valueText) => saveColumnPairDebug costRowName rows s rowName valueText
  | none => pure s

/-- A marker in `parse_column_section`, after the last column is saved (parse/mod.rs:389-398): the type of the
variables should change. -/
def parseMarkerDebug (s : ColumnState) (markerText : Text) : Import ColumnState :=
  if markerText = "'INTORG'".toList then do
    importAssert (s.activeVariableType ≠ .integer)
    pure { s with activeVariableType := .integer }
  else if markerText = "'INTEND'".toList then do
    importAssert (s.activeVariableType ≠ .continuous)
    pure { s with activeVariableType := .continuous }
  else .error .parse

/-- A line of `parse_column_section` (parse/mod.rs:374-441). -/
def parseColumnLineDebug (costRowName : Text) (rows : List Row) (s : ColumnState) (line : Text) :
    Import ColumnState := do
  match ← CR.isColumnMarkerLine line with
  | .marker markerText => do
    let s ← saveToColumnCollector none s
    parseMarkerDebug s markerText
  | .data columnName rowName valueText rest =>
    parseColumnDataDebug CR costRowName rows s columnName rowName valueText rest

/-- `parse_column_section` (parse/mod.rs:353-459). -/
def parseColumnSectionDebug (costRowName : Text) (rows : List Row) :
    List Text → ColumnState → Import (List Column × List (ℕ × ℚ) × Section × List Text)
  | [], _ => .error .parse
  | line :: lines, s => do
    let same ← isPartOfSameSectionDebug line
    if same then do
      let s ← parseColumnLineDebug CR costRowName rows s line
      parseColumnSectionDebug costRowName rows lines s
    else do
      let nextSection ← tryParseNextSection line [.rhs, .ranges, .bounds]
      let s ← saveToColumnCollector none s
      importAssert (decide (s.costValuesCollector.Pairwise fun a b => a.1 ≤ b.1))
      pure (s.collector, s.costValuesCollector, nextSection, lines)

/-- The check of `build_column_index` (parse/mod.rs:506-509). -/
def checkColumnIndex (columns : List Column) : Import Unit :=
  importAssert ((columns.map (·.name)).toFinset.card = columns.length)

/-- The closure `save_pair` in `parse_value_section_line` (parse/mod.rs:608-617). -/
def saveGroupPairDebug (rows : List Row) (s : GroupState ℚ) (rowName valueText : Text) : Import (GroupState ℚ) :=
  match rowIndex rows rowName, Number.parseDebug valueText with
  | _, .error .panic => .error .panic
  | none, _ => .error .inconsistency
  | some _, .error e => .error e
  | some i, .ok value => .ok { s with groupCollector := s.groupCollector ++ [(i, value)] }

/-- A line of `parse_optional_section` with `parse_value_section_line` (parse/mod.rs:560-572,
586-625). -/
def parseValueLineDebug (rows : List Row) (s : GroupState ℚ) (line : Text) : Import (GroupState ℚ) := do
  let ((groupName, rowName, valueText), rest) ← CR.twoThroughFour line
  let s ← startGroup false groupName s
  let s ← saveGroupPairDebug rows s rowName valueText
  match ← CR.fiveAndSix rest with
  | some (rowName, valueText) => saveGroupPairDebug rows s rowName valueText
  | none => pure s

/-- `parse_optional_section` (parse/mod.rs:543-584). -/
def parseOptionalSectionDebug (validNextSections : List Section) (rows : List Row) :
    List Text → GroupState ℚ → Import (List (Listing ℚ) × Section × List Text)
  | [], _ => .error .parse
  | line :: lines, s => do
    let same ← isPartOfSameSectionDebug line
    if same then do
      let s ← parseValueLineDebug CR rows s line
      parseOptionalSectionDebug validNextSections rows lines s
    else do
      let nextSection ← tryParseNextSection line validNextSections
      let s ← saveToGroupCollector false none s
      pure (s.collector, nextSection, lines)

/-- The bound type in `parse_bound_line` (parse/mod.rs:724-746). -/
def parseBoundTypeDebug (text : Text) (rest : CR.RestOfLine) : Import BoundType :=
  let withValue (f : ℚ → BoundType) : Import BoundType := do
    let valueText ← CR.four rest
    let value ← Number.parseDebug valueText
    pure (f value)
  if text = "FR".toList then .ok .free
  else if text = "MI".toList then .ok .lowerMinusInfinity
  else if text = "PL".toList then .ok .upperInfinity
  else if text = "BV".toList then .ok .binary
  else if text = "LO".toList then withValue .lowerContinuous
  else if text = "UP".toList then withValue .upperContinuous
  else if text = "FX".toList then withValue .fixed
  else if text = "LI".toList then withValue .lowerInteger
  else if text = "UI".toList then withValue .upperInteger
  else if text = "SC".toList then .error .panic
  else .error .parse

/-- A line of `parse_bounds_section` with `parse_bound_line` (parse/mod.rs:673-685, 699-751). -/
def parseBoundLineDebug (columns : List Column) (s : GroupState BoundType) (line : Text) :
    Import (GroupState BoundType) := do
  let ((typeText, boundName, columnName), rest) ← CR.oneThroughThree line
  match columnIndex columns columnName with
  | none => .error .inconsistency
  | some j => do
    let s ← startGroup true boundName s
    let boundType ← parseBoundTypeDebug CR typeText rest
    pure { s with groupCollector := s.groupCollector ++ [(j, boundType)] }

/-- `parse_bounds_section` (parse/mod.rs:664-697). -/
def parseBoundsSectionDebug (columns : List Column) :
    List Text → GroupState BoundType → Import (List (Listing BoundType) × List Text)
  | [], _ => .error .parse
  | line :: lines, s => do
    let same ← isPartOfSameSectionDebug line
    if same then do
      let s ← parseBoundLineDebug CR columns s line
      parseBoundsSectionDebug columns lines s
    else do
      let _ ← tryParseNextSection line []
      let s ← saveToGroupCollector true none s
      pure (s.collector, lines)

/-- The sections after the columns that a program can do without, in `parse` (parse/mod.rs:64-80). -/
def parseOptionalSectionsDebug (rows : List Row) (columns : List Column) (nextSection : Section)
    (lines : List Text) : Import (List (Listing ℚ) × List (Listing ℚ) × List (Listing BoundType) × List Text) := do
  let (rhss, nextSection, lines) ←
    if nextSection = .rhs then parseOptionalSectionDebug CR [.ranges, .bounds] rows lines ⟨[], [], none⟩
    else .ok ([], nextSection, lines)
  let (ranges, nextSection, lines) ←
    if nextSection = .ranges then parseOptionalSectionDebug CR [.bounds] rows lines ⟨[], [], none⟩
    else .ok ([], nextSection, lines)
  checkRangesConsistency ranges
  let (bounds, lines) ←
    if nextSection = .bounds then parseBoundsSectionDebug CR columns lines ⟨[], [], none⟩ else .ok ([], lines)
  pure (rhss, ranges, bounds, lines)

/-- `parse` (parse/mod.rs:40-93). -/
def parseLinesDebug (lines : List Text) : Import Mps := do
  let (name, lines) ← parseProgramName CR lines
  let (objective, lines) ← parseObjsenseSection lines
  let (costRowName, rows, lines) ← parseRowSectionDebug CR lines none []
  let (costRowName, rows) ← checkRowSectionConsistency costRowName rows
  checkRowIndex costRowName rows
  let (columns, costValues, nextSection, lines) ←
    parseColumnSectionDebug CR costRowName rows lines ⟨[], [], [], none, .continuous⟩
  checkColumnIndex columns
  let (rhss, ranges, bounds, lines) ← parseOptionalSectionsDebug CR rows columns nextSection lines
  if lines.isEmpty then pure ⟨name, objective, costRowName, costValues, rows, columns, rhss, ranges, bounds⟩
  else .error .parse

/-- `parse_free` (free.rs:28-30), which `parse` (mps/mod.rs:41-45) is. -/
def parseFreeDebug (text : Text) : Import Mps := parseLinesDebug free (intoLines text)

/-- `parse_fixed` (fixed.rs:28-30). -/
def parseFixedDebug (text : Text) : Import Mps := parseLinesDebug fixed (intoLines text)

/-! ### Conversion -/

/-- `process_bounds` (convert.rs:145-182) with `fill_in_default_lower_bounds` (convert.rs:290-305). The check of
`replace_existing_with` (273) is on constants, and that on the lengths (294) is on a list that is made with this
length. -/
def processBoundsDebug (vars : List Variable) (bounds : List (Listing BoundType)) : Import (List Variable) := do
  importAssert (vars.all fun v => v.lowerBound.isNone && v.upperBound.isNone)
  let states ← (flatten bounds).foldlM (updateAt processBoundState) (vars.map fun v => ⟨v, true, false⟩)
  if states.any fun s => s.isFree && (s.var.lowerBound.isSome || s.var.upperBound.isSome) then
    .error .inconsistency
  else do
    importAssert (states.all fun s => !s.needsDefault || s.var.lowerBound.isNone)
    pure (states.map fun s => if s.needsDefault then { s.var with lowerBound := some 0 } else s.var)

/-- `compute_variable_info` (convert.rs:92-132) with the checks of `ColumnMajor::new` (matrix.rs:391-411). -/
def computeVariableInfoDebug (columns : List Column) (costValues : SVec ℕ) (bounds : List (Listing BoundType))
    (nrRows : ℕ) : Import (List Variable × SparseMatrix × List String) := do
  importAssert ((columns.map (·.name)).toFinset.card = columns.length)
  importAssert (decide (costValues.Pairwise fun a b => a.1 ≤ b.1))
  let info ← processBoundsDebug (assignCosts 0 columns costValues) bounds
  let matrix ← Import.ofRes (SparseMatrix.newDebug (columns.map (·.values)) columns.length nrRows)
  pure (info, matrix, columns.map fun c => String.ofList c.name)

/-- Body of the loop of `compute_b` (convert.rs:466-503) for the row of the value. -/
def computeBRowDebug (s : RowState) (value : ℚ) : Import RowState := do
  importAssert (s.b.isNone || match s.type with
    | .range _ => false
    | _ => true)
  computeBRow s value

/-- `compute_constraint_info` (convert.rs:315-332) with `compute_constraint_types` (401-423), `compute_b` (445-509)
and the check of `DenseVector::new` (dense.rs:96). -/
def computeConstraintInfoDebug (rows : List Row) (rhss : List (Listing ℚ)) (ranges : List (Listing ℚ)) :
    Import (List ConstraintType × List ℚ) := do
  let ranges ← computeRanges rhss ranges rows.length
  importAssert (decide (ranges.IsChain fun a b => a.1 < b.1))
  importAssert (ranges.all fun q => q.1 < rows.length)
  let types := computeConstraintTypes 0 rows ranges
  importAssert (rhss.all fun rhs => decide (rhs.values.Pairwise fun a b => a.1 ≤ b.1))
  importAssert (rhss.all fun rhs => rhs.values.all fun q => q.1 < rows.length)
  let states ← (flatten rhss).foldlM (updateAt computeBRowDebug)
    ((rows.zip types).map fun p => ⟨p.1.relation, p.2, none⟩)
  importAssert (states.length = rows.length)
  pure (states.map (·.type), states.map fun s => s.b.getD 0)

/-- `TryInto<GeneralForm>` (convert.rs:51-73). -/
def toGeneralFormDebug (p : Mps) : Import GeneralForm := do
  let (vars, columns, names) ← computeVariableInfoDebug p.columns p.costValues p.bounds p.rows.length
  let (types, b) ← computeConstraintInfoDebug p.rows p.rhss p.ranges
  Import.ofRes (GeneralForm.newDebug p.objective columns types b vars names 0)

/-- `solve` (tests/netlib/mod.rs:47-70, tests/unicamp/mod.rs:47-88, tests/miplib/mod.rs:49-75), see `solveText`. -/
def solveTextDebug (parse : Text → Import Mps) (inv : InverseName) (rule : RuleName) (presolveFuel fuel : ℕ)
    (text : Text) : Option LinearProgramType :=
  match parse text with
  | .error _ => none
  | .ok p =>
    match p.toGeneralFormDebug with
    | .error _ => none
    | .ok G => G.presolveAndSolveDebug inv rule presolveFuel fuel

end Mps

end Relp
