import Verif.Model.Display
import Verif.Model.MatrixData
import Verif.Model.Network

/-!
# Model of the texts that problems in matrix form are displayed as

Models `fmt` of `MatrixData` (`/repo/src/algorithm/two_phase/matrix_provider/matrix_data.rs`) and of `RemoveRows`
(`/repo/src/algorithm/two_phase/matrix_provider/filter/generic_wrapper.rs`), and of the shortest path problem
(`/repo/examples/shortest_path.rs`). As in `Model/Display.lean`, a text is a
list of lines, and `text` is how the number type writes numbers.
-/

namespace Relp.Display

/-- `f.write_str(&"=".repeat(width))` (matrix_data.rs:722, 727, generic_wrapper.rs:335): this does not end a line, so
that the next line that is written continues it. -/
def beforeFirst (separator : Line) : List Line → List Line
  | [] => [separator]
  | line :: lines => (separator ++ line) :: lines

/-- The counter of a row, `{:>8}` of `"{} |"` (matrix_data.rs:729, generic_wrapper.rs:338). -/
def rowCounter (i : ℕ) : Line := alignRight 8 (digits i ++ [' ', '|'])

section

variable (text : ℚ → Line)

/-- The text for an element of a column: the first tuple with this index (matrix_data.rs:734-736, and
`index_to_string` in matrix_data.rs:631-661, column/mod.rs:105-110, representation.rs:120-124). -/
def elementText (tuples : SVec ℕ) (i : ℕ) : Line :=
  match SVec.get? tuples i with
  | none => ['0']
  | some value => text value

variable (M : MatrixData)

/-- The mark at the start of a group of columns: `column == 0 || self.column_group_end.values().any(..)`
(matrix_data.rs:706-708, 715-717, 731-733). -/
def columnMark (j : ℕ) : Line :=
  if j = 0 ∨ j ∈ [M.normalColumnEnd, M.rangeSlackEnd, M.upperSlackEnd, M.lowerSlackEnd, M.variableBoundSlackEnd,
    M.slackBoundSlackEnd] then ['|'] else []

/-- The loops that write the cells of one line (matrix_data.rs:705-710, 714-720, 730-738). -/
def problemCells (texts : ℕ → Line) : Line :=
  (List.range M.nrColumns).flatMap fun j => columnMark M j ++ center 8 (texts j)

/-- `separator_width` (matrix_data.rs:702). -/
def separatorWidth : ℕ := (1 + M.nrColumns) * 8 + 6

/-- The text for the cost of a column (matrix_data.rs:718): `cost_value` is `None` for slack columns (331-339). -/
def costText (j : ℕ) : Line :=
  match M.columnType j with
  | (.normal, _) => text (M.costValue j)
  | _ => ['0']

/-- What is written before a row: a separator at the start of a group (matrix_data.rs:725-728). -/
def rowSeparator (i : ℕ) : Line :=
  if i = 0 ∨ i ∈ [M.equalityEnd, M.rangeEnd, M.upperEnd, M.lowerEnd, M.variableBoundEnd, M.slackBoundEnd]
  then List.replicate (separatorWidth M) '-' else []

/-- `fmt` of `MatrixData` (matrix_data.rs:700-742). -/
def problem : List Line :=
  [alignRight 8 ['|'] ++ problemCells M digits] ++
  beforeFirst (List.replicate (separatorWidth M) '=')
    ([alignRight 8 "cost |".toList ++ problemCells M (costText text M)] ++
    beforeFirst (List.replicate (separatorWidth M) '=')
      (((List.range M.nrRows).map fun i =>
        rowSeparator M i ++ rowCounter i ++ problemCells M fun j => elementText text (M.column j).tuples i) ++ [[]]))

/-- `fmt` of `RemoveRows` (generic_wrapper.rs:327-345), for a provider with these numbers of remaining rows and of
columns, and these filtered columns. -/
def removeRows (nrRows nrColumns : ℕ) (column : ℕ → SVec ℕ) : List Line :=
  [List.replicate 8 ' ' ++ (List.range nrColumns).flatMap fun j => center 8 (digits j)] ++
  beforeFirst (List.replicate ((1 + nrColumns) * 8) '-')
    (((List.range nrRows).map fun i =>
      rowCounter i ++ (List.range nrColumns).flatMap fun j => center 8 (elementText text (column j) i)) ++ [[]])

/-- `fmt` of `RemoveRows<MatrixData>`: `nr_rows` is that of the problem without the removed rows
(generic_wrapper.rs:258-268), `column` filters a column (235-239). -/
def filteredProblem (skip : List ℕ) : List Line :=
  removeRows text (M.nrRows - skip.length) M.nrColumns fun j => ((M.column j).intoFiltered skip).tuples

end

/-! ### Shortest path -/

section

open Network

/-- `fmt` of `ArcDirection` (representation.rs:153-158). -/
def directionText : ArcDirection → Line
  | .incoming => ['1']
  | .outgoing => ['-', '1']

/-- `index_to_string` of `ArcIncidenceColumn` (representation.rs:120-124). -/
def arcText (tuples : List (ℕ × ArcDirection)) (i : ℕ) : Line :=
  match tuples.find? fun p => p.1 = i with
  | none => ['0']
  | some p => directionText p.2

/-- `fmt` of `Primal` (shortest_path.rs:124-148). `{:>10.5}` shows the first five characters. -/
def shortestPath (P : ShortestPath) : List Line :=
  ["Shortest Path Network".toList,
    "Vertices: ".toList ++ digits P.matrix.nrVertices ++ "\tEdges: ".toList ++ digits P.matrix.nrEdges,
    "Source: ".toList ++ digits P.s ++ "\tSink: ".toList ++ digits P.t,
    alignRight 5 [] ++ (List.range P.matrix.nrEdges).flatMap fun j => alignRight 10 (digits j)] ++
  (List.range P.nrRows).map fun i =>
    digits i ++ List.replicate (5 - (digits i).length) ' ' ++
      (List.range P.matrix.nrEdges).flatMap fun j => alignRight 10 ((arcText (P.matrix.column j) i).take 5)

end

end Relp.Display
