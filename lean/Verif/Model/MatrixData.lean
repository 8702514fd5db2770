import Verif.Model.Vector
import Verif.Model.Variable
import Verif.Model.Solve

/-!
# Model of `MatrixData` and of the row filter

Models `/repo/src/algorithm/two_phase/matrix_provider/matrix_data.rs` and
`/repo/src/algorithm/two_phase/matrix_provider/filter/generic_wrapper.rs`.

Row and column indices are natural numbers here, as in the code. `toProvider` converts to the typed
indices that the solver model uses; tuples with an index out of range would be dropped there, the
proofs show that there are none for valid data.
-/

namespace Relp

/-- `MatrixData` (matrix_data.rs:61-102). The group ends and the two bound index vectors are computed by
functions below. `constraints` is column-major: `data` has the columns. -/
structure MatrixData where
  constraints : SparseMatrix
  b : List ℚ
  ranges : List ℚ
  nrEquality : ℕ
  nrRange : ℕ
  nrUpper : ℕ
  nrLower : ℕ
  vars : List Variable

/-- `ColumnType` (matrix_data.rs:116-145). -/
inductive ColumnType
  | normal
  | rangeSlack
  | upperSlack
  | lowerSlack
  | variableBoundSlack
  | slackBoundSlack
  deriving DecidableEq

/-- `Column` (matrix_data.rs:459-491). -/
inductive DataColumn
  | sparse (constraintValues : SVec ℕ) (slack : Option (ℕ × ℚ))
  | slack (tuple : ℕ × ℚ)
  | twoSlack (first second : ℕ × ℚ)

namespace DataColumn

/-- `iter` (matrix_data.rs:620-629). -/
def tuples : DataColumn → SVec ℕ
  | sparse constraintValues bound => constraintValues ++ bound.toList
  | slack tuple => [tuple]
  | twoSlack first second => [first, second]

/-- `into_filtered` (matrix_data.rs:670-692). The subtraction of `usize`s is cut off at zero here; the
proofs show that it does not underflow. -/
def intoFiltered (toFilter : List ℕ) : DataColumn → DataColumn
  | sparse constraintValues bound =>
    sparse (removeSparseTuples toFilter constraintValues)
      (bound.map fun p => (p.1 - toFilter.length, p.2))
  | slack p => slack (p.1 - toFilter.length, p.2)
  | twoSlack p q => twoSlack (p.1 - toFilter.length, p.2) (q.1 - toFilter.length, q.2)

end DataColumn

namespace MatrixData

variable (M : MatrixData)

/-- The two vectors that `new` builds in its loop (matrix_data.rs:184-193):
`non_slack_variable_index_to_bound_index` and `bound_index_to_non_slack_variable_index`. -/
def boundIndices (vars : List Variable) : List (Option ℕ) × List ℕ :=
  vars.zipIdx.foldl (fun acc p =>
    if p.1.upperBound.isSome then (acc.1 ++ [some acc.2.length], acc.2 ++ [p.2])
    else (acc.1 ++ [none], acc.2)) ([], [])

/-- `non_slack_variable_index_to_bound_index` -/
def variableToBound : List (Option ℕ) := (boundIndices M.vars).1

/-- `bound_index_to_non_slack_variable_index` -/
def boundToVariable : List ℕ := (boundIndices M.vars).2

/-- `nr_bounds` (matrix_data.rs:197) -/
def nrBounds : ℕ := M.boundToVariable.length

/-! `row_group_end` (matrix_data.rs:207-214). -/

def equalityEnd : ℕ := M.nrEquality
def rangeEnd : ℕ := M.equalityEnd + M.nrRange
def upperEnd : ℕ := M.rangeEnd + M.nrUpper
def lowerEnd : ℕ := M.upperEnd + M.nrLower
def variableBoundEnd : ℕ := M.lowerEnd + M.nrBounds
def slackBoundEnd : ℕ := M.variableBoundEnd + M.nrRange

/-! `column_group_end` (matrix_data.rs:225-232). -/

def normalColumnEnd : ℕ := M.vars.length
def rangeSlackEnd : ℕ := M.normalColumnEnd + M.nrRange
def upperSlackEnd : ℕ := M.rangeSlackEnd + M.nrUpper
def lowerSlackEnd : ℕ := M.upperSlackEnd + M.nrLower
def variableBoundSlackEnd : ℕ := M.lowerSlackEnd + M.nrBounds
def slackBoundSlackEnd : ℕ := M.variableBoundSlackEnd + M.nrRange

/-- `column_type` (matrix_data.rs:253-273). -/
def columnType (j : ℕ) : ColumnType × ℕ :=
  if j < M.normalColumnEnd then (.normal, j - 0)
  else if j < M.rangeSlackEnd then (.rangeSlack, j - M.normalColumnEnd)
  else if j < M.upperSlackEnd then (.upperSlack, j - M.rangeSlackEnd)
  else if j < M.lowerSlackEnd then (.lowerSlack, j - M.upperSlackEnd)
  else if j < M.variableBoundSlackEnd then (.variableBoundSlack, j - M.lowerSlackEnd)
  else (.slackBoundSlack, j - M.variableBoundSlackEnd)

/-- `bound_row_index` (matrix_data.rs:356-379). -/
def boundRowIndex (j : ℕ) : BoundDirection → Option ℕ
  | .lower => none
  | .upper =>
    match M.columnType j with
    | (.normal, j) => (M.variableToBound.getD j none).map fun index => M.lowerEnd + index
    | (.rangeSlack, j) => some (M.variableBoundEnd + j)
    | _ => none

/-- `column` (matrix_data.rs:291-329). -/
def column (j : ℕ) : DataColumn :=
  match M.columnType j with
  | (.normal, j) => .sparse (M.constraints.data.getD j [])
      ((M.boundRowIndex j .upper).map fun i => (i, 1))
  | (.rangeSlack, j) => .twoSlack (M.equalityEnd + j, 1) (M.variableBoundEnd + j, 1)
  | (.upperSlack, j) => .slack (M.rangeEnd + j, 1)
  | (.lowerSlack, j) => .slack (M.upperEnd + j, -1)
  | (.variableBoundSlack, j) => .slack (M.lowerEnd + j, 1)
  | (.slackBoundSlack, j) => .slack (M.variableBoundEnd + j, 1)

/-- `cost_value` (matrix_data.rs:331-339); `None` is zero. -/
def costValue (j : ℕ) : ℚ :=
  match M.columnType j with
  | (.normal, j) => (M.vars[j]?.map (·.cost)).getD 0
  | _ => 0

/-- `right_hand_side` (matrix_data.rs:341-353). -/
def rightHandSide : List ℚ :=
  M.b ++ (M.boundToVariable.map fun j => ((M.vars[j]?.bind (·.upperBound)).getD 0)) ++ M.ranges

/-- `nr_constraints` (matrix_data.rs:381-387). -/
def nrConstraints : ℕ := M.lowerEnd

/-- `nr_variable_bounds` (matrix_data.rs:389-391). -/
def nrVariableBounds : ℕ := M.boundToVariable.length + M.nrRange

/-- `nr_rows` (matrix_provider/mod.rs:110-112). -/
def nrRows : ℕ := M.nrConstraints + M.nrVariableBounds

/-- `nr_columns` (matrix_data.rs:393-400). -/
def nrColumns : ℕ := M.slackBoundSlackEnd

/-- `reconstruct_solution` (matrix_data.rs:402-411): delete the columns
`nr_normal_variables() .. nr_columns()`. -/
def reconstructSolution (columnValues : SparseVector) : SparseVector :=
  columnValues.removeIndices
    (List.range' M.constraints.major (M.nrColumns - M.constraints.major))

/-- `pivot_element_indices` (matrix_data.rs:419-445). -/
def pivotElementIndices : List (ℕ × ℕ) :=
  ((List.range M.nrUpper).map fun j => (M.rangeEnd + j, M.rangeSlackEnd + j)) ++
  ((List.range M.boundToVariable.length).map fun j => (M.lowerEnd + j, M.lowerSlackEnd + j)) ++
  (List.range M.nrRange).map fun j => (M.variableBoundEnd + j, M.variableBoundSlackEnd + j)

/-- `nr_initial_elements` (matrix_data.rs:447-449). -/
def nrInitialElements : ℕ := M.nrUpper + M.nrVariableBounds

end MatrixData

/-! ### Typed indices -/

/-- Tuples with typed indices. -/
def SVec.toFin (m : ℕ) (v : SVec ℕ) : Sparse m :=
  v.filterMap fun p => if h : p.1 < m then some (⟨p.1, h⟩, p.2) else none

/-- The `SparseVector` that a solution vector with typed indices stands for. -/
def SVec.toVector {n : ℕ} (x : SVec (Fin n)) : SparseVector := ⟨x.map fun p => (p.1.val, p.2), n⟩

/-- The matrix provider that the solver sees. -/
def MatrixData.toProvider (M : MatrixData) : Provider M.nrRows M.nrColumns where
  column j := (M.column j).tuples.toFin M.nrRows
  cost j := M.costValue j
  rhs i := M.rightHandSide.getD i 0
  filteredColumn rows j :=
    ((M.column j).intoFiltered (rows.map (·.val))).tuples.toFin (keptLen rows)

/-- The initial basis that the solver uses for a `MatrixData` (`PartialInitialBasis`). -/
def MatrixData.initialBasis (M : MatrixData) : InitialBasis M.nrRows M.nrColumns :=
  .partially (M.pivotElementIndices.filterMap fun p =>
    if h : p.1 < M.nrRows ∧ p.2 < M.nrColumns then some (⟨p.1, h.1⟩, ⟨p.2, h.2⟩) else none)

/-! ### Row filter -/

namespace RemoveRows

/-- The binary search of `get_underlying_index` (generic_wrapper.rs:191-199), with the distance of the
bounds as fuel. -/
def searchLoop (skip : List ℕ) (i : ℕ) : ℕ → ℕ → ℕ → ℕ
  | 0, _, upper => upper
  | fuel + 1, lower, upper =>
    if upper - lower ≠ 1 then
      let middle := (lower + upper) / 2
      if skip.getD middle 0 - middle ≤ i then searchLoop skip i fuel middle upper
      else searchLoop skip i fuel lower middle
    else upper

/-- `get_underlying_index` (generic_wrapper.rs:173-205). -/
def getUnderlyingIndex (skip : List ℕ) (i : ℕ) : ℕ :=
  if skip.length = 0 then i
  else if skip.length = 1 then
    if i < skip.getD 0 0 then i else i + skip.length
  else
    if i < skip.getD 0 0 then i
    else i + searchLoop skip i skip.length 0 skip.length

/-- `bound_row_index` (generic_wrapper.rs:250-256), given the result of the wrapped provider. -/
def boundRowIndex (skip : List ℕ) (inner : Option ℕ) : Option ℕ := inner.map (· - skip.length)

/-- `right_hand_side` (generic_wrapper.rs:244-248). -/
def rightHandSide (skip : List ℕ) (inner : List ℚ) : List ℚ := removeListIndices skip inner

/-- Outcome of a deletion. -/
inductive DeleteOutcome
  | deleted (skip : List ℕ)
  | alreadyDeleted
  | assertionFailed
  deriving DecidableEq

/-- `delete_row` (generic_wrapper.rs:146-156) and `delete_index` (generic_wrapper.rs:212-221).
`debug` tells whether debug assertions are compiled in. -/
def deleteRow (debug : Bool) (skip : List ℕ) (i : ℕ) : DeleteOutcome :=
  let original := getUnderlyingIndex skip i
  if debug ∧ original ∉ skip then .assertionFailed
  else if original ∈ skip then .alreadyDeleted
  else .deleted (skip.takeWhile (· < original) ++ original :: skip.dropWhile (· < original))

end RemoveRows

end Relp
