import Verif.Model.MatrixData
import Verif.Model.Solve
import Mathlib.Data.List.Sort

/-!
# Model of network data and of the two network problems

Models `/repo/src/data/linear_program/network/representation.rs`, `/repo/examples/shortest_path.rs` and
`/repo/examples/max_flow.rs`.
-/

namespace Relp

namespace Network

/-- `ArcDirection` (representation.rs:140-144). -/
inductive ArcDirection
  | incoming
  | outgoing
  deriving DecidableEq

/-- `From<ArcDirection> for RationalBig` (representation.rs:161-179). Adding, subtracting, multiplying with
and dividing by a direction (representation.rs:181-347) are these operations with this number. -/
def ArcDirection.toRat : ArcDirection → ℚ
  | .incoming => 1
  | .outgoing => -1

/-- `AddAssign<&ArcDirection>` (representation.rs:208-216). -/
def ArcDirection.add (x : ℚ) : ArcDirection → ℚ
  | .incoming => x + 1
  | .outgoing => x - 1

/-- `SubAssign<&ArcDirection>` (representation.rs:247-255). -/
def ArcDirection.sub (x : ℚ) : ArcDirection → ℚ
  | .incoming => x - 1
  | .outgoing => x + 1

/-- `MulAssign<&ArcDirection>`, `Mul<&ArcDirection>` and `DivAssign<&ArcDirection>`
(representation.rs:286-347). -/
def ArcDirection.mul (x : ℚ) : ArcDirection → ℚ
  | .incoming => x
  | .outgoing => -x

/-- `slice::binary_search` on a sorted slice: found, or the number of smaller elements. -/
def binarySearch (v : List ℕ) (x : ℕ) : Except ℕ Unit :=
  if x ∈ v then .ok () else .error (v.filter (· < x)).length

/-- The tuples of the column of an arc (representation.rs:45-69). -/
def arcTuples (removed : List ℕ) (source target : ℕ) : List (ℕ × ArcDirection) :=
  match binarySearch removed source, binarySearch removed target with
  | .ok _, .ok _ => []
  | .ok _, .error targetShift => [(target - targetShift, .incoming)]
  | .error sourceShift, .ok _ => [(source - sourceShift, .outgoing)]
  | .error sourceShift, .error targetShift =>
    if source - sourceShift < target - targetShift then
      [(source - sourceShift, .outgoing), (target - targetShift, .incoming)]
    else [(target - targetShift, .incoming), (source - sourceShift, .outgoing)]

/-- `IncidenceMatrix` (representation.rs:20-27): a column-major sparse matrix of directions and the removed
vertices. -/
structure IncidenceMatrix where
  data : List (List (ℕ × ArcDirection))
  nrRows : ℕ
  nrColumns : ℕ
  removed : List ℕ

/-- `IncidenceMatrix::new` (representation.rs:30-84). -/
def IncidenceMatrix.new (adjacency : SparseMatrix) (removed : List ℕ) : IncidenceMatrix × List ℚ :=
  let removed := removed.insertionSort (· ≤ ·)
  let items := adjacency.data.zipIdx.flatMap fun p =>
    p.1.map fun q => (arcTuples removed p.2 q.1, q.2)
  let edges := items.map (·.1)
  let values := items.map (·.2)
  ({ data := edges, nrRows := adjacency.major - removed.length, nrColumns := edges.length, removed },
    values)

namespace IncidenceMatrix

variable (I : IncidenceMatrix)

/-- `column` (representation.rs:86-91). -/
def column (j : ℕ) : List (ℕ × ArcDirection) := I.data.getD j []

/-- `nr_vertices` (representation.rs:93-95). -/
def nrVertices : ℕ := I.nrRows + I.removed.length

/-- `nr_edges` (representation.rs:97-99). -/
def nrEdges : ℕ := I.nrColumns

end IncidenceMatrix

/-- The numbers that the tuples of a column stand for. -/
def numbers (tuples : List (ℕ × ArcDirection)) : SVec ℕ := tuples.map fun p => (p.1, p.2.toRat)

/-! ### Shortest path -/

/-- `Primal` (shortest_path.rs:20-31). -/
structure ShortestPath where
  matrix : IncidenceMatrix
  cost : List ℚ
  s : ℕ
  t : ℕ

namespace ShortestPath

/-- `Primal::new` (shortest_path.rs:37-56). -/
def new (adjacency : SparseMatrix) (s t : ℕ) : ShortestPath where
  matrix := (IncidenceMatrix.new adjacency [s]).1
  cost := (IncidenceMatrix.new adjacency [s]).2
  s
  t

variable (P : ShortestPath)

/-- `nr_constraints` (shortest_path.rs:102-105), which is `nr_rows`, as `nr_variable_bounds` is zero. -/
def nrRows : ℕ := P.matrix.nrVertices - 1

/-- `right_hand_side` (shortest_path.rs:87-93). -/
def rightHandSide : List ℚ :=
  (List.replicate P.nrRows 0).set (if P.t < P.s then P.t else P.t - 1) 1

/-- The matrix provider (shortest_path.rs:68-119); filtering of columns as in
representation.rs:130-138. -/
def toProvider : Provider P.nrRows P.matrix.nrEdges where
  column j := (numbers (P.matrix.column j)).toFin P.nrRows
  cost j := P.cost.getD j 0
  rhs i := P.rightHandSide.getD i 0
  filteredColumn rows j :=
    (removeSparseTuples (rows.map (·.val)) (numbers (P.matrix.column j))).toFin (keptLen rows)

end ShortestPath

/-! ### Maximum flow -/

/-- `Primal` (max_flow.rs:32-43). -/
structure MaxFlow where
  matrix : IncidenceMatrix
  capacity : List ℚ
  s : ℕ
  t : ℕ
  /-- `s_arc_range.start` -/
  sArcsStart : ℕ
  /-- `s_arc_range.end` -/
  sArcsEnd : ℕ

namespace MaxFlow

/-- `Primal::new` (max_flow.rs:54-75). -/
def new (adjacency : SparseMatrix) (s t : ℕ) : MaxFlow :=
  let arcsBefore := ((adjacency.data.take s).map List.length).sum
  let arcsLeaving := (adjacency.data.getD s []).length
  { matrix := (IncidenceMatrix.new adjacency [s, t]).1
    capacity := (IncidenceMatrix.new adjacency [s, t]).2
    s
    t
    sArcsStart := arcsBefore
    sArcsEnd := arcsBefore + arcsLeaving }

/-- `Column` (max_flow.rs:87-90). -/
structure Column where
  constraintValues : List (ℕ × ArcDirection)
  slack : ℕ × ArcDirection

/-- `iter` and `into_iter` (max_flow.rs:96-99, 136-138). -/
def Column.tuples (c : Column) : SVec ℕ := numbers (c.constraintValues ++ [c.slack])

/-- `into_filtered` (max_flow.rs:125-129). -/
def Column.intoFiltered (c : Column) (toRemove : List ℕ) : Column :=
  { c with
    constraintValues := (c.constraintValues.filter fun p => p.1 ∉ toRemove).map fun p =>
      ((keptIndices toRemove p.1).length, p.2) }

variable (P : MaxFlow)

/-- `nr_constraints` (max_flow.rs:194-196). -/
def nrConstraints : ℕ := P.matrix.nrVertices - 2

/-- `nr_constraints() + nr_variable_bounds()` (max_flow.rs:194-200). -/
def nrRows : ℕ := P.nrConstraints + P.matrix.nrEdges

/-- `nr_columns` (max_flow.rs:202-205). -/
def nrColumns : ℕ := P.matrix.nrEdges + P.matrix.nrEdges

/-- `column` (max_flow.rs:149-163). -/
def column (j : ℕ) : Column :=
  if j < P.matrix.nrEdges then
    ⟨P.matrix.column j, (P.nrConstraints + j, .incoming)⟩
  else
    ⟨[], (P.nrConstraints + j - P.matrix.nrEdges, .incoming)⟩

/-- `cost_value` (max_flow.rs:165-173) and the arithmetic of `Cost` (max_flow.rs:225-258). -/
def costValue (j : ℕ) : ℚ := if P.sArcsStart ≤ j ∧ j < P.sArcsEnd then -1 else 0

/-- `right_hand_side` (max_flow.rs:175-179). -/
def rightHandSide : List ℚ := List.replicate P.nrConstraints 0 ++ P.capacity

/-- `bound_row_index` (max_flow.rs:181-192). -/
def boundRowIndex (j : ℕ) : BoundDirection → Option ℕ
  | .lower => none
  | .upper => if j < P.matrix.nrEdges then some (P.nrConstraints + j) else none

/-- `pivot_element_indices` (max_flow.rs:216-218). -/
def pivotElementIndices : List (ℕ × ℕ) :=
  (List.range P.matrix.nrEdges).map fun j => (j + P.nrConstraints, P.matrix.nrEdges + j)

/-- The matrix provider (max_flow.rs:144-214). -/
def toProvider : Provider P.nrRows P.nrColumns where
  column j := (P.column j).tuples.toFin P.nrRows
  cost j := P.costValue j
  rhs i := P.rightHandSide.getD i 0
  filteredColumn rows j := ((P.column j).intoFiltered (rows.map (·.val))).tuples.toFin (keptLen rows)

/-- The initial basis (max_flow.rs:216-227). -/
def initialBasis : InitialBasis P.nrRows P.nrColumns :=
  .partially (P.pivotElementIndices.filterMap fun p =>
    if h : p.1 < P.nrRows ∧ p.2 < P.nrColumns then some (⟨p.1, h.1⟩, ⟨p.2, h.2⟩) else none)

end MaxFlow

end Network

end Relp
