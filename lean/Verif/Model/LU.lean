import Verif.Model.Permutation
import Verif.Model.Carry

/-!
# Model of the LU decomposition

Models `/repo/src/algorithm/two_phase/tableau/inverse_maintenance/carry/lower_upper/`
(`mod.rs`, `decomposition/mod.rs`, `decomposition/pivoting.rs`, `eta_file.rs`).

`Vec<(usize, F)>` is a `Sparse m`. A `BTreeMap<usize, F>` is a `Sparse m` in key order; inserting,
removing and popping act on that list. A vector of length `m - 1` is a function on `Fin (m - 1)`.
`while let` loops run on fuel.
-/

namespace Relp

open Permutation

variable {m : ℕ}

/-! ### Eta files -/

/-- `EtaFile` (eta_file.rs:14-18). -/
structure EtaFile (m : ℕ) where
  values : Sparse m
  pivot : Fin m

namespace EtaFile

/-- `update_value` (eta_file.rs:137-157). The position that is passed is that of the binary search for
`newIndex`. -/
def updateValue (difference : ℚ) (newIndex : Fin m) (vector : Sparse m) : Sparse m :=
  if difference ≠ 0 then
    match SVec.get? vector newIndex with
    | some x =>
      if x - difference = 0 then SVec.setZero vector newIndex
      else SVec.set vector newIndex (x - difference)
    | none => SVec.set vector newIndex (-difference)
  else vector

/-- `apply_left` (eta_file.rs:49-65). The value at the pivot position is read once: the loop only
changes values at the indices of `values`, which are larger than the pivot. -/
def applyLeft (eta : EtaFile m) (vector : Sparse m) : Sparse m :=
  match SVec.get? vector eta.pivot with
  | none => vector
  | some x => eta.values.foldl (fun vector p => updateValue (p.2 * x) p.1 vector) vector

/-- The merging `while` loop of `apply_right` (eta_file.rs:84-98). -/
def mergeProduct : Sparse m → Sparse m → ℚ
  | [], _ => 0
  | _, [] => 0
  | (i, x) :: v, (j, y) :: w =>
    if i < j then mergeProduct v ((j, y) :: w)
    else if i = j then x * y + mergeProduct v w
    else mergeProduct ((i, x) :: v) w
termination_by v w => v.length + w.length

/-- `apply_right` (eta_file.rs:72-105). -/
def applyRight (eta : EtaFile m) (vector : Sparse m) : Sparse m :=
  let total := mergeProduct eta.values (vector.dropWhile fun x => decide (x.1 < eta.pivot))
  updateValue total eta.pivot vector

/-- `update_spike_pivot_value` (eta_file.rs:112-134). -/
def updateSpikePivotValue (eta : EtaFile m) (spike : Sparse m) : Sparse m :=
  let after := spike.dropWhile fun x => decide (x.1 ≤ eta.pivot)
  let difference := (eta.values.map fun p =>
    match SVec.get? after p.1 with
    | some y => p.2 * y
    | none => 0).sum
  updateValue difference eta.pivot spike

end EtaFile

/-! ### The decomposition -/

/-- `LUDecomposition` (lower_upper/mod.rs:36-58). -/
structure LU (m : ℕ) where
  rowPermutation : Full m
  columnPermutation : Full m
  lowerTriangular : Fin (m - 1) → Sparse m
  upperTriangular : Fin (m - 1) → Sparse m
  upperDiagonal : Fin m → ℚ
  updates : List (EtaFile m × RotateToBack m)

/-- `ColumnAndSpike` (lower_upper/mod.rs:418-422). -/
structure ColumnAndSpike (m : ℕ) where
  column : Sparse m
  spike : Sparse m

namespace LU

/-- `insert_or_shift_maybe_remove` (lower_upper/mod.rs:400-415). -/
def insertOrShift (index : Fin m) (change : ℚ) (rhs : Sparse m) : Sparse m :=
  match SVec.get? rhs index with
  | none => SVec.set rhs index (-change)
  | some existing =>
    if existing - change = 0 then SVec.setZero rhs index
    else SVec.set rhs index (existing - change)

/-- `self.upper_triangular[j - 1]` for a column `j > 0`. -/
def upperColumn (lu : LU m) (j : Fin m) (h : 0 < (j : ℕ)) : Sparse m :=
  lu.upperTriangular ⟨j - 1, by omega⟩

/-- `self.lower_triangular[j]` for a column `j < m - 1`. -/
def lowerColumn (lu : LU m) (j : Fin m) (h : (j : ℕ) < m - 1) : Sparse m :=
  lu.lowerTriangular ⟨j, h⟩

/-- The `while` loop of `left_multiply_by_lower_inverse` (lower_upper/mod.rs:286-305). -/
def leftLower (lu : LU m) : ℕ → Sparse m → Res (Sparse m)
  | _, [] => .ok []
  | 0, _ :: _ => .error .outOfFuel
  | fuel + 1, (row, value) :: rhs =>
    let rhs :=
      if h : (row : ℕ) < m - 1 then
        (lu.lowerColumn row h).foldl (fun rhs p => insertOrShift p.1 (value * p.2) rhs) rhs
      else rhs
    match leftLower lu fuel rhs with
    | .error e => .error e
    | .ok result => .ok ((row, value) :: result)

/-- `update_rhs` (lower_upper/mod.rs:339-345). -/
def updateRhs (lu : LU m) (column : Fin m) (resultValue : ℚ) (rhs : Sparse m) : Sparse m :=
  if h : 0 < (column : ℕ) then
    (lu.upperColumn column h).foldl (fun rhs p => insertOrShift p.1 (resultValue * p.2) rhs) rhs
  else rhs

/-- The `while` loop of `left_multiply_by_upper_inverse` (lower_upper/mod.rs:307-321), which pops the
last item; the reversal at the end is done by appending. -/
def leftUpper (lu : LU m) : ℕ → Sparse m → Res (Sparse m)
  | fuel, rhs =>
    match rhs.getLast?, fuel with
    | none, _ => .ok []
    | some _, 0 => .error .outOfFuel
    | some (row, value), fuel + 1 =>
      if lu.upperDiagonal row = 0 then panic .divisionByZero
      else
        let resultValue := value / lu.upperDiagonal row
        match leftUpper lu fuel (lu.updateRhs row resultValue rhs.dropLast) with
        | .error e => .error e
        | .ok result => .ok (result ++ [(row, resultValue)])

/-- The `while` loop of `right_multiply_by_lower_inverse` (lower_upper/mod.rs:347-371). -/
def rightLower (lu : LU m) : ℕ → Sparse m → Res (Sparse m)
  | fuel, rhs =>
    match rhs.getLast?, fuel with
    | none, _ => .ok []
    | some _, 0 => .error .outOfFuel
    | some (column, value), fuel + 1 =>
      let rhs := ((List.finRange (m - 1)).filter fun j : Fin (m - 1) => decide ((j : ℕ) < column)).foldl
        (fun rhs j =>
          match SVec.get? (lu.lowerTriangular j) column with
          | some x => insertOrShift ⟨j, by omega⟩ (value * x) rhs
          | none => rhs)
        rhs.dropLast
      match rightLower lu fuel rhs with
      | .error e => .error e
      | .ok result => .ok (result ++ [(column, value)])

/-- The `while` loop of `right_multiply_by_upper_inverse` (lower_upper/mod.rs:373-397). -/
def rightUpper (lu : LU m) : ℕ → Sparse m → Res (Sparse m)
  | _, [] => .ok []
  | 0, _ :: _ => .error .outOfFuel
  | fuel + 1, (column, value) :: rhs =>
    if lu.upperDiagonal column = 0 then panic .divisionByZero
    else
      let resultValue := value / lu.upperDiagonal column
      -- `j` ranges over `column + 1 .. m`, `upper_triangular` is read at `j - 1`
      let rhs := ((List.finRange (m - 1)).filter fun j : Fin (m - 1) => decide ((column : ℕ) ≤ j)).foldl
        (fun rhs j =>
          match SVec.get? (lu.upperTriangular j) column with
          | some x => insertOrShift ⟨j + 1, by omega⟩ (resultValue * x) rhs
          | none => rhs)
        rhs
      match rightUpper lu fuel rhs with
      | .error e => .error e
      | .ok result => .ok ((column, resultValue) :: result)

/-- `identity` (lower_upper/mod.rs:67-76): `m - 1` underflows for `m = 0`. -/
def identity (m : ℕ) : Res (LU m) :=
  if m = 0 then panic .underflow
  else .ok {
    rowPermutation := Full.identity m
    columnPermutation := Full.identity m
    lowerTriangular := fun _ => []
    upperTriangular := fun _ => []
    upperDiagonal := fun _ => 1
    updates := [] }

/-- `left_multiply_by_basis_inverse` (lower_upper/mod.rs:180-210). -/
def leftMultiply (lu : LU m) (column : Sparse m) : Res (ColumnAndSpike m) := do
  let rhs := sortByIndex (column.map fun p => (forward lu.rowPermutation p.1, p.2))
  let w ← lu.leftLower m rhs
  let w := lu.updates.foldl (fun w u => forwardSorted u.2 (u.1.applyRight w)) w
  let column ← lu.leftUpper m w
  let column := lu.updates.foldr (fun u column => backwardUnsorted u.2 column) column
  let column := backwardUnsorted lu.columnPermutation column
  pure { column := sortByIndex column, spike := w }

/-- The part of `right_multiply_by_basis_inverse` and `basis_inverse_row` after the permutation of the
row (lower_upper/mod.rs:226-236 and 260-271). -/
def rightSolve (lu : LU m) (lhs : Sparse m) : Res (Sparse m) := do
  let lhs ← lu.rightUpper m (sortByIndex lhs)
  let lhs := lu.updates.foldr (fun u lhs => u.1.applyLeft (backwardSorted u.2 lhs)) lhs
  let lhs ← lu.rightLower m lhs
  pure (backwardSorted lu.rowPermutation lhs)

/-- `right_multiply_by_basis_inverse` (lower_upper/mod.rs:212-237). -/
def rightMultiply (lu : LU m) (row : Sparse m) : Res (Sparse m) :=
  lu.rightSolve (lu.updates.foldl (fun lhs u => forwardUnsorted u.2 lhs)
    (row.map fun p => (forward lu.columnPermutation p.1, p.2)))

/-- Position of a basis column in the triangle (lower_upper/mod.rs:101-109 and 255-258). -/
def pivotPosition (lu : LU m) (row : Fin m) : Fin m :=
  lu.updates.foldl (fun i u => forward u.2 i) (forward lu.columnPermutation row)

/-- `basis_inverse_row` (lower_upper/mod.rs:254-272). -/
def basisInverseRow (lu : LU m) (row : Fin m) : Res (Sparse m) :=
  lu.rightSolve [(lu.pivotPosition row, 1)]

/-- `generate_element` (lower_upper/mod.rs:239-247). -/
def generateElement (lu : LU m) (i : Fin m) (column : Sparse m) : Res (Option ℚ) := do
  let info ← lu.leftMultiply column
  pure (SVec.get? info.column i)

/-- `should_refactor` (lower_upper/mod.rs:249-252). -/
def shouldRefactor (lu : LU m) : Bool := decide (lu.updates.length > 30)

/-- Values right of the diagonal in row `pivot` of the upper triangle: `u_bar`
(lower_upper/mod.rs:112-123). -/
def uBar (lu : LU m) (pivot : Fin m) : Sparse m :=
  (List.finRange (m - 1)).filterMap fun j : Fin (m - 1) =>
    if (pivot : ℕ) ≤ j then
      (SVec.get? (lu.upperTriangular j) pivot).map fun x => (⟨j + 1, by omega⟩, x)
    else none

/-- `change_basis` (lower_upper/mod.rs:94-178). -/
def changeBasis (lu : LU m) (pivotRow : Fin m) (info : ColumnAndSpike m) :
    Res (LU m × Sparse m) := do
  let pivot := lu.pivotPosition pivotRow
  let r ← lu.rightUpper m (lu.uBar pivot)
  let eta : EtaFile m := ⟨r, pivot⟩
  -- zero out the row that is rotated to the bottom
  let upper : Fin (m - 1) → Sparse m := fun j =>
    if (pivot : ℕ) ≤ j then SVec.setZero (lu.upperTriangular j) pivot else lu.upperTriangular j
  let spike := eta.updateSpikePivotValue info.spike
  let disappearing : ℕ := if (pivot : ℕ) = 0 then 0 else pivot - 1
  if h : disappearing < m - 1 then
    let upper := rotateLeftFrom ⟨disappearing, h⟩ (Function.update upper ⟨disappearing, h⟩ spike)
    let diagonal := rotateLeftFrom pivot lu.upperDiagonal
    let q : RotateToBack m := ⟨pivot⟩
    -- `for j in max(pivot_column_index, 1)..m`, applied to `upper_triangular[j - 1]`
    let upper : Fin (m - 1) → Sparse m := fun j =>
      if max (pivot : ℕ) 1 ≤ j + 1 then forwardSorted q (upper j) else upper j
    let last : Fin (m - 1) := ⟨m - 1 - 1, by omega⟩
    match (upper last).getLast? with
    | none => panic .indexOutOfBounds
    | some (_, cornerValue) =>
      pure ({ lu with
          upperTriangular := Function.update upper last (upper last).dropLast
          upperDiagonal := Function.update diagonal ⟨m - 1, by omega⟩ cornerValue
          updates := lu.updates ++ [(eta, q)] },
        info.column)
  else panic .indexOutOfBounds

/-! ### Gaussian elimination -/

/-- State of the elimination loop (decomposition/mod.rs:37-44). -/
structure Elimination (m : ℕ) where
  rows : Fin m → Sparse m
  rowPermutation : Fin m → Fin m
  columnPermutation : Fin m → Fin m
  lowerRowMajor : Fin (m - 1) → Sparse m
  nnzRow : Fin m → ℕ
  nnzColumn : Fin m → ℕ

/-- Checked subtraction of `usize`s. -/
def checkedSub (a b : ℕ) : Res ℕ := if b ≤ a then .ok (a - b) else panic .underflow

/-- Decrease a counter by one. -/
def decrement (counts : Fin m → ℕ) (i : Fin m) : Res (Fin m → ℕ) := do
  let value ← checkedSub (counts i) 1
  pure (Function.update counts i value)

/-- `count_non_zeros` (decomposition/mod.rs:278-304), the column part. -/
def countColumns (rows : Fin m → Sparse m) : Fin m → ℕ :=
  (List.finRange m).foldl
    (fun counts i => (rows i).foldl (fun counts p => Function.update counts p.1 (counts p.1 + 1))
      counts)
    fun _ => 0

/-- `min_by_key`: the first item with a minimal key. Computing a key may abort. -/
def minByKey {α : Type} (key : α → Res ℕ) : List α → Res (Option (α × ℕ))
  | [] => .ok none
  | a :: rest => do
    let ka ← key a
    let best ← minByKey key rest
    match best with
    | none => pure (some (a, ka))
    | some (b, kb) => if kb < ka then pure (some (b, kb)) else pure (some (a, ka))

/-- `Markowitz::choose_pivot` (decomposition/pivoting.rs:45-81). -/
def choosePivot (s : Elimination m) (k : Fin m) : Res (Fin m × Fin m) := do
  let pairs := ((List.finRange m).filter fun i => decide (k ≤ i)).flatMap fun i =>
    ((s.rows i).dropWhile fun p => decide (p.1 < k)).map fun p => (i, p.1)
  let pairs := pairs.insertionSort fun p q => p.2 ≤ q.2
  let best ← minByKey
    (fun p => do
      let a ← checkedSub (s.nnzRow p.1) 1
      let b ← checkedSub (s.nnzColumn p.2) 1
      pure (a * b))
    pairs
  match best with
  | none => panic .singular
  | some (p, _) => pure p

/-- `swap`, the row part (decomposition/mod.rs:245-259). -/
def swapRows (s : Elimination m) (pivotRow k : Fin m) : Elimination m :=
  if pivotRow ≠ k then
    { s with
      rowPermutation := swapAt pivotRow k s.rowPermutation
      nnzRow := swapAt pivotRow k s.nnzRow
      rows := swapAt pivotRow k s.rows
      lowerRowMajor :=
        if h : 0 < (pivotRow : ℕ) ∧ 0 < (k : ℕ) then
          swapAt ⟨pivotRow - 1, by omega⟩ ⟨k - 1, by omega⟩ s.lowerRowMajor
        else s.lowerRowMajor }
  else s

/-- `swap`, the column part (decomposition/mod.rs:261-272). -/
def swapColumns (s : Elimination m) (pivotColumn k : Fin m) : Elimination m :=
  if pivotColumn ≠ k then
    { s with
      columnPermutation := swapAt pivotColumn k s.columnPermutation
      nnzColumn := swapAt pivotColumn k s.nnzColumn
      rows := fun i => forwardSorted (⟨pivotColumn, k⟩ : Swap m) (s.rows i) }
  else s

/-- The counter updates for the pivot row (decomposition/mod.rs:58-61). -/
def removePivotRowCounts (s : Elimination m) (k : Fin m) : Res (Elimination m) :=
  (s.rows k).foldlM
    (fun s p => do
      let nnzRow ← decrement s.nnzRow k
      let nnzColumn ← decrement s.nnzColumn p.1
      pure { s with nnzRow, nnzColumn })
    s

/-- The merge of `subtract_multiple_of_row_from_other_row` (decomposition/mod.rs:146-210): new row,
columns in which a nonzero disappeared, columns in which one appeared. The special case of an empty
row gives the same result as the general loop. -/
def subtractMultiple (ratio : ℚ) : Sparse m → Sparse m →
    Sparse m × List (Fin m) × List (Fin m)
  | [], [] => ([], [], [])
  | [], (i, y) :: w =>
    let (new, removed, added) := subtractMultiple ratio [] w
    ((i, -ratio * y) :: new, removed, i :: added)
  | (j, x) :: v, [] =>
    let (new, removed, added) := subtractMultiple ratio v []
    ((j, x) :: new, removed, added)
  | (j, x) :: v, (i, y) :: w =>
    if i < j then
      let (new, removed, added) := subtractMultiple ratio ((j, x) :: v) w
      ((i, -ratio * y) :: new, removed, i :: added)
    else if i = j then
      let product := ratio * y
      let (new, removed, added) := subtractMultiple ratio v w
      if product ≠ x then ((j, x - product) :: new, removed, added)
      else (new, j :: removed, added)
    else
      let (new, removed, added) := subtractMultiple ratio v ((i, y) :: w)
      ((j, x) :: new, removed, added)
termination_by v w => v.length + w.length

/-- The collection of the ratios (decomposition/mod.rs:72-80): rows below the pivot that start with
column `k` lose that value; the ratio with the pivot value is remembered. -/
def collectRatios (k : Fin m) (pivotValue : ℚ) :
    List (Fin m) → Elimination m → Res (Elimination m × List (Fin m × ℚ))
  | [], s => .ok (s, [])
  | i :: rest, s =>
    match s.rows i with
    | [] => panic .indexOutOfBounds
    | (j, value) :: tail =>
      if j = k then do
        if pivotValue = 0 then panic .divisionByZero else
        let nnzRow ← decrement s.nnzRow i
        let nnzColumn ← decrement s.nnzColumn k
        let (s, ratios) ← collectRatios k pivotValue rest
          { s with rows := Function.update s.rows i tail, nnzRow, nnzColumn }
        pure (s, (i, value / pivotValue) :: ratios)
      else collectRatios k pivotValue rest s

/-- One iteration of the loop that eliminates below the pivot (decomposition/mod.rs:83-102).
`rest` is the pivot row without its first item. -/
def eliminateRow (k : Fin m) (rest : Sparse m) (s : Elimination m) (p : Fin m × ℚ) :
    Res (Elimination m) := do
  let old := s.rows p.1
  let (new, removed, added) := subtractMultiple p.2 old rest
  -- net difference of the number of nonzeros
  let count ← checkedSub (s.nnzRow p.1) (old.length - new.length)
  let nnzRow := Function.update s.nnzRow p.1 (count + (new.length - old.length))
  let nnzColumn ← removed.foldlM decrement s.nnzColumn
  let nnzColumn := added.foldl (fun counts j => Function.update counts j (counts j + 1)) nnzColumn
  if h : 0 < (p.1 : ℕ) then
    let index : Fin (m - 1) := ⟨p.1 - 1, by omega⟩
    pure { s with
      rows := Function.update s.rows p.1 new
      nnzRow, nnzColumn
      lowerRowMajor := Function.update s.lowerRowMajor index (s.lowerRowMajor index ++ [(k, p.2)]) }
  else panic .underflow

/-- One iteration of the main loop (decomposition/mod.rs:45-110). -/
def eliminationStep (s : Elimination m) (k : Fin m) : Res (Elimination m) := do
  let (pivotRow, pivotColumn) ← choosePivot s k
  let s := swapColumns (swapRows s pivotRow k) pivotColumn k
  let s ← removePivotRowCounts s k
  match s.rows k with
  | [] => panic .indexOutOfBounds
  | (_, pivotValue) :: rest =>
    let (s, ratios) ← collectRatios k pivotValue
      ((List.finRange m).filter fun i => decide (k < i)) s
    ratios.foldlM (eliminateRow k rest) s

/-- The transposition of the upper triangle (decomposition/mod.rs:112-124): item `(j, value)`, `j > 0`
of row `i` is pushed to column `j - 1`. The first item of every row is the diagonal value. -/
def collectUpper (rows : Fin m → Sparse m) : Res ((Fin (m - 1) → Sparse m) × (Fin m → ℚ)) := do
  let diagonal ← tabulateM fun i =>
    match rows i with
    | [] => panic .indexOutOfBounds
    | (_, value) :: _ => .ok value
  let upper ← (List.finRange m).foldlM
    (fun upper i => (rows i).tail.foldlM
      (fun (upper : Fin (m - 1) → Sparse m) p =>
        if h : 0 < (p.1 : ℕ) then
          let index : Fin (m - 1) := ⟨p.1 - 1, by omega⟩
          (.ok (Function.update upper index (upper index ++ [(i, p.2)])) : Res _)
        else panic .underflow)
      upper)
    fun _ => []
  pure (upper, diagonal)

/-- The transposition of the lower triangle (decomposition/mod.rs:125-132): item `(j, v)` of stored
row `i` (row `i + 1` of the matrix) is pushed to column `j`, of which there are `m - 1`. -/
def collectLower (lowerRowMajor : Fin (m - 1) → Sparse m) : Res (Fin (m - 1) → Sparse m) :=
  (List.finRange (m - 1)).foldlM
    (fun lower i => (lowerRowMajor i).foldlM
      (fun (lower : Fin (m - 1) → Sparse m) p =>
        if h : (p.1 : ℕ) < m - 1 then
          (.ok (Function.update lower ⟨p.1, h⟩ (lower ⟨p.1, h⟩ ++ [(⟨i + 1, by omega⟩, p.2)])) :
            Res _)
        else panic .indexOutOfBounds)
      lower)
    fun _ => []

/-- `LUDecomposition::rows` (decomposition/mod.rs:27-143). -/
def ofRows (rows : Fin m → Sparse m) : Res (LU m) := do
  if m = 0 then panic .underflow else
  let s : Elimination m := {
    rows
    rowPermutation := fun i => i
    columnPermutation := fun i => i
    lowerRowMajor := fun _ => []
    nnzRow := fun i => (rows i).length
    nnzColumn := countColumns rows }
  let s ← (List.finRange m).foldlM eliminationStep s
  let (upperTriangular, upperDiagonal) ← collectUpper s.rows
  let lowerTriangular ← collectLower s.lowerRowMajor
  pure {
    rowPermutation := (Full.new s.rowPermutation).invert
    columnPermutation := (Full.new s.columnPermutation).invert
    lowerTriangular, upperTriangular, upperDiagonal
    updates := [] }

/-- `invert` (lower_upper/mod.rs:78-92). -/
def invert (columns : Fin m → Sparse m) : Res (LU m) := ofRows (Carry.transposeColumns columns)

end LU

/-- `impl BasisInverse for LUDecomposition` (lower_upper/mod.rs:60-280). There is no
`RemoveBasisPart`, so rows are removed by inverting the remaining columns (carry/mod.rs:542). -/
instance : BasisInverse LU where
  Info := ColumnAndSpike
  infoColumn info := info.column
  identity := LU.identity
  invert := LU.invert
  changeBasis := LU.changeBasis
  leftMultiply := LU.leftMultiply
  rightMultiply := LU.rightMultiply
  generateElement := LU.generateElement
  shouldRefactor := LU.shouldRefactor
  basisInverseRow := LU.basisInverseRow
  removeBasis _ _ columns := LU.invert columns

end Relp
