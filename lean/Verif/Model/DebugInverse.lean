import Verif.Model.Rows

/-!
# Model of the basis inverse representations in a debug build

`DebugLU` and `DebugRows` are the two representations with the checks (`debug_assert!`) that a debug build
makes inside of them (`carry/lower_upper` and `carry/basis_inverse_rows.rs`).

Not repeated: checks that an index is below the number of rows and that lists have that many items (part of
the types). Where a check stands in a loop over rows, columns or items that do not influence each other, it
is made for all of them before the loop or for all of them after it. `is_sorted` and
`windows(2).all(|w| w[0].0 < w[1].0)` are stated for all pairs of items instead of neighbours.
-/

namespace Relp

open Permutation

variable {m : ℕ}

/-- `debug_assert!(condition)`. -/
def debugAssert (condition : Bool) : Res Unit :=
  if condition then .ok () else panic .debugAssertion

/-- `for_each` with a body that may abort. -/
def forEach {α : Type} (f : α → Res Unit) : List α → Res Unit
  | [] => .ok ()
  | a :: l =>
    match f a with
    | .error e => .error e
    | .ok () => forEach f l

/-- The checks of `SparseVector::new` (sparse.rs:91-95). That the indices are below the length is part of
the type. -/
def sparseVectorCheck {len : ℕ} (data : SVec (Fin len)) : Res Unit := do
  debugAssert (decide (data.Pairwise fun p q => p.1 ≤ q.1))
  debugAssert (decide (∀ p ∈ data, p.2 ≠ 0))
  debugAssert (len ≠ 0)
  debugAssert (data.length ≤ len)

/-- `items.is_sorted_by_key(|&(i, _)| i)`. -/
def sortedCheck (items : Sparse m) : Res Unit :=
  debugAssert (decide (items.Pairwise fun p q => p.1 ≤ q.1))

/-- `items.windows(2).all(|w| w[0].0 < w[1].0)`. -/
def strictlySortedCheck (items : Sparse m) : Res Unit :=
  debugAssert (decide (items.Pairwise fun p q => p.1 < q.1))

/-- `forward_sorted` with its checks (rotate_to_back.rs:66-67, 86; swap.rs:44-45, 70;
permutation/mod.rs:63-64). The last two only apply to the first two kinds of permutations; sorting makes the
check hold for the others. -/
def forwardSortedDebug {P : ℕ → Type} [Permutation P] (p : P m) (items : Sparse m) : Res (Sparse m) := do
  strictlySortedCheck items
  strictlySortedCheck (forwardSorted p items)
  pure (forwardSorted p items)

/-- `backward_sorted` with its checks (rotate_to_back.rs:90-91, 116; permutation/mod.rs:77-79). -/
def backwardSortedDebug {P : ℕ → Type} [Permutation P] (p : P m) (items : Sparse m) : Res (Sparse m) := do
  strictlySortedCheck items
  strictlySortedCheck (backwardSorted p items)
  pure (backwardSorted p items)

namespace EtaFile

/-- `EtaFile::new` (eta_file.rs:31-42). -/
def newDebug (values : Sparse m) (pivot : Fin m) : Res (EtaFile m) := do
  strictlySortedCheck values
  debugAssert (decide (∀ p ∈ values.head?, pivot < p.1))
  pure ⟨values, pivot⟩

/-- `apply_left` (eta_file.rs:49-65). -/
def applyLeftDebug (eta : EtaFile m) (vector : Sparse m) : Res (Sparse m) := do
  strictlySortedCheck vector
  strictlySortedCheck (eta.applyLeft vector)
  pure (eta.applyLeft vector)

/-- `apply_right` (eta_file.rs:72-105). -/
def applyRightDebug (eta : EtaFile m) (vector : Sparse m) : Res (Sparse m) := do
  strictlySortedCheck vector
  strictlySortedCheck (eta.applyRight vector)
  pure (eta.applyRight vector)

/-- `update_spike_pivot_value` (eta_file.rs:112-134): `spike.last().unwrap()` stands in a check. -/
def updateSpikePivotValueDebug (eta : EtaFile m) (spike : Sparse m) : Res (Sparse m) := do
  strictlySortedCheck spike
  debugAssert (!spike.isEmpty)
  pure (eta.updateSpikePivotValue spike)

end EtaFile

namespace LU

/-- The loop over the updates in `left_multiply_by_basis_inverse` (lower_upper/mod.rs:191-195). -/
def applyUpdatesDebug : List (EtaFile m × RotateToBack m) → Sparse m → Res (Sparse m)
  | [], w => .ok w
  | u :: us, w => do
    let w ← u.1.applyRightDebug w
    let w ← forwardSortedDebug u.2 w
    applyUpdatesDebug us w

/-- The loop over the updates in `right_multiply_by_basis_inverse` and `basis_inverse_row`
(lower_upper/mod.rs:228-231 and 263-266): from the last update to the first. -/
def unapplyUpdatesDebug : List (EtaFile m × RotateToBack m) → Sparse m → Res (Sparse m)
  | [], lhs => .ok lhs
  | u :: us, lhs => do
    let lhs ← unapplyUpdatesDebug us lhs
    let lhs ← backwardSortedDebug u.2 lhs
    u.1.applyLeftDebug lhs

/-- `left_multiply_by_upper_inverse` (lower_upper/mod.rs:307-321). -/
def leftUpperDebug (lu : LU m) (rhs : Sparse m) : Res (Sparse m) := do
  let result ← lu.leftUpper m rhs
  sortedCheck result
  pure result

/-- `right_multiply_by_lower_inverse` (lower_upper/mod.rs:347-371). -/
def rightLowerDebug (lu : LU m) (rhs : Sparse m) : Res (Sparse m) := do
  let result ← lu.rightLower m rhs
  sortedCheck result
  pure result

/-- `right_multiply_by_upper_inverse` (lower_upper/mod.rs:373-397). -/
def rightUpperDebug (lu : LU m) (rhs : Sparse m) : Res (Sparse m) := do
  let result ← lu.rightUpper m rhs
  strictlySortedCheck result
  pure result

/-- `left_multiply_by_basis_inverse` (lower_upper/mod.rs:180-210). -/
def leftMultiplyDebug (lu : LU m) (column : Sparse m) : Res (ColumnAndSpike m) := do
  let rhs := sortByIndex (column.map fun p => (forward lu.rowPermutation p.1, p.2))
  let w ← lu.leftLower m rhs
  let w ← applyUpdatesDebug lu.updates w
  let column ← lu.leftUpperDebug w
  let column := lu.updates.foldr (fun u column => backwardUnsorted u.2 column) column
  let column := backwardUnsorted lu.columnPermutation column
  sparseVectorCheck (sortByIndex column)
  pure { column := sortByIndex column, spike := w }

/-- `rightSolve` of `Model/LU.lean` (lower_upper/mod.rs:226-236 and 260-271). -/
def rightSolveDebug (lu : LU m) (lhs : Sparse m) : Res (Sparse m) := do
  let lhs ← lu.rightUpperDebug (sortByIndex lhs)
  let lhs ← unapplyUpdatesDebug lu.updates lhs
  let lhs ← lu.rightLowerDebug lhs
  let lhs ← backwardSortedDebug lu.rowPermutation lhs
  sparseVectorCheck lhs
  pure lhs

/-- `right_multiply_by_basis_inverse` (lower_upper/mod.rs:212-237). -/
def rightMultiplyDebug (lu : LU m) (row : Sparse m) : Res (Sparse m) :=
  lu.rightSolveDebug (lu.updates.foldl (fun lhs u => forwardUnsorted u.2 lhs)
    (row.map fun p => (forward lu.columnPermutation p.1, p.2)))

/-- `basis_inverse_row` (lower_upper/mod.rs:254-272). -/
def basisInverseRowDebug (lu : LU m) (row : Fin m) : Res (Sparse m) :=
  lu.rightSolveDebug [(lu.pivotPosition row, 1)]

/-- `generate_element` (lower_upper/mod.rs:239-247). -/
def generateElementDebug (lu : LU m) (i : Fin m) (column : Sparse m) : Res (Option ℚ) := do
  let info ← lu.leftMultiplyDebug column
  pure (SVec.get? info.column i)

/-- `change_basis` (lower_upper/mod.rs:94-178). The checks of `forward_sorted` are made for all columns to
which it is applied. -/
def changeBasisDebug (lu : LU m) (pivotRow : Fin m) (info : ColumnAndSpike m) :
    Res (LU m × Sparse m) := do
  let pivot := lu.pivotPosition pivotRow
  let r ← lu.rightUpperDebug (lu.uBar pivot)
  let eta ← EtaFile.newDebug r pivot
  let upper : Fin (m - 1) → Sparse m := fun j =>
    if (pivot : ℕ) ≤ j then SVec.setZero (lu.upperTriangular j) pivot else lu.upperTriangular j
  strictlySortedCheck info.spike
  let spike ← eta.updateSpikePivotValueDebug info.spike
  debugAssert (SVec.get? spike pivot).isSome
  let disappearing : ℕ := if (pivot : ℕ) = 0 then 0 else pivot - 1
  if h : disappearing < m - 1 then
    let upper := rotateLeftFrom ⟨disappearing, h⟩ (Function.update upper ⟨disappearing, h⟩ spike)
    let diagonal := rotateLeftFrom pivot lu.upperDiagonal
    let q : RotateToBack m := ⟨pivot⟩
    let upper ← tabulateM fun j : Fin (m - 1) =>
      if max (pivot : ℕ) 1 ≤ j + 1 then forwardSortedDebug q (upper j) else .ok (upper j)
    let last : Fin (m - 1) := ⟨m - 1 - 1, by omega⟩
    match (upper last).getLast? with
    | none => panic .indexOutOfBounds
    | some (cornerIndex, cornerValue) =>
      let upper := Function.update upper last (upper last).dropLast
      debugAssert ((cornerIndex : ℕ) = m - 1)
      forEach (fun j => strictlySortedCheck (upper j)) (List.finRange (m - 1))
      forEach (fun j => debugAssert (decide (∀ p ∈ (upper j).getLast?, (p.1 : ℕ) < j + 1)))
        (List.finRange (m - 1))
      pure ({ lu with
          upperTriangular := upper
          upperDiagonal := Function.update diagonal ⟨m - 1, by omega⟩ cornerValue
          updates := lu.updates ++ [(eta, q)] },
        info.column)
  else panic .indexOutOfBounds

/-! ### Gaussian elimination -/

/-- The checks of `Markowitz::choose_pivot` (decomposition/pivoting.rs:52-57). -/
def choosePivotCheck (s : Elimination m) (k : Fin m) : Res Unit := do
  debugAssert (m > 0)
  debugAssert (decide (∀ i, k ≤ i → 0 < s.nnzRow i))
  debugAssert (decide (∀ j, k ≤ j → 0 < s.nnzColumn j))
  forEach (fun i => sortedCheck (s.rows i)) (List.finRange m)

/-- The checks of `swap` (decomposition/mod.rs:233-259, without those on lengths and ranges). -/
def swapCheck (s : Elimination m) (pivotRow pivotColumn k : Fin m) : Res Unit := do
  debugAssert (k ≤ pivotRow && k ≤ pivotColumn)
  if pivotRow ≠ k then do
    (if h : (pivotRow : ℕ) = 0 ∧ 0 < (k : ℕ) then
      debugAssert (s.lowerRowMajor ⟨k - 1, by omega⟩).isEmpty
    else .ok ())
    (if h : 0 < (pivotRow : ℕ) ∧ (k : ℕ) = 0 then
      debugAssert (s.lowerRowMajor ⟨pivotRow - 1, by omega⟩).isEmpty
    else .ok ())
  else .ok ()

/-- The checks of `forward_sorted` for all rows when columns are swapped (decomposition/mod.rs:267-271). -/
def swapColumnsCheck (s : Elimination m) (pivotColumn k : Fin m) : Res Unit :=
  if pivotColumn ≠ k then
    forEach (fun i => do
      let _ ← forwardSortedDebug (⟨pivotColumn, k⟩ : Swap m) (s.rows i)
      pure ()) (List.finRange m)
  else .ok ()

/-- One iteration of the main loop (decomposition/mod.rs:45-110) with the checks at 73, 101-105 and 155. -/
def eliminationStepDebug (s : Elimination m) (k : Fin m) : Res (Elimination m) := do
  choosePivotCheck s k
  let (pivotRow, pivotColumn) ← choosePivot s k
  swapCheck s pivotRow pivotColumn k
  swapColumnsCheck (swapRows s pivotRow k) pivotColumn k
  let s := swapColumns (swapRows s pivotRow k) pivotColumn k
  let s ← removePivotRowCounts s k
  match s.rows k with
  | [] => panic .indexOutOfBounds
  | (_, pivotValue) :: rest => do
    forEach (fun i => debugAssert (!(s.rows i).isEmpty))
      ((List.finRange m).filter fun i => decide (k < i))
    let (s, ratios) ← collectRatios k pivotValue
      ((List.finRange m).filter fun i => decide (k < i)) s
    forEach (fun p => debugAssert (p.2 ≠ 0)) ratios
    let s ← ratios.foldlM (eliminateRow k rest) s
    debugAssert (s.nnzRow k = 0)
    debugAssert (s.nnzColumn k = 0)
    debugAssert (decide (∀ i, k < i → (s.rows i).length = s.nnzRow i))
    pure s

/-- `LUDecomposition::rows` (decomposition/mod.rs:27-143) with the checks at 28, 32, 114, those of
`count_non_zeros` (300-301) and those of `FullPermutation::new` (full.rs:27; uniqueness is stated as `Nodup`). -/
def ofRowsDebug (rows : Fin m → Sparse m) : Res (LU m) := do
  forEach (fun i => sortedCheck (rows i)) (List.finRange m)
  debugAssert (m > 1)
  let s : Elimination m := {
    rows
    rowPermutation := fun i => i
    columnPermutation := fun i => i
    lowerRowMajor := fun _ => []
    nnzRow := fun i => (rows i).length
    nnzColumn := countColumns rows }
  debugAssert (decide (∀ j, 0 < s.nnzColumn j))
  debugAssert (decide (∀ i, 0 < s.nnzRow i))
  let s ← (List.finRange m).foldlM eliminationStepDebug s
  forEach (fun i => debugAssert (decide (∀ p ∈ (s.rows i).head?, p.1 = i))) (List.finRange m)
  let (upperTriangular, upperDiagonal) ← collectUpper s.rows
  let lowerTriangular ← collectLower s.lowerRowMajor
  debugAssert (decide ((List.ofFn s.rowPermutation).Nodup))
  debugAssert (decide ((List.ofFn s.columnPermutation).Nodup))
  pure {
    rowPermutation := (Full.new s.rowPermutation).invert
    columnPermutation := (Full.new s.columnPermutation).invert
    lowerTriangular, upperTriangular, upperDiagonal
    updates := [] }

/-- `invert` (lower_upper/mod.rs:78-92) with the check at 89. -/
def invertDebug (columns : Fin m → Sparse m) : Res (LU m) := do
  forEach (fun i => sortedCheck (Carry.transposeColumns columns i)) (List.finRange m)
  ofRowsDebug (Carry.transposeColumns columns)

end LU

/-- `LUDecomposition` in a debug build. -/
structure DebugLU (m : ℕ) where
  lu : LU m

/-- `impl BasisInverse for LUDecomposition` (lower_upper/mod.rs:60-280) in a debug build. -/
instance : BasisInverse DebugLU where
  Info := ColumnAndSpike
  infoColumn info := info.column
  identity m := do
    let lu ← LU.identity m
    pure ⟨lu⟩
  invert columns := do
    let lu ← LU.invertDebug columns
    pure ⟨lu⟩
  changeBasis bi pivotRow info := do
    let x ← bi.lu.changeBasisDebug pivotRow info
    pure (⟨x.1⟩, x.2)
  leftMultiply bi := bi.lu.leftMultiplyDebug
  rightMultiply bi := bi.lu.rightMultiplyDebug
  generateElement bi := bi.lu.generateElementDebug
  shouldRefactor bi := bi.lu.shouldRefactor
  basisInverseRow bi := bi.lu.basisInverseRowDebug
  removeBasis _ _ columns := do
    let lu ← LU.invertDebug columns
    pure ⟨lu⟩

namespace BasisInverseRows

/-- `identity` (basis_inverse_rows.rs:98-102): checks of `standard_basis_vector` (sparse.rs:233-240). -/
def identityDebug (m : ℕ) : Res (BasisInverseRows m) := do
  forEach (fun i : Fin m => sparseVectorCheck (SVec.standardBasis i)) (List.finRange m)
  pure (identity m)

/-- `invert` (basis_inverse_rows.rs:104-129): the LU decomposition makes its checks too. -/
def invertDebug (columns : Fin m → Sparse m) : Res (BasisInverseRows m) := do
  let lowerUpper ← LU.invertDebug columns
  let inverted ← tabulateM fun j : Fin m => lowerUpper.leftMultiplyDebug (SVec.standardBasis j)
  forEach (fun i => sparseVectorCheck (Carry.transposeColumns (fun j => (inverted j).column) i))
    (List.finRange m)
  pure ⟨Carry.transposeColumns fun j => (inverted j).column⟩

/-- `left_multiply_by_basis_inverse` (basis_inverse_rows.rs:147-160). -/
def leftMultiplyDebug (bi : BasisInverseRows m) (column : Sparse m) : Res (Sparse m) := do
  sparseVectorCheck (bi.leftMultiply column)
  pure (bi.leftMultiply column)

/-- `right_multiply_by_basis_inverse` (basis_inverse_rows.rs:162-177). -/
def rightMultiplyDebug (bi : BasisInverseRows m) (row : Sparse m) : Res (Sparse m) :=
  match row with
  | [] => panic .emptyRow
  | (index, factor) :: row => do
    sparseVectorCheck (SVec.scale (bi.rows index) factor)
    bi.rightMultiply ((index, factor) :: row)

/-- `remove_basis_part` (basis_inverse_rows.rs:216-228) with the checks at 218 and 227, those of
`Sparse::remove_indices` (sparse.rs:149-157) and the one of its caller (carry/mod.rs:684). That a set of the
indices has as many items as the list is stated as `Nodup`. -/
def removeBasisPartDebug (bi : BasisInverseRows m) (indices : List (Fin m)) :
    Res (BasisInverseRows (keptLen indices)) := do
  debugAssert (keptLen indices = m - indices.length)
  debugAssert (indices.length < m)
  debugAssert (decide (indices.Pairwise (· ≤ ·)))
  debugAssert (decide indices.Nodup)
  pure (bi.removeBasisPart indices)

end BasisInverseRows

/-- `BasisInverseRows` in a debug build. -/
structure DebugRows (m : ℕ) where
  inner : BasisInverseRows m

/-- `impl BasisInverse for BasisInverseRows` (basis_inverse_rows.rs:91-210) and `RemoveBasisPart` (212-229)
in a debug build. `element_wise_divide` checks that the value is not zero (sparse.rs:339), which aborts
in `normalizePivotRow` in every build. -/
instance : BasisInverse DebugRows where
  Info := Sparse
  infoColumn column := column
  identity m := do
    let bi ← BasisInverseRows.identityDebug m
    pure ⟨bi⟩
  invert columns := do
    let bi ← BasisInverseRows.invertDebug columns
    pure ⟨bi⟩
  changeBasis bi pivotRow column := do
    let x ← bi.inner.changeBasis pivotRow column
    pure (⟨x.1⟩, x.2)
  leftMultiply bi := bi.inner.leftMultiplyDebug
  rightMultiply bi := bi.inner.rightMultiplyDebug
  generateElement bi i column := .ok (bi.inner.generateElement i column)
  shouldRefactor _ := false
  basisInverseRow bi row := .ok (bi.inner.rows row)
  removeBasis rows bi _ := do
    let bi ← bi.inner.removeBasisPartDebug rows
    pure ⟨bi⟩

end Relp
