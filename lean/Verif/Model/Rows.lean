import Verif.Model.LU

/-!
# Model of the row-wise basis inverse

Models
`/repo/src/algorithm/two_phase/tableau/inverse_maintenance/carry/basis_inverse_rows.rs`.
-/

namespace Relp

/-- `BasisInverseRows` (basis_inverse_rows.rs:21-23). -/
structure BasisInverseRows (m : ℕ) where
  rows : Fin m → Sparse m

namespace BasisInverseRows

variable {m : ℕ}

/-- `normalize_pivot_row` (basis_inverse_rows.rs:43-52). -/
def normalizePivotRow (bi : BasisInverseRows m) (pivotRow : Fin m) (column : Sparse m) :
    Res (BasisInverseRows m) :=
  match SVec.get? column pivotRow with
  | none => panic .pivotZero
  | some pivotValue =>
    if pivotValue = 0 then panic .divisionByZero
    else .ok ⟨Function.update bi.rows pivotRow (SVec.divide (bi.rows pivotRow) pivotValue)⟩

/-- `row_reduce` (basis_inverse_rows.rs:64-84). -/
def rowReduce (bi : BasisInverseRows m) (pivotRow : Fin m) (column : Sparse m) :
    BasisInverseRows m :=
  column.foldl
    (fun bi p =>
      if p.1 = pivotRow then bi
      else ⟨Function.update bi.rows p.1
        (SVec.addMultiple (-p.2) (bi.rows p.1) (bi.rows pivotRow))⟩)
    bi

/-- `identity` (basis_inverse_rows.rs:98-102). -/
def identity (m : ℕ) : BasisInverseRows m := ⟨fun i => SVec.standardBasis i⟩

/-- `invert` (basis_inverse_rows.rs:104-129). -/
def invert (columns : Fin m → Sparse m) : Res (BasisInverseRows m) := do
  let lowerUpper ← LU.invert columns
  let inverted ← tabulateM fun j : Fin m => lowerUpper.leftMultiply (SVec.standardBasis j)
  pure ⟨Carry.transposeColumns fun j => (inverted j).column⟩

/-- `change_basis` (basis_inverse_rows.rs:131-145). -/
def changeBasis (bi : BasisInverseRows m) (pivotRow : Fin m) (column : Sparse m) :
    Res (BasisInverseRows m × Sparse m) := do
  let bi ← bi.normalizePivotRow pivotRow column
  pure (bi.rowReduce pivotRow column, column)

/-- `generate_element` (basis_inverse_rows.rs:179-195). -/
def generateElement (bi : BasisInverseRows m) (i : Fin m) (column : Sparse m) : Option ℚ :=
  let element := SVec.innerProduct (bi.rows i) column
  if element ≠ 0 then some element else none

/-- `left_multiply_by_basis_inverse` (basis_inverse_rows.rs:147-160). -/
def leftMultiply (bi : BasisInverseRows m) (column : Sparse m) : Sparse m :=
  (List.finRange m).filterMap fun i => (bi.generateElement i column).map fun v => (i, v)

/-- `right_multiply_by_basis_inverse` (basis_inverse_rows.rs:162-177). -/
def rightMultiply (bi : BasisInverseRows m) (row : Sparse m) : Res (Sparse m) :=
  match row with
  | [] => panic .emptyRow
  | (index, factor) :: row =>
    .ok (row.foldl (fun total p => SVec.addMultiple p.2 total (bi.rows p.1))
      (SVec.scale (bi.rows index) factor))

/-- `remove_basis_part` (basis_inverse_rows.rs:216-228). -/
def removeBasisPart (bi : BasisInverseRows m) (indices : List (Fin m)) :
    BasisInverseRows (keptLen indices) :=
  ⟨fun i => removeSparseIndices indices (removeIndices indices bi.rows i)⟩

end BasisInverseRows

/-- `impl BasisInverse for BasisInverseRows` (basis_inverse_rows.rs:91-210) and
`RemoveBasisPart` (212-229). -/
instance : BasisInverse BasisInverseRows where
  Info := Sparse
  infoColumn column := column
  identity m := .ok (BasisInverseRows.identity m)
  invert := BasisInverseRows.invert
  changeBasis := BasisInverseRows.changeBasis
  leftMultiply bi column := .ok (bi.leftMultiply column)
  rightMultiply := BasisInverseRows.rightMultiply
  generateElement bi i column := .ok (bi.generateElement i column)
  shouldRefactor _ := false
  basisInverseRow bi row := .ok (bi.rows row)
  removeBasis rows bi _ := .ok (bi.removeBasisPart rows)

end Relp
