import Verif.Spec.Provider
import Verif.Model.Carry
import Mathlib.LinearAlgebra.Matrix.RowCol

/-!
# Specification: what a representation of a basis inverse has to do

Everything is said in terms of the basis matrix `B` itself: the answer `x` to a question is pinned
down by the linear system that it solves.
-/

namespace Relp.Spec

open Matrix BasisInverse

variable {BI : ℕ → Type} [BasisInverse BI] {m : ℕ}

/-- The value `bi` answers all questions about the inverse of the matrix `B`. As `B` is nonsingular,
each of the systems has just one solution. -/
structure InvertsBasis (bi : BI m) (B : Matrix (Fin m) (Fin m) ℚ) : Prop where
  nonsingular : ∃ M, M * B = 1
  /-- Multiplying a column from the left solves `B x = column`. -/
  column : ∀ column : Sparse m, SVec.WF column →
    ∃ info, leftMultiply bi column = .ok info ∧ SVec.WF (infoColumn info) ∧
      B *ᵥ SVec.val (infoColumn info) = SVec.val column
  /-- Multiplying a (nonempty) row from the right solves `x B = row`. -/
  vector : ∀ row : Sparse m, SVec.WF row → row ≠ [] →
    ∃ x, rightMultiply bi row = .ok x ∧ SVec.WF x ∧ SVec.val x ᵥ* B = SVec.val row
  /-- A row of the inverse. -/
  row : ∀ i, ∃ x, basisInverseRow bi i = .ok x ∧ SVec.WF x ∧ SVec.val x ᵥ* B = Pi.single i 1
  /-- A single element of the product with a column, `none` for zero. -/
  element : ∀ column : Sparse m, SVec.WF column → ∀ i, ∃ x, B *ᵥ x = SVec.val column ∧
    generateElement bi i column = .ok (if x i = 0 then none else some (x i))

/-- The histories of a basis inverse: it starts from the identity or from the inversion of a
nonsingular matrix, then columns of the basis are replaced, where the replacing column has a nonzero
coordinate at the position of the replaced one. -/
inductive History : BI m → Matrix (Fin m) (Fin m) ℚ → Prop
  | identity {bi : BI m} : BasisInverse.identity m = .ok bi → History bi 1
  | invert {bi : BI m} {columns : Fin m → Sparse m} : (∀ i, SVec.WF (columns i)) →
    (∃ M, M * columnsMatrix columns = 1) → BasisInverse.invert columns = .ok bi →
    History bi (columnsMatrix columns)
  | change {bi bi' : BI m} {B : Matrix (Fin m) (Fin m) ℚ} {column : Sparse m} {info : Info BI m}
    {p : Fin m} {pivotColumn : Sparse m} : History bi B → SVec.WF column →
    leftMultiply bi column = .ok info → SVec.val (infoColumn info) p ≠ 0 →
    changeBasis bi p info = .ok (bi', pivotColumn) →
    History bi' (B.updateCol p (SVec.val column))

end Relp.Spec
