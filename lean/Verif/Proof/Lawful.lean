import Verif.Spec.Provider
import Verif.Proof.Sparse
import Verif.Proof.Linear

/-!
# Laws of a basis inverse representation

The solver proofs use only these laws; they are proved for the row-wise representation and for the
LU decomposition.
-/

namespace Relp

open Matrix BasisInverse

/-- What the operations of a basis inverse have to do. `Rep bi M` says that `bi` represents
multiplication with the matrix `M`; `OkDim m` that the dimension is supported, `OkInvert m` that
matrices of this dimension can be inverted. -/
class LawfulBasisInverse (BI : ℕ → Type) [BasisInverse BI] where
  OkDim : ℕ → Prop
  OkInvert : ℕ → Prop
  Rep : {m : ℕ} → BI m → Matrix (Fin m) (Fin m) ℚ → Prop
  identity_ok : ∀ {m : ℕ}, OkDim m → ∃ bi : BI m, identity m = .ok bi ∧ Rep bi 1
  invert_ok : ∀ {m : ℕ}, OkInvert m → ∀ {columns : Fin m → Sparse m}, (∀ i, SVec.WF (columns i)) →
    ∀ {M : Matrix (Fin m) (Fin m) ℚ}, M * columnsMatrix columns = 1 →
    ∃ bi : BI m, invert columns = .ok bi ∧ Rep bi M
  refactor_ok : ∀ {m : ℕ}, OkDim m → ∀ {bi : BI m} {M}, Rep bi M → shouldRefactor bi = true →
    OkInvert m
  left_ok : ∀ {m : ℕ}, OkDim m → ∀ {bi : BI m} {M}, Rep bi M → ∀ {column : Sparse m},
    SVec.WF column → ∃ info, leftMultiply bi column = .ok info ∧ SVec.WF (infoColumn info) ∧
      SVec.val (infoColumn info) = M *ᵥ SVec.val column
  change_ok : ∀ {m : ℕ}, OkDim m → ∀ {bi : BI m} {M}, Rep bi M → ∀ {column : Sparse m},
    SVec.WF column → ∀ {info}, leftMultiply bi column = .ok info → shouldRefactor bi = false →
      ∀ {p}, (M *ᵥ SVec.val column) p ≠ 0 →
      ∃ bi', changeBasis bi p info = .ok (bi', infoColumn info) ∧
        Rep bi' (pivotUpdate M (M *ᵥ SVec.val column) p)
  right_ok : ∀ {m : ℕ}, OkDim m → ∀ {bi : BI m} {M}, Rep bi M → ∀ {row : Sparse m},
    SVec.WF row → row ≠ [] → ∃ r, rightMultiply bi row = .ok r ∧ SVec.WF r ∧
      SVec.val r = SVec.val row ᵥ* M
  element_ok : ∀ {m : ℕ}, OkDim m → ∀ {bi : BI m} {M}, Rep bi M → ∀ {column : Sparse m},
    SVec.WF column → ∀ i, generateElement bi i column = .ok (
      if (M *ᵥ SVec.val column) i = 0 then none else some ((M *ᵥ SVec.val column) i))
  row_ok : ∀ {m : ℕ}, OkDim m → ∀ {bi : BI m} {M}, Rep bi M → ∀ i,
    ∃ r, basisInverseRow bi i = .ok r ∧ SVec.WF r ∧ SVec.val r = M i
  remove_ok : ∀ {m : ℕ}, OkDim m → ∀ {bi : BI m} {M}, Rep bi M → ∀ (rows : List (Fin m)),
    rows.Pairwise (· < ·) → OkDim (keptLen rows) → ∀ {columns : Fin (keptLen rows) → Sparse (keptLen rows)},
    (∀ i, SVec.WF (columns i)) →
    M.submatrix (kept rows).get (kept rows).get * columnsMatrix columns = 1 →
    ∃ bi', removeBasis rows bi columns = .ok bi' ∧
      Rep bi' (M.submatrix (kept rows).get (kept rows).get)

end Relp
