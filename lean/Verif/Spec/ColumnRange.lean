import Verif.Spec.LP
import Verif.Model.ColumnRange
import Mathlib.Order.Bounds.Basic

/-!
# Specification: bases to start from, and the column range problem

From the model, only the type `ColumnRange.Input` is used.
-/

namespace Relp.Spec

variable {m n : ℕ}

/-- The listed columns are linearly independent, and there is a feasible point that is zero in all other
columns. -/
def LP.FeasibleBasis (P : LP m n) (basis : Fin m → Fin n) : Prop :=
  LinearIndependent ℚ (fun i => P.A.col (basis i)) ∧
    ∃ x, P.Feasible x ∧ ∀ j, (∀ i, basis i ≠ j) → x j = 0

namespace ColumnRange

open Relp.ColumnRange (Input)

/-- The values of column `j` after `x i` is subtracted from each value in row `i`. -/
def shifted (input : Input m n) (x : Fin m → ℚ) (j : Fin n) : Set ℚ :=
  {v | ∃ i a, input i j = some a ∧ v = a - x i}

/-- Amounts that may be subtracted: neither they nor the values that are left are negative. -/
structure Allowed (input : Input m n) (x : Fin m → ℚ) : Prop where
  nonneg : ∀ i, 0 ≤ x i
  left : ∀ j, ∀ v ∈ shifted input x j, 0 ≤ v

/-- `total` is the sum of the differences of the largest and the smallest value of all columns. -/
def TotalRange (input : Input m n) (x : Fin m → ℚ) (total : ℚ) : Prop :=
  ∃ smallest largest : Fin n → ℚ, (∀ j, IsLeast (shifted input x j) (smallest j)) ∧
    (∀ j, IsGreatest (shifted input x j) (largest j)) ∧ total = ∑ j, (largest j - smallest j)

end ColumnRange

end Relp.Spec
