import Mathlib.Data.Matrix.Mul
import Mathlib.Algebra.Order.Ring.Rat
import Mathlib.LinearAlgebra.LinearIndependent.Defs
import Mathlib.Data.Fintype.Card

/-!
# Specification: linear programs in standard form

`minimise c · x` subject to `A x = b`, `x ≥ 0`. Nothing here refers to the solver model.
-/

namespace Relp.Spec

open Matrix

/-- `minimise c · x` subject to `A x = b`, `x ≥ 0`; `m` rows, `n` columns. -/
structure LP (m n : ℕ) where
  A : Matrix (Fin m) (Fin n) ℚ
  b : Fin m → ℚ
  c : Fin n → ℚ

namespace LP

variable {m n : ℕ} (P : LP m n)

/-- All constraints hold. -/
def Feasible (x : Fin n → ℚ) : Prop := P.A *ᵥ x = P.b ∧ ∀ j, 0 ≤ x j

/-- The objective value of a point. -/
def objective (x : Fin n → ℚ) : ℚ := P.c ⬝ᵥ x

/-- A feasible point of least objective value. -/
def Optimal (x : Fin n → ℚ) : Prop :=
  P.Feasible x ∧ ∀ y, P.Feasible y → P.objective x ≤ P.objective y

/-- There are feasible points of arbitrarily low objective value. -/
def Unbounded : Prop := ∀ M : ℚ, ∃ x, P.Feasible x ∧ P.objective x < M

/-- There is no feasible point. -/
def Infeasible : Prop := ∀ x, ¬ P.Feasible x

/-- The columns of the non-zero variables are linearly independent. -/
def Basic (x : Fin n → ℚ) : Prop :=
  LinearIndependent ℚ fun j : {j // x j ≠ 0} => P.A.col j

/-- The rows listed in `rows` follow from the remaining rows: for every one of them there is a
combination of the equations `A x = b` that is `0 = 0`, in which this row has weight one and the
other listed rows have weight zero. -/
def Redundant (rows : List (Fin m)) : Prop :=
  rows.Pairwise (· < ·) ∧ ∀ i ∈ rows, ∃ u : Fin m → ℚ,
    u ᵥ* P.A = 0 ∧ u ⬝ᵥ P.b = 0 ∧ u i = 1 ∧ ∀ k ∈ rows, k ≠ i → u k = 0

/-- `b` is not a combination, with non-negative coefficients, of fewer than `m` of the columns of `A`
and of the identity matrix. -/
def Nondegenerate : Prop :=
  ∀ (x : Fin n → ℚ) (y : Fin m → ℚ), (∀ j, 0 ≤ x j) → (∀ i, 0 ≤ y i) → P.A *ᵥ x + y = P.b →
    m ≤ (Finset.univ.filter fun j => x j ≠ 0).card + (Finset.univ.filter fun i => y i ≠ 0).card

end LP

end Relp.Spec
