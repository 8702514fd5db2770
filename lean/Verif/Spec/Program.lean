import Verif.Model.Variable
import Mathlib.Data.Matrix.Mul
import Mathlib.Algebra.Order.Ring.Rat

/-!
# Specification: linear programs with constraints of all types and bounded variables

Nothing here refers to the algorithms; `ConstraintType` is the enumeration of constraint types.
-/

namespace Relp

open Matrix

/-- When a constraint with right-hand side `b` holds for the left-hand side value `value`; a range
constraint with range `r` is `b - r ≤ a x ≤ b`. -/
def ConstraintType.Holds : ConstraintType → (b value : ℚ) → Prop
  | .equal, b, value => value = b
  | .range r, b, value => b - r ≤ value ∧ value ≤ b
  | .less, b, value => value ≤ b
  | .greater, b, value => b ≤ value

instance (t : ConstraintType) (b value : ℚ) : Decidable (t.Holds b value) := by
  cases t <;> unfold ConstraintType.Holds <;> infer_instance

namespace Spec

/-- A linear program with `m` constraints of all types and `n` variables with optional bounds. -/
structure Program (m n : ℕ) where
  A : Matrix (Fin m) (Fin n) ℚ
  relation : Fin m → ConstraintType
  b : Fin m → ℚ
  lower : Fin n → Option ℚ
  upper : Fin n → Option ℚ
  c : Fin n → ℚ
  constant : ℚ

namespace Program

variable {m n : ℕ} (P : Program m n)

/-- All constraints and bounds hold. -/
def Feasible (x : Fin n → ℚ) : Prop :=
  (∀ i, (P.relation i).Holds (P.b i) ((P.A *ᵥ x) i)) ∧
    ∀ j, (∀ l ∈ P.lower j, l ≤ x j) ∧ ∀ u ∈ P.upper j, x j ≤ u

/-- The value of the objective function. -/
def objective (x : Fin n → ℚ) : ℚ := P.constant + P.c ⬝ᵥ x

/-- A feasible point of least objective value. -/
def Optimal (x : Fin n → ℚ) : Prop :=
  P.Feasible x ∧ ∀ y, P.Feasible y → P.objective x ≤ P.objective y

/-- There are feasible points of arbitrarily low objective value. -/
def Unbounded : Prop := ∀ M : ℚ, ∃ x, P.Feasible x ∧ P.objective x < M

/-- There is no feasible point. -/
def Infeasible : Prop := ∀ x, ¬ P.Feasible x

end Program

end Spec

end Relp
