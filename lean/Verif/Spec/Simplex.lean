import Verif.Spec.LP
import Mathlib.Data.Rat.Defs

/-!
# Specification: columns and costs with respect to a basis

`B` lists the columns of a basis. Nothing here refers to the solver model.
-/

namespace Relp.Spec.LP

open Matrix

variable {m n : ℕ} (P : LP m n)

/-- `v` are the coordinates of column `j` with respect to the basis `B`: column `j` is the
combination of the basis columns with these weights, and no other weights do this. -/
def Coordinates (B : Fin m → Fin n) (j : Fin n) (v : Fin m → ℚ) : Prop :=
  (∀ i, ∑ k, v k * P.A i (B k) = P.A i j) ∧
    ∀ w : Fin m → ℚ, (∀ i, ∑ k, w k * P.A i (B k) = P.A i j) → w = v

/-- `d` is the relative cost of column `j` with respect to the basis `B`: the change of the objective
per unit of variable `j`, when the basis variables make up for it. -/
def RelativeCost (B : Fin m → Fin n) (j : Fin n) (d : ℚ) : Prop :=
  ∃ v, P.Coordinates B j v ∧ d = P.c j - ∑ k, P.c (B k) * v k

/-- `x` is the basic solution of the basis `B`. -/
def BasicSolution (B : Fin m → Fin n) (x : Fin n → ℚ) : Prop :=
  P.A *ᵥ x = P.b ∧ ∀ j, (∀ k, B k ≠ j) → x j = 0

/-- Every column is a unique combination of the basis columns. -/
def IsBasis (B : Fin m → Fin n) : Prop := ∀ j, ∃ v, P.Coordinates B j v

/-- Column `j` may enter the basis (`real`), is not in the basis, and has relative cost `d < 0`. -/
def Profitable (B : Fin m → Fin n) (real : Fin n → Prop) (j : Fin n) (d : ℚ) : Prop :=
  real j ∧ (∀ k, B k ≠ j) ∧ P.RelativeCost B j d ∧ d < 0

/-- A choice of an entering column with its relative cost: a profitable column, or none, and then
there is no profitable column. -/
def CorrectChoice (B : Fin m → Fin n) (real : Fin n → Prop) : Option (Fin n × ℚ) → Prop
  | none => ∀ j d, ¬ P.Profitable B real j d
  | some (j, d) => P.Profitable B real j d

/-- No profitable column has a larger value of `cost² / (1 + |column in the basis|²)`. -/
def SteepestChoice (B : Fin m → Fin n) (real : Fin n → Prop) (j : Fin n) (d : ℚ) : Prop :=
  ∀ j' d' v v', P.Profitable B real j' d' → P.Coordinates B j v → P.Coordinates B j' v' →
    d' ^ 2 / (1 + ∑ i, v' i ^ 2) ≤ d ^ 2 / (1 + ∑ i, v i ^ 2)

end Relp.Spec.LP
