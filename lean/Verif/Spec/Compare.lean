import Mathlib.Data.Rat.Defs
import Mathlib.Data.List.Basic
import Mathlib.Algebra.Field.Rat
import Mathlib.Algebra.Order.Ring.Rat

/-!
# Specification: comparing the values of variables
-/

namespace Relp.Spec

/-- The two give values to the same variables. -/
def SameNames (a b : List (String × ℚ)) : Prop := ∀ name, (∃ x, (name, x) ∈ a) ↔ ∃ x, (name, x) ∈ b

/-- How many variables get the same value. -/
def nrAgreeing (a b : List (String × ℚ)) : ℕ := (a.filter fun p => p ∈ b).length

/-- Rounding to a set of numbers that has this one. -/
structure Rounding (round : ℚ → ℚ) (t : ℚ) : Prop where
  mono : ∀ x y, x ≤ y → round x ≤ round y
  exact : round t = t

end Relp.Spec
