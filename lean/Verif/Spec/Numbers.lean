import Mathlib.Algebra.Order.Ring.Rat

/-!
# Specification: size of numbers
-/

namespace Relp.Spec

/-- `v` is an integer with an absolute value of at most `bound`. -/
def SmallInteger (bound : ℕ) (v : ℚ) : Prop := ∃ z : ℤ, v = z ∧ |z| ≤ bound

/-- `v` is a fraction with denominator `q` and a numerator with an absolute value of at most `limit`. -/
def Fraction (q : ℤ) (limit : ℕ) (v : ℚ) : Prop := ∃ p : ℤ, v = p / q ∧ |p| ≤ limit

end Relp.Spec
