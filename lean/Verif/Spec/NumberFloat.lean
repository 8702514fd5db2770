import Verif.Model.NumberFloat
import Verif.Spec.Number

/-!
# Specification: how the standard library reads floating point numbers
-/

namespace Relp.Spec

open Number

/-- `round` gives the double that is closest to a number; among the doubles are those that `1e-10` and `1e10` are
rounded to, and zero. -/
structure Rounds (round : ℚ → ℚ) : Prop where
  nearest : ∀ q r, |q - round q| ≤ |q - round r|
  zero : round 0 = 0
  small : round (1 / 10 ^ 10) = minimumMagnitude
  smallNegative : round (-(1 / 10 ^ 10)) = -minimumMagnitude
  large : round (10 ^ 10) = 10 ^ 10
  largeNegative : round (-10 ^ 10) = -10 ^ 10

/-- `f64::from_str` of the standard library: a decimal numeral is read as the closest double, or as infinite if it
is huge. `NaN` is read as well. -/
structure ReadsDoubles (std : List Char → Option Double) (round : ℚ → ℚ) : Prop where
  numeral : ∀ n : Numeral, n.Proper → std n.text = some (.finite (round n.value)) ∨
    (10 ^ 300 < |n.value| ∧ ∃ negative, std n.text = some (.infinite negative))
  nan : std "NaN".toList = some .nan

end Relp.Spec
