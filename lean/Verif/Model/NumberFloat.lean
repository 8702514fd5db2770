import Verif.Model.Number

/-!
# Model of the number parser of MPS files for floating point numbers

Models `/repo/src/io/mps/number/parse.rs` for `f64`. Reading the text is done by the standard library, which is a
parameter: `std`.
-/

namespace Relp.Number

/-- A value of `f64`. The two zeros are one number here. -/
inductive Double
  | nan
  | infinite (negative : Bool)
  | finite (value : ℚ)
  deriving DecidableEq

/-- `minimum_magnitude` (parse.rs:31): the double that `1e-10` is. -/
def minimumMagnitude : ℚ := 7737125245533627 / 77371252455336267181195264

/-- `maximum_magnitude` (parse.rs:32): `1e10`. -/
def maximumMagnitude : ℚ := 10000000000

/-- `value.abs() < bound` (parse.rs:33). -/
def Double.magnitudeBelow (bound : ℚ) : Double → Bool
  | .nan => false
  | .infinite _ => false
  | .finite value => decide (|value| < bound)

/-- `value.abs() > bound` (parse.rs:37). -/
def Double.magnitudeAbove (bound : ℚ) : Double → Bool
  | .nan => false
  | .infinite _ => true
  | .finite value => decide (bound < |value|)

/-- `Parse::parse` for `f64` (parse.rs:23-43). -/
def parseDouble (std : Text → Option Double) (text : Text) : Import Double :=
  match std text with
  | none => .error .parse
  | some value =>
    if value.magnitudeBelow minimumMagnitude then .error .parse
    else if value.magnitudeAbove maximumMagnitude then .error .parse
    else .ok value

end Relp.Number
