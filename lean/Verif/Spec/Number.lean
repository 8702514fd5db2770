import Mathlib.Data.Rat.Defs
import Mathlib.Algebra.Order.Ring.Rat

/-!
# Specification: decimal numerals and the numbers that they denote
-/

namespace Relp.Spec

/-- A decimal digit. -/
abbrev Digit := Fin 10

/-- How a digit is written. -/
def Digit.char (d : Digit) : Char := Char.ofNat ('0'.toNat + d)

/-- The number that a list of digits denotes, e.g. `[1, 2, 3]` is 123. -/
def digitsValue (digits : List Digit) : ℕ := digits.foldl (fun n (d : Digit) => 10 * n + d.val) 0

/-- A decimal numeral: an optional minus sign, digits, and optionally a point and more digits. -/
structure Numeral where
  negative : Bool
  whole : List Digit
  decimals : Option (List Digit)

namespace Numeral

/-- How a numeral is written. -/
def text (n : Numeral) : List Char :=
  (if n.negative then ['-'] else []) ++ n.whole.map Digit.char ++
    match n.decimals with
    | none => []
    | some decimals => '.' :: decimals.map Digit.char

/-- There is at least one digit. -/
def Proper (n : Numeral) : Prop := n.whole ≠ [] ∨ n.decimals.getD [] ≠ []

/-- The number of digits after the point. -/
def places (n : Numeral) : ℕ := (n.decimals.getD []).length

/-- The magnitude: a digit `k` places after the point counts for a tenth to the power `k`. -/
def magnitude (n : Numeral) : ℚ :=
  digitsValue n.whole + digitsValue (n.decimals.getD []) / 10 ^ n.places

/-- The number that a numeral denotes. -/
def value (n : Numeral) : ℚ := if n.negative then -n.magnitude else n.magnitude

/-- The digits of the numeral, point left out, and the power of ten that they are divided by, fit in 64
bits. -/
def Fits (n : Numeral) : Prop :=
  digitsValue (n.whole ++ n.decimals.getD []) < 2 ^ 64 ∧ 10 ^ n.places < 2 ^ 64

instance (n : Numeral) : Decidable n.Proper := by unfold Proper; infer_instance

instance (n : Numeral) : Decidable n.Fits := by unfold Fits; infer_instance

end Numeral

end Relp.Spec
