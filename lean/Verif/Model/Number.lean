import Mathlib.Data.Rat.Defs
import Mathlib.Algebra.Order.Ring.Rat

/-!
# Model of the number parser of MPS files

Models `/repo/src/io/mps/number/parse.rs` for `Rational64`. A text is the list of its characters. The
arithmetic on `u64` wraps around, as in a release build; a debug build aborts instead.
-/

namespace Relp

/-- A text. -/
abbrev Text := List Char

/-- How reading a file can fail: `ParseError` and `Inconsistency` (io/error.rs:73-76, 208-210), or a
panic of the program. The messages are left out. -/
inductive ImportError
  | parse
  | inconsistency
  | panic
  deriving DecidableEq

/-- Result of a function that reads a file. -/
abbrev Import := Except ImportError

namespace Number

/-- The number of values of `u64`. -/
def u64 : ℕ := 2 ^ 64

/-- `char::to_digit` in base ten, of the standard library. -/
def digit? (c : Char) : Option ℕ :=
  if '0'.toNat ≤ c.toNat ∧ c.toNat ≤ '9'.toNat then some (c.toNat - '0'.toNat) else none

/-- The loop of `u64::from_str`, of the standard library: fails on other characters than digits and on
overflow. -/
def parseDigits : ℕ → Text → Option ℕ
  | accumulator, [] => some accumulator
  | accumulator, c :: text =>
    match digit? c with
    | none => none
    | some d =>
      if 10 * accumulator + d < u64 then parseDigits (10 * accumulator + d) text else none

/-- `u64::from_str`, of the standard library: one plus sign is allowed in front, there should be at least
one digit. -/
def parseU64 : Text → Option ℕ
  | [] => none
  | '+' :: text => if text.isEmpty then none else parseDigits 0 text
  | text => parseDigits 0 text

/-- `Sign`, of relp-num. -/
inductive Sign
  | negative
  | zero
  | positive
  deriving DecidableEq

/-- `Raw` (parse.rs:71-75). -/
structure Raw where
  sign : Sign
  integer : ℕ
  decimalSteps : ℕ
  deriving DecidableEq

/-- The closure `parse` in `Raw::try_from` (parse.rs:85-95). -/
def parsePart (text : Text) : Import ℕ :=
  if text.isEmpty then .ok 0
  else match parseU64 text with
    | some value => .ok value
    | none => .error .parse

/-- `text.find('.')` and the parts before and after (parse.rs:97-104). -/
def splitAtPoint (text : Text) : Text × Option Text :=
  match text.dropWhile (· ≠ '.') with
  | [] => (text.takeWhile (· ≠ '.'), none)
  | _ :: rest => (text.takeWhile (· ≠ '.'), some rest)

/-- The digits as one integer, and the number of decimals (parse.rs:97-107). Simplified: texts of 2³²
bytes and more, which abort, are left out; the length of the part after the point is in characters, which
is its length in bytes whenever that part is accepted. -/
def parseMagnitude (text : Text) : Import (ℕ × ℕ) :=
  match splitAtPoint text with
  | (whole, none) => do
    let integer ← parsePart whole
    pure (integer, 0)
  | (whole, some decimals) => do
    let integerPart ← parsePart whole
    let mantissaPart ← parsePart decimals
    pure ((integerPart * (10 ^ decimals.length % u64) + mantissaPart) % u64, decimals.length)

/-- `Raw::try_from` (parse.rs:80-118). `&text[0..1]` is out of range if the text is empty, and no character
boundary if the first character is more than a byte long. -/
def Raw.tryFrom (text : Text) : Import Raw :=
  match text with
  | [] => .error .panic
  | first :: rest =>
    if 128 ≤ first.toNat then .error .panic
    else do
      let hasMinus := decide (first = '-')
      let (integer, steps) ← parseMagnitude (if hasMinus then rest else text)
      let sign := if integer = 0 then Sign.zero else if hasMinus then .negative else .positive
      pure ⟨sign, integer, steps⟩

/-- `From<Raw> for Rational64` (parse.rs:55-65). Simplified: the denominator of `new_signed` is not zero; it
would be after overflow with 64 decimals and more. -/
def Raw.toRational (raw : Raw) : ℚ :=
  match raw.sign with
  | .zero => 0
  | .positive => raw.integer / (10 ^ raw.decimalSteps % u64 : ℕ)
  | .negative => -(raw.integer / (10 ^ raw.decimalSteps % u64 : ℕ))

/-- `Rational64::parse` (parse.rs:46-53). -/
def parse (text : Text) : Import ℚ := do
  let raw ← Raw.tryFrom text
  pure raw.toRational

end Number

end Relp
