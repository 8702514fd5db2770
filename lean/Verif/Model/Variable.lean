import Mathlib.Data.Rat.Defs

/-!
# Model of the elements of linear programs

Models parts of `/repo/src/data/linear_program/elements.rs` and the struct `Variable` of
`/repo/src/data/linear_program/general_form/mod.rs`.
-/

namespace Relp

/-- `RangedConstraintRelation` (elements.rs:42-59). -/
inductive ConstraintType
  | equal
  | range (r : ℚ)
  | less
  | greater
  deriving DecidableEq

/-- `BoundDirection` (elements.rs:122-128). -/
inductive BoundDirection
  | lower
  | upper
  deriving DecidableEq

/-- `VariableType` (elements.rs:160-166). -/
inductive VariableType
  | continuous
  | integer
  deriving DecidableEq

/-- `Variable` (general_form/mod.rs:988-1012). -/
structure Variable where
  variableType : VariableType
  cost : ℚ
  lowerBound : Option ℚ
  upperBound : Option ℚ
  shift : ℚ
  flipped : Bool
  deriving DecidableEq

end Relp
