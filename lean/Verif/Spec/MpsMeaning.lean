import Verif.Spec.MpsText
import Verif.Spec.Mps

/-!
# Specification: the linear program that an MPS file stands for

In terms of the names in the file: a point gives a number for each name of a column. Follows the format;
from the model it uses the types of relations and bounds only.
-/

namespace Relp.Spec

open Mps (Relation BoundType)

/-- The number in the column of a block for a row. -/
def Block.coefficient (b : Block EntryLine) (row : Text) : ℚ :=
  (b.entries.map fun e => if e.row = row then e.number.value else 0).sum

namespace File

/-- The value of a row at a point. -/
def activity (F : File) (x : Text → ℚ) (row : Text) : ℚ :=
  (F.blocks.map fun b => b.coefficient row * x b.name).sum

/-- A right-hand side that is given for a row. -/
def GivenRhs (F : File) (row : Text) (b : ℚ) : Prop :=
  ∃ g ∈ F.rhs.getD [], ∃ e ∈ g.entries, e.row = row ∧ e.number.value = b

/-- The right-hand sides of a row: those that are given, or else zero. -/
def IsRhs (F : File) (row : Text) (b : ℚ) : Prop :=
  F.GivenRhs row b ∨ (∀ v, ¬F.GivenRhs row v) ∧ b = 0

/-- A range of a row. -/
def IsRange (F : File) (row : Text) (r : ℚ) : Prop :=
  ∃ g ∈ F.ranges.getD [], ∃ e ∈ g.entries, e.row = row ∧ e.number.value = r

/-- The constraint of a row holds, for each right-hand side. -/
def RowHolds (F : File) (row : Text) (relation : Relation) (value : ℚ) : Prop :=
  ∀ b, F.IsRhs row b →
    (∀ r, F.IsRange row r → Mps.RangeHolds relation r b value) ∧
    ((∀ r, ¬F.IsRange row r) → relation.Holds b value)

/-- A bound of a column. -/
def IsBound (F : File) (column : Text) (t : BoundType) : Prop :=
  ∃ g ∈ F.bounds.getD [], ∃ l ∈ g.lines, l.column = column ∧ l.bound.meaning = t

/-- The bounds of a column hold, and if there are none but upper bounds, its value is not negative. -/
def VariableHolds (F : File) (column : Text) (x : ℚ) : Prop :=
  (∀ t, F.IsBound column t → t.Holds x) ∧ ((∀ t, F.IsBound column t → t.IsUpper) → 0 ≤ x)

/-- The points that satisfy all constraints and bounds. Integrality is left out. -/
def Feasible (F : File) (x : Text → ℚ) : Prop :=
  (∀ relation row, (some relation, row) ∈ F.rows → F.RowHolds row relation (F.activity x row)) ∧
    ∀ b ∈ F.blocks, F.VariableHolds b.name (x b.name)

/-- The value of the objective: that of the cost row. -/
def objectiveValue (F : File) (x : Text → ℚ) : ℚ :=
  ((F.rows.filter fun row => row.1.isNone).map fun row => F.activity x row.2).sum

/-- A feasible point of the best objective value in the direction of optimisation. -/
def Best (F : File) (x : Text → ℚ) : Prop :=
  F.Feasible x ∧ ∀ y, F.Feasible y →
    match F.sense.getD .minimize with
    | .minimize => F.objectiveValue x ≤ F.objectiveValue y
    | .maximize => F.objectiveValue y ≤ F.objectiveValue x

/-- What the conversion to a linear program is documented to need, and what its defects ask for: columns have
different names, no coefficient of a constraint is zero, a column has at most one entry in the cost row, a row
with a range has a right-hand side (or the range does nothing, or is positive for a `≤` constraint), and the
bounds of a column do not exclude one another. -/
structure Sound (F : File) : Prop where
  names : (F.blocks.map (·.name)).Nodup
  nonzero : ∀ b ∈ F.blocks, ∀ e ∈ b.entries, F.IsConstraint e.row → e.number.value ≠ 0
  costs : ∀ b ∈ F.blocks, (b.entries.filter fun e => (none, e.row) ∈ F.rows).length ≤ 1
  ranges : ∀ row r relation, F.IsRange row r → (some relation, row) ∈ F.rows →
    r = 0 ∨ (∃ b, F.GivenRhs row b) ∨ relation = .less ∧ 0 < r
  bounds : ∀ b ∈ F.blocks, ∃ x, F.VariableHolds b.name x

/-- A column is free and has another bound, or a row has different right-hand sides and is an equality or has a
range. -/
def Conflict (F : File) : Prop :=
  (∃ column t, F.IsBound column .free ∧ F.IsBound column t ∧ t ≠ .free) ∨
  (∃ row r v w, F.IsRange row r ∧ F.GivenRhs row v ∧ F.GivenRhs row w ∧ v ≠ w) ∨
  ∃ row v w, (some .equal, row) ∈ F.rows ∧ F.GivenRhs row v ∧ F.GivenRhs row w ∧ v ≠ w

/-- A row is an equality with a positive range, and has its right-hand side more than once. -/
def RepeatedRhs (F : File) : Prop :=
  ∃ row r, (some .equal, row) ∈ F.rows ∧ F.IsRange row r ∧ 0 < r ∧
    2 ≤ (((F.rhs.getD []).flatMap Block.entries).filter fun e => e.row = row).length

end File

end Relp.Spec
