import Verif.Model.Mps
import Mathlib.Algebra.BigOperators.Fin
import Mathlib.Algebra.Order.Group.Unbundled.Abs

/-!
# Specification: the linear program that an MPS program stands for

Follows the documentation of the types in mps/mod.rs, and nothing in convert.rs. From the model it uses
the type of MPS programs, and `flatten`, the list of all entries of a section.
-/

namespace Relp.Mps

/-- When a constraint with this relation holds. -/
def Relation.Holds : Relation → (b value : ℚ) → Prop
  | .less, b, value => value ≤ b
  | .equal, b, value => value = b
  | .greater, b, value => b ≤ value

/-- The table of mps/mod.rs:220-229: when a constraint with a range `r` holds. -/
def RangeHolds (relation : Relation) (r b value : ℚ) : Prop :=
  match relation with
  | .greater => b ≤ value ∧ value ≤ b + |r|
  | .less => b - |r| ≤ value ∧ value ≤ b
  | .equal => if 0 ≤ r then b ≤ value ∧ value ≤ b + |r| else b - |r| ≤ value ∧ value ≤ b

/-- The right-hand side `b` is given for row `i`; without any, it is zero. -/
def IsRhs (p : Mps) (i : ℕ) (b : ℚ) : Prop :=
  (i, b) ∈ flatten p.rhss ∨ (∀ v, (i, v) ∉ flatten p.rhss) ∧ b = 0

/-- The constraint of row `i` holds: for each right-hand side, within each range if there is one. -/
def RowHolds (p : Mps) (i : ℕ) (relation : Relation) (value : ℚ) : Prop :=
  ∀ b, IsRhs p i b →
    (∀ r, (i, r) ∈ flatten p.ranges → RangeHolds relation r b value) ∧
    ((∀ r, (i, r) ∉ flatten p.ranges) → relation.Holds b value)

/-- When a bound holds (mps/mod.rs:148-177). The parts in brackets in the documentation are implied bounds:
that of an upper bound holds only without other bounds, see `VariableHolds`; the others always hold
(convert.rs:227-228). -/
def BoundType.Holds : BoundType → ℚ → Prop
  | .lowerContinuous b, x => b ≤ x
  | .upperContinuous b, x => x ≤ b
  | .fixed b, x => x = b
  | .free, _ => True
  | .lowerMinusInfinity, x => x ≤ 0
  | .upperInfinity, x => 0 ≤ x
  | .binary, x => 0 ≤ x ∧ x ≤ 1
  | .lowerInteger b, x => b ≤ x
  | .upperInteger b, x => x ≤ b
  | .semiContinuous l u, x => x = 0 ∨ l ≤ x ∧ x ≤ u

/-- An upper bound. -/
def BoundType.IsUpper : BoundType → Prop
  | .upperContinuous _ => True
  | .upperInteger _ => True
  | _ => False

/-- The bounds of variable `j` hold, and if there are none but upper bounds, it is not negative. -/
def VariableHolds (p : Mps) (j : ℕ) (x : ℚ) : Prop :=
  (∀ t, (j, t) ∈ flatten p.bounds → t.Holds x) ∧
    ((∀ t, (j, t) ∈ flatten p.bounds → t.IsUpper) → 0 ≤ x)

/-- The left-hand side of row `i`. -/
def activity (p : Mps) (x : Fin p.columns.length → ℚ) (i : ℕ) : ℚ :=
  ∑ j, SVec.val (p.columns[j]).values i * x j

/-- The points that satisfy all constraints and bounds of an MPS program. Integrality is left out. -/
def Feasible (p : Mps) (x : Fin p.columns.length → ℚ) : Prop :=
  (∀ i : Fin p.rows.length, RowHolds p i p.rows[i].relation (activity p x i)) ∧
    ∀ j : Fin p.columns.length, VariableHolds p j (x j)

/-- The value of the objective: the sum of all entries of the cost row. -/
def objectiveValue (p : Mps) (x : Fin p.columns.length → ℚ) : ℚ :=
  (p.costValues.map fun q => q.2 * if h : q.1 < p.columns.length then x ⟨q.1, h⟩ else 0).sum

/-- The indices in an MPS program refer to its rows and columns, and columns have each row at most once, in
order, with values that are not zero. -/
structure WellFormed (p : Mps) : Prop where
  values : ∀ c ∈ p.columns, SVec.WF c.values
  valuesInRange : ∀ c ∈ p.columns, ∀ q ∈ c.values, q.1 < p.rows.length
  costs : p.costValues.Pairwise fun a b => a.1 < b.1
  costsInRange : ∀ q ∈ p.costValues, q.1 < p.columns.length
  rhssInRange : ∀ q ∈ flatten p.rhss, q.1 < p.rows.length
  rangesInRange : ∀ q ∈ flatten p.ranges, q.1 < p.rows.length
  boundsInRange : ∀ q ∈ flatten p.bounds, q.1 < p.columns.length

/-- Values for rows that are sorted and in range. -/
def GoodValues (n : ℕ) (values : List (ℕ × ℚ)) : Prop :=
  (values.Pairwise fun a b => a.1 < b.1) ∧ ∀ q ∈ values, q.1 < n

/-- A bound that is not semi-continuous, for a column that is there. -/
def GoodBound (n : ℕ) (q : ℕ × BoundType) : Prop := q.1 < n ∧ ∀ a b, q.2 ≠ .semiContinuous a b

/-- What a program that is read from a text satisfies: rows have different names, indices refer to rows and columns,
the values of a column or group are for different rows and sorted, rows have at most one range, and no bound
is semi-continuous. -/
structure Accepted (p : Mps) : Prop where
  rows : (p.costRowName :: p.rows.map (·.name)).Nodup
  columns : ∀ c ∈ p.columns, GoodValues p.rows.length c.values
  costs : p.costValues.Pairwise fun a b => a.1 ≤ b.1
  costsInRange : ∀ q ∈ p.costValues, q.1 < p.columns.length
  rhss : ∀ g ∈ p.rhss, GoodValues p.rows.length g.values
  ranges : ∀ g ∈ p.ranges, GoodValues p.rows.length g.values
  rangesOnce : ((flatten p.ranges).map (·.1)).Nodup
  bounds : ∀ g ∈ p.bounds, ∀ q ∈ g.values, GoodBound p.columns.length q

end Relp.Mps
