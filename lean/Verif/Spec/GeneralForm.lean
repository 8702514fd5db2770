import Verif.Model.GeneralForm
import Verif.Spec.MatrixData

/-!
# Specification: the linear program that a `GeneralForm` stands for
-/

namespace Relp

namespace GeneralForm

/-- The linear program that the fields describe (general_form/mod.rs:39-79), without the direction of
optimisation. -/
def toProgram (G : GeneralForm) : Spec.Program G.constraintTypes.length G.vars.length where
  A := Matrix.of fun i j => SVec.val (G.constraints.data.getD j []) i
  relation i := G.constraintTypes[i]
  b i := G.b.getD i 0
  lower j := G.vars[j].lowerBound
  upper j := G.vars[j].upperBound
  c j := G.vars[j].cost
  constant := G.fixedCost

/-- A feasible point of the best objective value in the direction of optimisation. -/
def Best (G : GeneralForm) (x : Fin G.vars.length → ℚ) : Prop :=
  G.toProgram.Feasible x ∧ ∀ y, G.toProgram.Feasible y →
    match G.objective with
    | .minimize => G.toProgram.objective x ≤ G.toProgram.objective y
    | .maximize => G.toProgram.objective y ≤ G.toProgram.objective x

/-- There are feasible points of arbitrarily good objective value. -/
def Unbounded (G : GeneralForm) : Prop :=
  ∀ M : ℚ, ∃ x, G.toProgram.Feasible x ∧
    match G.objective with
    | .minimize => G.toProgram.objective x < M
    | .maximize => M < G.toProgram.objective x

/-- What `is_consistent` checks (general_form/mod.rs:138-201) for a problem of which no variable has been
split, shifted or flipped; and that the columns are valid sparse vectors. -/
structure Consistent (G : GeneralForm) : Prop where
  bLength : G.b.length = G.constraintTypes.length
  minor : G.constraints.minor = G.constraintTypes.length
  major : G.constraints.major = G.vars.length
  dataLength : G.constraints.data.length = G.vars.length
  wf : ∀ v ∈ G.constraints.data, SVec.WF v
  inRange : ∀ v ∈ G.constraints.data, ∀ p ∈ v, p.1 < G.constraintTypes.length
  activeLength : G.fromActive.length = G.vars.length
  /-- The indices from active to original variables and back match. -/
  active : ∀ o j : ℕ, G.fromActive[j]? = some o ↔ ∃ name, G.original[o]? = some (name, .active j)
  notSplit : ∀ q ∈ G.original, ∀ j k, q.2 ≠ .activeFree j k
  fresh : ∀ v ∈ G.vars, v.shift = 0 ∧ v.flipped = false

/-- No variable has an upper bound below its lower bound, no range is negative. -/
structure Proper (G : GeneralForm) : Prop where
  bounds : ∀ v ∈ G.vars, ∀ l ∈ v.lowerBound, ∀ u ∈ v.upperBound, l ≤ u
  ranges : ∀ r, .range r ∈ G.constraintTypes → 0 ≤ r

/-- The value of a variable before it was shifted and flipped, as recorded, if its value is now `y`. -/
def unshift (v : Variable) (y : ℚ) : ℚ := if v.flipped then -(y - v.shift) else y - v.shift

/-- The lower bound of a variable, its upper bound if it has no lower bound, zero if it has no bounds. -/
def baseValue (v : Variable) : ℚ :=
  match v.lowerBound, v.upperBound with
  | some lower, _ => lower
  | none, some upper => upper
  | none, none => 0

/-- The point at which all variables have this value. -/
def basePoint (G : GeneralForm) (j : Fin G.vars.length) : ℚ := baseValue G.vars[j]

/-- The value of active variable `j` before shifting and flipping. -/
def unshiftAt (G : GeneralForm) (y : Fin G.vars.length → ℚ) (j : ℕ) : ℚ :=
  if h : j < G.vars.length then unshift G.vars[j] (y ⟨j, h⟩) else 0

/-- The value that the point `y` gives to original variable `o`, following the recorded split, shift and
flip. -/
def recover (G : GeneralForm) (y : Fin G.vars.length → ℚ) (o : ℕ) : ℚ :=
  match G.original[o]? with
  | some (_, .active j) => G.unshiftAt y j
  | some (_, .activeFree p n) => G.unshiftAt y p - G.unshiftAt y n
  | _ => 0

/-- The point `y` of the problem `H`, that `G` was transformed to, gives the active variables of `G` the
values `x`. -/
def Recovers (G H : GeneralForm) (y : Fin H.vars.length → ℚ) (x : Fin G.vars.length → ℚ) : Prop :=
  ∀ (j : Fin G.vars.length) (o : ℕ), G.fromActive[j.val]? = some o → H.recover y o = x j

/-- The removed variables do not depend on each other cyclically: each variable depends only on
variables of lower rank. -/
def Acyclic (G : GeneralForm) : Prop :=
  ∃ rank : ℕ → ℕ, (∀ o, rank o ≤ G.original.length) ∧
    ∀ (o : ℕ) name constant coefficients,
      G.original[o]? = some (name, .removed (.functionOfOthers constant coefficients)) →
      ∀ p ∈ coefficients, p.1 < G.original.length ∧ rank p.1 < rank o

/-- `values` extends the values `x` of the active variables of `G` to all its original variables: removed
variables that are solved have that value, and those that are a function of others are that function of
the values. -/
structure Extends (G : GeneralForm) (x : Fin G.vars.length → ℚ) (values : List (String × ℚ)) :
    Prop where
  names : values.map (·.1) = G.original.map (·.1)
  active : ∀ (j : Fin G.vars.length) (o : ℕ), G.fromActive[j.val]? = some o →
    (values[o]?).map (·.2) = some (x j)
  solved : ∀ (o : ℕ) name value, G.original[o]? = some (name, .removed (.solved value)) →
    (values[o]?).map (·.2) = some value
  functionOfOthers : ∀ (o : ℕ) name constant coefficients,
    G.original[o]? = some (name, .removed (.functionOfOthers constant coefficients)) →
    (values[o]?).map (·.2) = some (constant -
      (coefficients.map fun p => p.2 * ((values[p.1]?).map (·.2)).getD 0).sum)

end GeneralForm

end Relp
