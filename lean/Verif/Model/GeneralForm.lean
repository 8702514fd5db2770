import Verif.Model.MatrixData

/-!
# Model of `GeneralForm`: standardisation and reconstruction

Models `/repo/src/data/linear_program/general_form/mod.rs` without `presolve`.
-/

namespace Relp

/-- `Objective` (elements.rs:188-194). -/
inductive Objective
  | maximize
  | minimize
  deriving DecidableEq

/-- `RemovedVariable` (general_form/mod.rs:108-132). -/
inductive RemovedVariable
  | solved (value : ℚ)
  | functionOfOthers (constant : ℚ) (coefficients : SVec ℕ)
  deriving DecidableEq

/-- `OriginalVariable` (general_form/mod.rs:81-105). -/
inductive OriginalVariable
  | active (j : ℕ)
  | activeFree (positive negative : ℕ)
  | removed (v : RemovedVariable)
  deriving DecidableEq

/-- `GeneralForm` (general_form/mod.rs:39-79). -/
structure GeneralForm where
  objective : Objective
  fixedCost : ℚ
  constraints : SparseMatrix
  constraintTypes : List ConstraintType
  b : List ℚ
  vars : List Variable
  original : List (String × OriginalVariable)
  fromActive : List ℕ

namespace GeneralForm

/-- `new` (general_form/mod.rs:211-237). -/
def new (objective : Objective) (constraints : SparseMatrix) (constraintTypes : List ConstraintType)
    (b : List ℚ) (vars : List Variable) (names : List String) (fixedCost : ℚ) : GeneralForm where
  objective := objective
  fixedCost := fixedCost
  constraints := constraints
  constraintTypes := constraintTypes
  b := b
  vars := vars
  original := names.zipIdx.map fun p => (p.1, .active p.2)
  fromActive := List.range vars.length

/-! ### Standardisation -/

/-- Negation of the values of a column. -/
def negateColumn (v : SVec ℕ) : SVec ℕ := v.map fun p => (p.1, -p.2)

/-- The free variables, selected in `split_free_variables` (general_form/mod.rs:556-560). -/
def freeIndices (G : GeneralForm) : List ℕ :=
  (List.range G.constraints.major).filter fun j =>
    match G.vars[j]? with
    | some v => v.lowerBound.isNone && v.upperBound.isNone
    | none => false

/-- Body of the second loop of `split_free_variables` (general_form/mod.rs:574-586). -/
def splitStep (G : GeneralForm) (index : ℕ) : GeneralForm :=
  match G.vars[index]?, G.fromActive[index]? with
  | some v, some originalIndex =>
    { G with
      original := G.original.modify originalIndex fun p =>
        (p.1, .activeFree index G.fromActive.length)
      fromActive := G.fromActive ++ [originalIndex]
      vars := (G.vars ++ [(⟨v.variableType, -v.cost, some 0, none, 0, false⟩ : Variable)]).modify index
        fun v => { v with lowerBound := some 0 } }
  | _, _ => G

/-- `split_free_variables` (general_form/mod.rs:554-587). -/
def splitFreeVariables (G : GeneralForm) : GeneralForm :=
  let indices := G.freeIndices
  let columns := indices.map fun j => negateColumn (G.constraints.data.getD j [])
  let asMatrix : SparseMatrix := ⟨columns, indices.length, G.constraints.minor⟩
  indices.foldl splitStep { G with constraints := G.constraints.concatenate asMatrix }

/-- First part of the loop body of `transform_variables` (general_form/mod.rs:514-526): flip such that
there is a lower bound. -/
def flipVariable (j : ℕ) (G : GeneralForm) : GeneralForm :=
  match G.vars[j]? with
  | some v =>
    match v.lowerBound, v.upperBound with
    | none, some upper =>
      { G with
        vars := G.vars.set j ⟨v.variableType, v.cost * -1, some (-upper), none, v.shift * -1, !v.flipped⟩
        constraints := { G.constraints with
          data := G.constraints.data.modify j fun c => c.map fun p => (p.1, p.2 * -1) } }
    | _, _ => G
  | none => G

/-- Second part of the loop body of `transform_variables` (general_form/mod.rs:528-542): shift such that
the lower bound is zero. -/
def shiftVariable (j : ℕ) (G : GeneralForm) : GeneralForm :=
  match G.vars[j]? with
  | some v =>
    match v.lowerBound with
    | some lower =>
      { G with
        vars := G.vars.set j ⟨v.variableType, v.cost, some 0, v.upperBound.map fun upper => upper - lower,
          v.shift - lower, v.flipped⟩
        fixedCost := G.fixedCost + lower * v.cost
        b := (G.constraints.data.getD j []).foldl
          (fun b p => b.modify p.1 fun x => x - p.2 * lower) G.b }
    | none => G
  | none => G

/-- `transform_variables` (general_form/mod.rs:506-546). -/
def transformVariables (G : GeneralForm) : GeneralForm :=
  let G := G.splitFreeVariables
  (List.range G.vars.length).foldl (fun G j => shiftVariable j (flipVariable j G)) G

/-- New relation of a row that is negated, and its right-hand side (general_form/mod.rs:599-617). -/
def negateRow : ConstraintType → ℚ → ConstraintType × ℚ
  | .less, b => (.greater, b * -1)
  | .equal, b => (.equal, b * -1)
  | .greater, b => (.less, b * -1)
  | .range r, b => (.range r, r - b)

/-- `make_b_non_negative` (general_form/mod.rs:592-620). The rows to negate are pairwise different, so
that the loop over them is a map. -/
def makeBNonNegative (G : GeneralForm) : GeneralForm :=
  let rows := (List.range G.b.length).filter fun i => G.b.getD i 0 < 0
  { G with
    constraints := G.constraints.changeMinorSigns rows
    constraintTypes := (G.constraintTypes.zip G.b).map fun p =>
      if p.2 < 0 then (negateRow p.1 p.2).1 else p.1
    b := (G.constraintTypes.zip G.b).map fun p =>
      if p.2 < 0 then (negateRow p.1 p.2).2 else p.2 }

/-- `make_minimization_problem` (general_form/mod.rs:623-631). -/
def makeMinimization (G : GeneralForm) : GeneralForm :=
  match G.objective with
  | .maximize => { G with objective := .minimize,
                          vars := G.vars.map fun v => { v with cost := v.cost * -1 } }
  | .minimize => G

/-- The kind of a relation (`RangedConstraintRelationKind`, elements.rs:61-80), as its position in the
order that `reorder_constraints_by_type` sorts by (general_form/mod.rs:665-688). -/
def rank : ConstraintType → ℕ
  | .equal => 0
  | .range _ => 1
  | .less => 2
  | .greater => 3

/-- Number of constraints of a kind. -/
def countRank (types : List ConstraintType) (k : ℕ) : ℕ := types.countP fun t => rank t = k

/-- `get_destination` (general_form/mod.rs:690-697): the number of constraints of lower kind, plus
`map[source]`, the number of earlier constraints of the same kind. -/
def destination (types : List ConstraintType) (source : ℕ) : ℕ :=
  match types[source]? with
  | some t =>
    ((List.range (rank t)).map (countRank types)).sum + countRank (types.take source) (rank t)
  | none => 0

/-- The array of counts that `standardize` returns (general_form/mod.rs:325, 715). -/
structure Counts where
  equality : ℕ
  range : ℕ
  upper : ℕ
  lower : ℕ

/-- `reorder_constraints_by_type` (general_form/mod.rs:651-716). The stable `sort_by` is modelled by its
effect: the constraints of the four kinds one after the other. The `unwrap` of a hole in the new right-hand
side is `none`. -/
def reorderConstraints (G : GeneralForm) : Option (GeneralForm × Counts) := do
  let types := G.constraintTypes
  let newB := (List.range G.b.length).foldl
    (fun (newB : List (Option ℚ)) i => newB.set (destination types i) G.b[i]?)
    (List.replicate G.b.length none)
  let b ← newB.mapM id
  pure ({ G with
    constraintTypes := ((List.range 4).map fun k => types.filter fun t => rank t = k).flatten
    b := b
    constraints := { G.constraints with
      data := G.constraints.data.map fun column =>
        (column.map fun p => (destination types p.1, p.2)).insertionSort fun p q => p.1 ≤ q.1 } },
    ⟨countRank types 0, countRank types 1, countRank types 2, countRank types 3⟩)

/-- `standardize` (general_form/mod.rs:325-332). -/
def standardize (G : GeneralForm) : Option (GeneralForm × Counts) :=
  G.transformVariables.makeBNonNegative.makeMinimization.reorderConstraints

/-- The range of a constraint; other constraints are `unreachable!` here
(general_form/mod.rs:285-289). -/
def rangeOf : ConstraintType → Option ℚ
  | .range r => some r
  | _ => none

/-- `derive_matrix_data` (general_form/mod.rs:262-302); `none` is the `unreachable!`. -/
def deriveMatrixData (G : GeneralForm) (counts : Counts) : Option MatrixData := do
  let ranges ← (((G.constraintTypes.take (counts.equality + counts.range)).drop (counts.equality))).mapM rangeOf
  pure { constraints := G.constraints, b := G.b, ranges := ranges, nrEquality := counts.equality,
         nrRange := counts.range, nrUpper := counts.upper, nrLower := counts.lower, vars := G.vars }

/-! ### Reconstruction -/

/-- Loop body of `reshift_solution` (general_form/mod.rs:816-824). -/
def reshiftStep (x : SparseVector) (p : Variable × ℕ) : SparseVector :=
  let x := x.shiftValue p.2 (-p.1.shift)
  if p.1.flipped then
    match x.get p.2 with
    | some value => x.set p.2 (-value)
    | none => x
  else x

/-- `reshift_solution` (general_form/mod.rs:808-825). -/
def reshiftSolution (G : GeneralForm) (x : SparseVector) : SparseVector :=
  G.vars.zipIdx.foldl reshiftStep x

/-- `compute_solution_value_with_bfs` (general_form/mod.rs:889-933). The table `new_solutions`, which
only stores values already computed, is left out. Removed variables that depend on each other cyclically
would recurse without end: then the fuel is used up, `none`. -/
def solutionValue (G : GeneralForm) (reduced : SparseVector) : ℕ → ℕ → Option ℚ
  | 0, _ => none
  | fuel + 1, variable_ =>
    match G.original[variable_]? with
    | none => none
    | some (_, .active j) => some ((reduced.get j).getD 0)
    | some (_, .activeFree positive negative) =>
      match reduced.get positive, reduced.get negative with
      | none, none => some 0
      | some p, none => some p
      | none, some n => some (-n)
      | some p, some n => some (p - n)
    | some (_, .removed (.solved v)) => some v
    | some (_, .removed (.functionOfOthers constant coefficients)) => do
      let terms ← coefficients.mapM fun p => do
        let v ← solutionValue G reduced fuel p.1
        pure (v * p.2)
      pure (-terms.sum + constant)

/-- `Solution` (solution.rs:15-21). -/
structure Solution where
  objectiveValue : ℚ
  values : List (String × ℚ)
  deriving DecidableEq

/-- `compute_full_solution_with_reduced_solution` (general_form/mod.rs:840-870). -/
def computeFullSolution (G : GeneralForm) (reduced : SparseVector) : Option Solution := do
  let cost := (reduced.data.map fun p => p.2 * (G.vars[p.1]?.map (·.cost)).getD 0).sum + G.fixedCost
  let reduced := G.reshiftSolution reduced
  let values ← (List.range G.original.length).mapM fun j =>
    G.solutionValue reduced (G.original.length + 1) j
  pure ⟨cost, (G.original.map (·.1)).zip values⟩

end GeneralForm

/-- `LinearProgramType` (elements.rs:182-186). -/
inductive LinearProgramType
  | finiteOptimum (solution : GeneralForm.Solution)
  | infeasible
  | unbounded
  deriving DecidableEq

end Relp
