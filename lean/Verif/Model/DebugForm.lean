import Verif.Model.Debug
import Verif.Model.PresolveDebug
import Verif.Model.SolveGeneral

/-!
# Model of the chain of calls that solves a problem in general form, in a debug build

The definitions here are those of `Model/GeneralForm.lean`, `Model/MatrixData.lean` and
`Model/SolveGeneral.lean` with the checks (`debug_assert!`) that a debug build makes in them.

Not repeated here: checks that an index is below the length of a list that is indexed right after, and checks
that follow from the lines right above them (matrix_data.rs:194-195, general_form/mod.rs:862, 901).
-/

namespace Relp

/-- `from_major_ordered_tuples` (matrix.rs:391-411). -/
def SparseMatrix.newDebug (data : List (SVec ℕ)) (major minor : ℕ) : Res SparseMatrix := do
  debugAssert (data.length = major)
  debugAssert (decide (∀ v ∈ data, v.Pairwise fun p q => p.1 ≤ q.1))
  debugAssert (decide (∀ v ∈ data, ∀ p ∈ v, p.1 < minor))
  debugAssert (decide (∀ v ∈ data, ∀ p ∈ v, p.2 ≠ 0))
  pure ⟨data, major, minor⟩

/-- `concatenate_horizontally` (matrix.rs:333-337), with `concatenate_major_indices` (464-472). -/
def SparseMatrix.concatenateDebug (A B : SparseMatrix) : Res SparseMatrix := do
  debugAssert (A.minor = B.minor)
  SparseMatrix.newDebug (A.data ++ B.data) (A.major + B.major) A.minor

namespace GeneralForm

/-- `new` (general_form/mod.rs:211-237). -/
def newDebug (objective : Objective) (constraints : SparseMatrix) (constraintTypes : List ConstraintType)
    (b : List ℚ) (vars : List Variable) (names : List String) (fixedCost : ℚ) : Res GeneralForm := do
  let G := GeneralForm.new objective constraints constraintTypes b vars names fixedCost
  debugAssert G.isConsistent
  pure G

/-- `split_free_variables` (general_form/mod.rs:554-587). -/
def splitFreeVariablesDebug (G : GeneralForm) : Res GeneralForm := do
  let indices := G.freeIndices
  let columns := indices.map fun j => negateColumn (G.constraints.data.getD j [])
  let asMatrix ← SparseMatrix.newDebug columns indices.length G.constraints.minor
  let constraints ← G.constraints.concatenateDebug asMatrix
  pure (indices.foldl splitStep { G with constraints := constraints })

/-- `transform_variables` (general_form/mod.rs:506-546). -/
def transformVariablesDebug (G : GeneralForm) : Res GeneralForm := do
  let G ← G.splitFreeVariablesDebug
  debugAssert G.isConsistent
  let G := (List.range G.vars.length).foldl (fun G j => shiftVariable j (flipVariable j G)) G
  debugAssert G.isConsistent
  pure G

/-- `make_b_non_negative` (general_form/mod.rs:592-620). -/
def makeBNonNegativeDebug (G : GeneralForm) : Res GeneralForm := do
  debugAssert G.makeBNonNegative.isConsistent
  pure G.makeBNonNegative

/-- `reorder_constraints_by_type` (general_form/mod.rs:651-716), with the check of `DenseVector::new`
(dense.rs:96). -/
def reorderConstraintsDebug (G : GeneralForm) : Res (GeneralForm × Counts) := do
  let (H, counts) ← orPanic G.reorderConstraints
  debugAssert (H.b.length = G.b.length)
  debugAssert H.isConsistent
  pure (H, counts)

/-- `standardize` (general_form/mod.rs:325-332). -/
def standardizeDebug (G : GeneralForm) : Res (GeneralForm × Counts) := do
  let G ← G.transformVariablesDebug
  let G ← G.makeBNonNegativeDebug
  G.makeMinimization.reorderConstraintsDebug

/-- The closure in the first check of `derive_matrix_data` (general_form/mod.rs:266-275): the kind that the
constraint with a given index should have; nothing for the `panic!()`. -/
def Counts.kindAt (counts : Counts) (i : ℕ) : Option ℕ :=
  if i < counts.equality then some 0
  else if i < counts.equality + counts.range then some 1
  else if i < counts.equality + counts.range + counts.upper then some 2
  else if i < counts.equality + counts.range + counts.upper + counts.lower then some 3
  else none

/-- `derive_matrix_data` (general_form/mod.rs:262-302), with the checks of `MatrixData::new`
(matrix_data.rs:172-246). -/
def deriveMatrixDataDebug (G : GeneralForm) (counts : Counts) : Res MatrixData := do
  debugAssert (decide (∀ p ∈ G.constraintTypes.zipIdx, counts.kindAt p.2 = some (rank p.1)))
  debugAssert (counts.equality + counts.range + counts.upper + counts.lower = G.constraints.minor)
  let M ← orPanic (G.deriveMatrixData counts)
  debugAssert (M.ranges.length = M.nrRange)
  debugAssert (M.lowerEnd = M.constraints.minor)
  pure M

end GeneralForm

/-- `remove_indices` (sparse.rs:149-158). -/
def SparseVector.removeIndicesDebug (v : SparseVector) (indices : List ℕ) : Res SparseVector := do
  debugAssert (decide (indices.Pairwise (· ≤ ·)))
  debugAssert (indices.toFinset.card = indices.length)
  debugAssert (decide (∀ i ∈ indices, i < v.len))
  debugAssert (indices.length < v.len)
  pure (v.removeIndices indices)

/-- `reconstruct_solution` (matrix_data.rs:402-411). -/
def MatrixData.reconstructSolutionDebug (M : MatrixData) (columnValues : SparseVector) : Res SparseVector := do
  debugAssert (columnValues.len = M.nrColumns)
  columnValues.removeIndicesDebug (List.range' M.constraints.major (M.nrColumns - M.constraints.major))

namespace GeneralForm

/-- Loop body of `reshift_solution` (general_form/mod.rs:816-824), with the checks of `shift_value`
(sparse.rs:306), `get` (139) and `set` (129-130). -/
def reshiftStepDebug (x : SparseVector) (p : Variable × ℕ) : Res SparseVector := do
  debugAssert (p.2 < x.len)
  let x := x.shiftValue p.2 (-p.1.shift)
  if p.1.flipped then
    match x.get p.2 with
    | some value => do
      debugAssert (-value ≠ 0)
      pure (x.set p.2 (-value))
    | none => pure x
  else pure x

/-- `reshift_solution` (general_form/mod.rs:808-825). -/
def reshiftSolutionDebug (G : GeneralForm) (x : SparseVector) : Res SparseVector := do
  debugAssert (x.len = G.vars.length)
  G.vars.zipIdx.foldlM reshiftStepDebug x

/-- `compute_full_solution_with_reduced_solution` (general_form/mod.rs:840-870), with the check of
`compute_solution_value_with_bfs` on the length (902). -/
def computeFullSolutionDebug (G : GeneralForm) (reduced : SparseVector) : Res Solution := do
  debugAssert (reduced.len = G.vars.length)
  let cost := (reduced.data.map fun p => p.2 * (G.vars[p.1]?.map (·.cost)).getD 0).sum + G.fixedCost
  let reduced ← G.reshiftSolutionDebug reduced
  debugAssert (reduced.len = G.vars.length)
  let values ← orPanic ((List.range G.original.length).mapM fun j =>
    G.solutionValue reduced (G.original.length + 1) j)
  pure ⟨cost, (G.original.map (·.1)).zip values⟩

/-- The second half of `solveDebug`. -/
def solveStandardizedDebug (inv : InverseName) (rule : RuleName) (fuel : ℕ) (H : GeneralForm)
    (M : MatrixData) : Res LinearProgramType := do
  match ← solveRelaxationDebug inv rule fuel M.toProvider M.initialBasis with
  | .infeasible => pure .infeasible
  | .unbounded => pure .unbounded
  | .finiteOptimum z => do
    let reduced ← M.reconstructSolutionDebug z.toVector
    let solution ← H.computeFullSolutionDebug reduced
    pure (.finiteOptimum solution)

/-- How a user of the crate solves a problem without `presolve` (tests/netlib/mod.rs:57-71, without line
58), in a debug build. -/
def solveDebug (inv : InverseName) (rule : RuleName) (fuel : ℕ) (G : GeneralForm) : Res LinearProgramType := do
  let (H, counts) ← G.standardizeDebug
  let M ← H.deriveMatrixDataDebug counts
  solveStandardizedDebug inv rule fuel H M

/-- How a user of the crate solves a problem with `presolve` (tests/unicamp/mod.rs:59-88, with other
verdicts of `presolve` than `FiniteOptimum` passed on too), in a debug build. Nothing if the code aborts or
the fuel is used up. -/
def presolveAndSolveDebug (inv : InverseName) (rule : RuleName) (presolveFuel fuel : ℕ) (G : GeneralForm) :
    Option LinearProgramType :=
  match Presolve.presolveDebug presolveFuel G with
  | .ok H => (H.solveDebug inv rule fuel).toOption
  | .error (.verdict result) => some result
  | .error _ => none

end GeneralForm

end Relp
