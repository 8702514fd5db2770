import Verif.Model.Presolve
import Verif.Model.GeneralForm
import Verif.Model.Run

/-!
# The chain of calls that solves a problem in general form
-/

namespace Relp

namespace GeneralForm

/-- An aborting step of the chain. -/
def orPanic {α : Type} : Option α → Res α
  | some a => .ok a
  | none => panic .indexOutOfBounds

/-- The second half of `solve`, from `derive_matrix_data` on. -/
def solveStandardized (inv : InverseName) (rule : RuleName) (fuel : ℕ) (H : GeneralForm)
    (M : MatrixData) : Res LinearProgramType := do
  match ← solveRelaxation inv rule fuel M.toProvider M.initialBasis with
  | .infeasible => pure .infeasible
  | .unbounded => pure .unbounded
  | .finiteOptimum z => do
    let solution ← orPanic (H.computeFullSolution (M.reconstructSolution z.toVector))
    pure (.finiteOptimum solution)

/-- How a user of the crate solves a problem without `presolve` (tests/netlib/mod.rs:57-71, without line
58; tests/cook/test.rs and tests/burkardt/test.rs use the same calls): `standardize`,
`derive_matrix_data`, `solve_relaxation`, `reconstruct_solution`,
`compute_full_solution_with_reduced_solution`. -/
def solve (inv : InverseName) (rule : RuleName) (fuel : ℕ) (G : GeneralForm) : Res LinearProgramType := do
  let (H, counts) ← orPanic G.standardize
  let M ← orPanic (H.deriveMatrixData counts)
  solveStandardized inv rule fuel H M

/-- How a user of the crate solves a problem with `presolve` (tests/unicamp/mod.rs:59-88, with other
verdicts of `presolve` than `FiniteOptimum` passed on too). Nothing if the code aborts or the fuel is used
up. -/
def presolveAndSolve (inv : InverseName) (rule : RuleName) (presolveFuel fuel : ℕ) (G : GeneralForm) :
    Option LinearProgramType :=
  match Presolve.presolve presolveFuel G with
  | .ok H => (H.solve inv rule fuel).toOption
  | .error (.verdict result) => some result
  | .error _ => none

end GeneralForm

end Relp
