import Verif.Model.SolveGeneral
import Verif.Model.ScaleSearch

/-!
# The chain of calls that solves a problem with scaling

As the comments on `Scalable` (scale/mod.rs:17-50) and `Scaling::scale_back` (scale/mod.rs:104-114) describe
it: scaling happens before other algorithms are applied, and is reversed, for the solution and the problem,
before the solution is transformed back.
-/

namespace Relp

namespace GeneralForm

open Scaling (Factorization Stop)

/-- The result of `Scalable::scale` in the chain. -/
def scaleResult {α : Type} : Except Stop α → Res α
  | .ok a => .ok a
  | .error .fuel => .error .outOfFuel
  | .error .panic => Relp.panic .indexOutOfBounds

/-- From `derive_matrix_data` on, for a scaled problem: `solve_relaxation`, `reconstruct_solution`,
`Scaling::scale_back` for the solution (scale/mod.rs:104-114), `Scalable::scale_back` for the problem
(scale/rational/mod.rs:65-67), `compute_full_solution_with_reduced_solution`. -/
def solveScaledForm (inv : InverseName) (rule : RuleName) (fuel : ℕ) (s : Scaling) (K : GeneralForm)
    (M : MatrixData) : Res LinearProgramType := do
  match ← solveRelaxation inv rule fuel M.toProvider M.initialBasis with
  | .infeasible => pure .infeasible
  | .unbounded => pure .unbounded
  | .finiteOptimum z => do
    let reduced := M.reconstructSolution z.toVector
    let data ← orPanic (s.scaleBackVector reduced.data)
    let H ← orPanic (s.scaleBack K)
    let solution ← orPanic (H.computeFullSolution { reduced with data := data })
    pure (.finiteOptimum solution)

/-- `standardize`, `scale`, `derive_matrix_data` and the calls above. -/
def solveScaled (factorize : ℚ → Factorization) (scaleFuel : ℕ) (inv : InverseName) (rule : RuleName) (fuel : ℕ)
    (G : GeneralForm) : Res LinearProgramType := do
  let (H, counts) ← orPanic G.standardize
  let (K, s) ← scaleResult (Scaling.compute factorize scaleFuel H)
  let M ← orPanic (K.deriveMatrixData counts)
  solveScaledForm inv rule fuel s K M

/-- The same, with `scale` before `standardize`. -/
def scaleAndSolve (factorize : ℚ → Factorization) (scaleFuel : ℕ) (inv : InverseName) (rule : RuleName)
    (fuel : ℕ) (G : GeneralForm) : Res LinearProgramType := do
  let (K, s) ← scaleResult (Scaling.compute factorize scaleFuel G)
  let (H, counts) ← orPanic K.standardize
  let M ← orPanic (H.deriveMatrixData counts)
  solveScaledForm inv rule fuel s H M

end GeneralForm

end Relp
