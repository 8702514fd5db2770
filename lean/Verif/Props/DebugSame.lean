import Verif.Props.DebugForm
import Verif.Proof.DebugBelowForm

/-!
# Properties: an answer of a debug build is the answer of a release build (C69)

C61, C64 and C68 say for which inputs the checks of a debug build hold. **C69** is about all inputs, also those
that break every rule of the library (unsorted columns, an initial basis that is none, bounds that cross):
whenever a debug build gives an answer, a release build gives that answer.
-/

namespace Relp

open GeneralForm

variable {m n : ℕ}

/-- **C69**, `solve_relaxation`. -/
theorem C69_solver (inv : InverseName) (rule : RuleName) (fuel : ℕ) (P : Provider m n)
    (start : InitialBasis m n) (answer : OptimizationResult n)
    (h : solveRelaxationDebug inv rule fuel P start = .ok answer) :
    solveRelaxation inv rule fuel P start = .ok answer :=
  (solveRelaxationDebug_below inv rule fuel P start).elim h

/-- **C69**, the second phase from a given list of columns. -/
theorem C69_from_basis (inv : InverseName) (rule : RuleName) (fuel : ℕ) (P : Provider m n)
    (basis : Fin m → Fin n) (answer : OptimizationResult n)
    (h : primalFromBasisDebug inv.debugType rule.type fuel P basis = .ok answer) :
    primalFromBasis inv.type rule.type fuel P basis = .ok answer := by
  have := RuleName.instBelowRule rule
  cases inv
  · exact (primalFromBasisDebug_below (D := DebugRows) (R := rule.type) fuel P basis).elim h
  · exact (primalFromBasisDebug_below (D := DebugLU) (R := rule.type) fuel P basis).elim h

/-- **C69**, problems in general form. -/
theorem C69_general_form (inv : InverseName) (rule : RuleName) (fuel : ℕ) (G : GeneralForm)
    (answer : LinearProgramType) (h : G.solveDebug inv rule fuel = .ok answer) :
    G.solve inv rule fuel = .ok answer :=
  (G.solveDebug_below inv rule fuel).elim h

/-- **C69**, problems in general form with presolving. -/
theorem C69_presolve (inv : InverseName) (rule : RuleName) (presolveFuel fuel : ℕ) (G : GeneralForm)
    (answer : LinearProgramType) (h : G.presolveAndSolveDebug inv rule presolveFuel fuel = some answer) :
    G.presolveAndSolve inv rule presolveFuel fuel = some answer :=
  presolveAndSolveDebug_some h

/-! Concrete cases. -/

example : solveRelaxation .lu .firstProfitable 10 Example.optimum .none = .ok (.finiteOptimum [(0, 4), (1, 2)]) :=
  C69_solver _ _ _ _ _ _ (by decide +kernel)

example : primalFromBasis LU FirstProfitable 3 Example.optimum ![0, 2] = .ok (.finiteOptimum [(0, 4), (1, 2)]) :=
  C69_from_basis .lu .firstProfitable _ _ _ _ (by decide +kernel)

example : Example.general.solve .lu .steepestDescentAlongObjective 30 =
    .ok (.finiteOptimum ⟨1, [("x", -3), ("y", 3), ("z", 1)]⟩) :=
  C69_general_form _ _ _ _ _ (by decide +kernel)

end Relp
