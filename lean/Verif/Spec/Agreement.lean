import Verif.Spec.GeneralForm
import Verif.Spec.LP
import Verif.Model.Solve
import Verif.Model.SolveGeneral

/-!
# Specification: what it means that two answers agree
-/

namespace Relp.Spec

/-- The values of the objective that feasible points have are the same in two linear programs. -/
def SameValues {m n m' n' : ℕ} (P : LP m n) (Q : LP m' n') : Prop :=
  ∀ v, (∃ x, P.Feasible x ∧ P.objective x = v) ↔ ∃ y, Q.Feasible y ∧ Q.objective y = v

/-- Two answers are of the same kind; optima have the same value. -/
def SameAnswer {m n m' n' : ℕ} (P : LP m n) (Q : LP m' n') :
    OptimizationResult n → OptimizationResult n' → Prop
  | .infeasible, .infeasible => True
  | .unbounded, .unbounded => True
  | .finiteOptimum x, .finiteOptimum y => P.objective (SVec.val x) = Q.objective (SVec.val y)
  | _, _ => False

/-- The same for problems in general form, which have the same direction of optimisation. -/
def SameValuesGeneral (G H : GeneralForm) : Prop :=
  G.objective = H.objective ∧
    ∀ v, (∃ x, G.toProgram.Feasible x ∧ G.toProgram.objective x = v) ↔
      ∃ y, H.toProgram.Feasible y ∧ H.toProgram.objective y = v

/-- Two answers are of the same kind; the values of the variables in two optima are those of best points, which
have the same objective value. For minimisation, this is also the objective value that both report. -/
def SameAnswerGeneral (G H : GeneralForm) : LinearProgramType → LinearProgramType → Prop
  | .infeasible, .infeasible => True
  | .unbounded, .unbounded => True
  | .finiteOptimum s, .finiteOptimum t => ∃ x y, G.Best x ∧ G.Extends x s.values ∧ H.Best y ∧
      H.Extends y t.values ∧ G.toProgram.objective x = H.toProgram.objective y ∧
      (G.objective = .minimize → s.objectiveValue = t.objectiveValue)
  | _, _ => False

end Relp.Spec
