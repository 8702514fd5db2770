import Verif.Proof.PresolveSteps
import Verif.Props.Presolve

/-!
# How many steps presolving takes (C48)
-/

namespace Relp

open Presolve

/-- An upper bound for the number of applications of rules, which depends on the size of the problem only
and is cubic in the numbers of constraints, variables and coefficients. -/
def presolveStepLimit (G : GeneralForm) : ℕ :=
  let coefficients := (G.constraints.data.map List.length).sum
  let constraints := G.constraintTypes.length
  let variables_ := G.vars.length
  (2 * coefficients + constraints + 2 * variables_ + 1) * (variables_ + constraints + 1) *
    (2 * constraints + 1)

/-- **C48.** Presolving ends within a number of applications of rules that is polynomial in the size of the
problem, whatever the numbers in it are. (`fuel` is the number of applications after which the model gives
up; the code does not give up.) -/
theorem C48_presolve_steps (G : GeneralForm) (hG : G.Consistent) :
    presolve (presolveStepLimit G) G ≠ .error .outOfFuel ∧
      ∀ fuel, presolveStepLimit G ≤ fuel → presolve fuel G = presolve (presolveStepLimit G) G := by
  have h := presolve_steps hG (fuel := presolveStepLimit G) le_rfl
  refine ⟨h.1, fun fuel hf => ?_⟩
  obtain ⟨k, rfl⟩ := Nat.exists_eq_add_of_le hf
  exact h.2 k

/-- The bounds of this problem could be halved without end; presolving is over after at most 375 steps. -/
example : presolveStepLimit Example.zeno = 375 ∧ presolve 375 Example.zeno ≠ .error .outOfFuel ∧
    presolve 3 Example.zeno = .error .outOfFuel :=
  ⟨by decide +kernel, (C48_presolve_steps Example.zeno Example.zeno_fresh.toConsistent).1,
    by decide +kernel⟩

end Relp
