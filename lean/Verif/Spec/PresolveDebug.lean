import Verif.Spec.Presolve

/-!
# Specification: presolving in a debug build

What a run of presolving has to avoid, beyond `SafeRun`, for the checks of a debug build to hold.
-/

namespace Relp

namespace Presolve

/-- If the step removes a slack variable, then the latest bounds of the variable do not fix it. -/
def UnfixedStep (G : GeneralForm) (s : Index) : Prop :=
  match nextRule s with
  | .slack j => ∀ l ∈ s.updates.variableBound G j .lower, ∀ r ∈ s.updates.variableBound G j .upper, l ≠ r
  | _ => True

/-- This is so in all steps of the loop. -/
def UnfixedRun (G : GeneralForm) : ℕ → Index → ℕ → Prop
  | 0, _, _ => True
  | fuel + 1, s, iterations =>
    !s.queues.areEmpty → iterations < remaining G s →
      UnfixedStep G s ∧
        match presolveStep G s with
        | .ok (t, .meaningful) => UnfixedRun G fuel t 0
        | .ok (t, .none) => UnfixedRun G fuel t iterations
        | .ok (t, .notMeaningful) => UnfixedRun G fuel t (iterations + 1)
        | .error _ => True

end Presolve

end Relp
