import Verif.Props.Start
import Verif.Proof.DebugProper

/-!
# Properties: problems that contradict themselves, in a debug build (C30, C71)

In a release build, an optimum may be reported for a problem in which the bounds of a variable cross (C30). A
debug build never does that: it gives no answer at all for such a problem. So every answer of a debug build for
a consistent problem is right, without the requirement that no bounds cross.
-/

namespace Relp

open GeneralForm

section

variable (G : GeneralForm) (hG : G.Consistent) (inv : InverseName) (rule : RuleName) (fuel : ℕ)

include hG

/-- **C30**, partial: in a debug build, no answer is given for a problem in which a variable has an upper bound
below its lower bound. Missing: release builds, see `C30_crossing_bounds_violated`. -/
theorem C30_debug_partial {v : Variable} (hv : v ∈ G.vars) {l u : ℚ} (hl : v.lowerBound = some l)
    (hu : v.upperBound = some u) (hlt : u < l) (answer : LinearProgramType) :
    G.solveDebug inv rule fuel ≠ .ok answer := fun h =>
  absurd ((solveDebug_proper hG h).bounds v hv l hl u hu) (not_le.2 hlt)

/-- The same for a constraint with a range that is negative. -/
theorem C30_debug_range_partial {r : ℚ} (hr : .range r ∈ G.constraintTypes) (hlt : r < 0)
    (answer : LinearProgramType) : G.solveDebug inv rule fuel ≠ .ok answer := fun h =>
  absurd ((solveDebug_proper hG h).ranges r hr) (not_le.2 hlt)

/-- **C71**, problems in general form: every answer of a debug build is right, whether or not bounds cross. -/
theorem C71_general_form (ha : G.Acyclic) (answer : LinearProgramType) :
    G.solveDebug inv rule fuel = .ok answer →
    match answer with
    | .infeasible => G.toProgram.Infeasible
    | .unbounded => G.Unbounded
    | .finiteOptimum solution => ∃ x, G.Best x ∧ G.Extends x solution.values ∧
      (G.objective = .minimize → solution.objectiveValue = G.toProgram.objective x) := by
  intro h
  have hp := solveDebug_proper hG h
  have hz := C69_general_form inv rule fuel G answer h
  cases answer with
  | infeasible => exact C43_infeasible G hG hp inv rule fuel hz
  | unbounded => exact C43_unbounded G hG hp inv rule fuel hz
  | finiteOptimum solution => exact C43_optimum G hG hp inv rule fuel solution hz ha

end

/-- The problem for which a release build reports an optimum. -/
example (inv : InverseName) (fuel : ℕ) (answer : LinearProgramType) :
    Example.crossing.solveDebug inv .steepestDescentAlongObjective fuel ≠ .ok answer :=
  C30_debug_partial _ C30_crossing_bounds_violated.1 _ _ _ (List.mem_cons_self ..) rfl rfl one_pos answer

/-- `minimise x` with `3 ≤ x ≤ 1`, written as a constraint with a negative range, and `x ≥ 0`. -/
def Example.negativeRange : GeneralForm :=
  .new .minimize ⟨[[(0, 1)]], 1, 1⟩ [.range (-2)] [1] [⟨.continuous, 1, some 0, none, 0, false⟩] ["x"] 0

theorem Example.negativeRange_consistent : Example.negativeRange.Consistent :=
  (new_consistent _ _ _ _ _ _ _ rfl rfl rfl rfl (by decide +kernel) (by decide +kernel) rfl (by decide +kernel)).1

example (inv : InverseName) (rule : RuleName) (fuel : ℕ) (answer : LinearProgramType) :
    Example.negativeRange.solveDebug inv rule fuel ≠ .ok answer :=
  C30_debug_range_partial _ Example.negativeRange_consistent _ _ _ (List.mem_cons_self ..) (by norm_num) answer

example : ∃ x, Example.general.Best x ∧ Example.general.Extends x [("x", -3), ("y", 3), ("z", 1)] ∧
    (Example.general.objective = .minimize → 1 = Example.general.toProgram.objective x) :=
  C71_general_form _ Example.general_consistent.1 .lu .steepestDescentAlongObjective 30
    Example.general_consistent.2 (.finiteOptimum ⟨1, [("x", -3), ("y", 3), ("z", 1)]⟩) (by decide +kernel)

end Relp
