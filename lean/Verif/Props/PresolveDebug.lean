import Verif.Proof.PresolveDebugRun
import Verif.Props.Presolve

/-!
# Properties: presolving in a debug build

A debug build checks the state of presolving while it runs, and aborts if a check fails. **C64**: it gives
the same results as a release build. This is false: the rule for slack variables expects a variable that is
not fixed by its bounds, but the queue with fixed variables is not emptied before the rule is applied.
-/

namespace Relp

open Presolve

namespace Example

/-- Minimise `x1 + x2 + x3` with `x0 + x1 ≤ 0`, `x0 + x2 + x3 = 5` and all variables at least zero. Both
`x0` and `x1` are fixed at zero by the first constraint. -/
def fixedSlack : GeneralForm :=
  problem [[(0, 1), (1, 1)], [(0, 1)], [(1, 1)], [(1, 1)]] [.less, .equal] [0, 5]
    [vari 0 (some 0) none, vari 1 (some 0) none, vari 1 (some 0) none, vari 1 (some 0) none]
    ["x0", "x1", "x2", "x3"]

theorem fixedSlack_fresh : fixedSlack.Fresh ∧ fixedSlack.Proper :=
  ⟨problem_fresh _ _ _ _ _ rfl rfl (by decide +kernel) (by decide +kernel) rfl (by decide +kernel),
    by decide +kernel, by intro r hr; simp [fixedSlack, problem, GeneralForm.new] at hr⟩

attribute [local irreducible] presolve in
theorem fixedSlack_correct :
    ResultCorrect fixedSlack (fun a => a = .unreachable) (presolve 100 fixedSlack) :=
  have h := careful_spec (G := fixedSlack) (L := []) (fuel := 100) (by decide +kernel)
  C44_presolve_steps_partial fixedSlack_fresh.1 fixedSlack_fresh.2 100 _ h.1 h.2

end Example

/-- **C64 is false**: a debug build aborts for this problem, which has a feasible point, and for which a
release build gives a problem that can be solved instead. -/
theorem C64_not_equal : Example.fixedSlack.Fresh ∧ Example.fixedSlack.Proper ∧
    Example.fixedSlack.toProgram.Feasible ![0, 0, 5, 0] ∧
    (∃ H, presolve 100 Example.fixedSlack = .ok H) ∧
    ResultCorrect Example.fixedSlack (fun a => a = .unreachable) (presolve 100 Example.fixedSlack) ∧
    presolveDebug 100 Example.fixedSlack = .error (.abort .debugAssertion) := by
  refine ⟨Example.fixedSlack_fresh.1, Example.fixedSlack_fresh.2,
    ⟨by decide +kernel, by decide +kernel⟩, ?_, Example.fixedSlack_correct, by decide +kernel⟩
  have h : (presolve 100 Example.fixedSlack).toOption.isSome = true := by decide +kernel
  cases hr : presolve 100 Example.fixedSlack with
  | ok H => exact ⟨H, rfl⟩
  | error e => rw [hr] at h; cases h

/-- **C64**, the answers: unless it aborts, a debug build gives exactly the result of a release build, for
every problem. -/
theorem C64_same_answer (fuel : ℕ) (G : GeneralForm)
    (h : ∀ a, presolveDebug fuel G ≠ .error (.abort a)) : presolve fuel G = presolveDebug fuel G :=
  ((presolveDebug_agree fuel G).resolve_right (h _)).symm

/-- **C64**, the checks: a debug build aborts whenever a slack variable is removed that is fixed by its bounds
at that time, in any run. -/
theorem C64_fixed_slack_aborts {fuel : ℕ} {G : GeneralForm} {s : Index} (hs : Index.new G = .ok s)
    (h : ¬UnfixedRun G fuel s 0) : presolveDebug fuel G = .error (.abort .debugAssertion) :=
  presolveDebug_fixed hs h

section

variable {G : GeneralForm} (hG : G.Fresh) (hp : G.Proper) (fuel : ℕ)

include hG hp

/-- **C64**, partial: a debug build gives exactly the result of a release build, if all steps are safe and no
slack variable that is removed is fixed by its bounds at that time.

Missing: other runs, see `C64_not_equal`. -/
theorem C64_same_result_partial (hsafe : ∀ s, Index.new G = .ok s → SafeRun G fuel s 0)
    (hunfixed : ∀ s, Index.new G = .ok s → UnfixedRun G fuel s 0) :
    presolveDebug fuel G = presolve fuel G :=
  presolveDebug_eq hG hp hsafe hunfixed

/-- **C64**, partial: if all steps are safe, a check fails only if a slack variable is removed that is fixed
by its bounds at that time.

Missing: runs with steps that are not safe (see C33, C34). -/
theorem C64_only_fixed_slack_partial (hsafe : ∀ s, Index.new G = .ok s → SafeRun G fuel s 0) :
    presolveDebug fuel G = .error (.abort .debugAssertion) ↔
      ∃ s, Index.new G = .ok s ∧ ¬UnfixedRun G fuel s 0 := by
  refine ⟨fun h => ?_, fun ⟨s, hs, h⟩ => presolveDebug_fixed hs h⟩
  by_contra hc
  push Not at hc
  rw [presolveDebug_eq hG hp hsafe hc] at h
  have := C46_abort_partial hG hp fuel hsafe h
  cases this

end

/-- The hypotheses of `C64_same_result_partial` hold for `textbook`, of which a constraint and bounds are
changed. -/
example : presolveDebug 100 Example.textbook = presolve 100 Example.textbook :=
  have h := debugSafe_spec (G := Example.textbook) (fuel := 100) (by decide +kernel)
  C64_same_result_partial Example.textbook_fresh.1 Example.textbook_fresh.2 100 h.1 h.2

/-- The hypothesis of `C64_same_answer` holds for `textbook`. -/
example (a : Abort) : presolveDebug 100 Example.textbook ≠ .error (.abort a) := by
  have h : presolveDebug 100 Example.textbook = .ok Example.textbookLeft := by decide +kernel
  rw [h]
  intro hc
  cases hc

/-- The hypotheses of `C64_fixed_slack_aborts` hold for `fixedSlack`, in which all steps are safe. -/
example : ∃ s, Index.new Example.fixedSlack = .ok s ∧ SafeRun Example.fixedSlack 100 s 0 ∧
    ¬UnfixedRun Example.fixedSlack 100 s 0 := by
  have h : (match Index.new Example.fixedSlack with
    | .ok s => decide (SafeRun Example.fixedSlack 100 s 0) &&
      !decide (UnfixedRun Example.fixedSlack 100 s 0)
    | .error _ => false) = true := by decide +kernel
  cases hs : Index.new Example.fixedSlack with
  | error e => rw [hs] at h; cases h
  | ok s =>
    rw [hs] at h
    simp only [Bool.and_eq_true, decide_eq_true_eq, Bool.not_eq_true', decide_eq_false_iff_not] at h
    exact ⟨s, rfl, h.1, h.2⟩

/-- The checks do not find the other defects: for the problem of `C34_not_outdated`, which has a feasible
point, a debug build reports that it is infeasible, too. -/
theorem C64_not_detected : presolveDebug 100 Example.outdated = .error (.verdict .infeasible) ∧
    Example.outdated.toProgram.Feasible ![1, 8, 0, 0, 3] :=
  ⟨by decide +kernel, C34_not_outdated.2.2.2⟩

end Relp
