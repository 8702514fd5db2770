import Verif.Props.PresolveDebug
import Verif.Props.PresolveLeft
import Verif.Props.Debug
import Verif.Proof.DebugForm

/-!
# Properties: solving a problem in general form in a debug build (C68)

A debug build checks the state of a problem while it is standardised, brought in tabular form, solved, and
while its solution is mapped back. `GeneralForm.solveDebug` and `GeneralForm.presolveAndSolveDebug`
(`Verif/Model/DebugForm.lean`) are the chains of calls with these checks. **C68**: they give what a release
build gives. This is false for problems without variables.
-/

namespace Relp

open GeneralForm Presolve

section

variable (G : GeneralForm) (hG : G.Consistent) (hs : G.fromActive.Pairwise (· < ·)) (hp : G.Proper)
  (hne : ∃ c ∈ G.constraints.data, c ≠ [])

include hG hs hp hne

/-- **C68**, partial, `BasisInverseRows`: a debug build gives exactly the answer of a release build, for every
consistent problem with an entry in its matrix that is not zero, whose variables are in their original order.

Missing: problems whose matrix has no entry, see `C68_no_variables_aborts`. -/
theorem C68_rows_debug_partial (rule : RuleName) (fuel : ℕ) :
    G.solveDebug .rows rule fuel = G.solve .rows rule fuel :=
  solveDebug_eq hG hs hp hne fun _ _ _ _ _ hM hm hA =>
    C61_rows_debug_partial rule fuel _ hM.ok _ MatrixData.initialBasis_ok hm (.inl hA) fun _ _ => nofun

/-- **C68**, partial, `LUDecomposition`: the same if at least two constraints are inequalities or ranges.

Missing: other problems, for which fewer than two rows may remain when redundant rows are removed; with fewer
rows the decomposition itself aborts (C17). -/
theorem C68_lu_debug_partial (rule : RuleName) (fuel : ℕ)
    (h2 : 2 ≤ G.constraintTypes.countP fun t => t ≠ .equal) :
    G.solveDebug .lu rule fuel = G.solve .lu rule fuel :=
  solveDebug_eq hG hs hp hne fun H counts M h1 hd hM _ _ =>
    C61_lu_debug_partial rule fuel _ hM.ok _ MatrixData.initialBasis_ok fun rows hr => by
      have := redundant_length hG h1 hd hr
      omega

end

/-- **C13**, for problems in general form: with at least two inequalities or ranges, both representations of
the basis inverse give the same answer. -/
theorem C13_general_form (G : GeneralForm) (hG : G.Consistent) (hp : G.Proper) (rule : RuleName) (fuel : ℕ)
    (h2 : 2 ≤ G.constraintTypes.countP fun t => t ≠ .equal) :
    G.solve .lu rule fuel = G.solve .rows rule fuel := by
  obtain ⟨H, counts, M, h, hM, hst, he⟩ := solve_eq .lu rule fuel hG
  obtain ⟨r, d1, -, d3, -⟩ := hst.derive
  rw [hM] at d1
  cases d1
  have hr := fun rows => redundant_length (rows := rows) hG h hM
  have hsolve := C13_representation_irrelevant rule fuel _ (d3 hp).ok _ MatrixData.initialBasis_ok
    (by have := hr [] ⟨List.Pairwise.nil, by simp⟩; simp only [List.length_nil] at this; omega)
    (fun rows hrr => by have := hr rows hrr; omega)
  rw [he]
  simp only [GeneralForm.solve, h, orPanic, bindOk, hM]
  unfold solveStandardized
  rw [hsolve]

/-- So that with at least two inequalities or ranges, the chain of calls never aborts with either
representation. -/
theorem C43_lu_never_panics (G : GeneralForm) (hG : G.Consistent) (hp : G.Proper) (rule : RuleName)
    (fuel : ℕ) (ha : G.Acyclic) (h2 : 2 ≤ G.constraintTypes.countP fun t => t ≠ .equal) (p : Panic) :
    G.solve .lu rule fuel ≠ .error (.panic p) := by
  rw [C13_general_form G hG hp rule fuel h2]
  exact C43_never_panics G hG hp rule fuel ha p

/-- **C68**, partial, with presolving: a debug build gives exactly the answer of a release build, if all steps
of presolving are safe and no slack variable that is removed is fixed by its bounds at that time. Problems
without variables or without entries are no exception, because presolving solves them.

Missing: other runs of presolving, see `C64_not_equal`. -/
theorem C68_presolve_debug_partial {G : GeneralForm} (hG : G.Fresh) (hp : G.Proper) (rule : RuleName)
    (presolveFuel fuel : ℕ) (hsafe : ∀ s, Index.new G = .ok s → SafeRun G presolveFuel s 0)
    (hunfixed : ∀ s, Index.new G = .ok s → UnfixedRun G presolveFuel s 0) :
    G.presolveAndSolveDebug .rows rule presolveFuel fuel =
      G.presolveAndSolve .rows rule presolveFuel fuel := by
  unfold presolveAndSolveDebug presolveAndSolve
  rw [C64_same_result_partial hG hp presolveFuel hsafe hunfixed]
  cases h : presolve presolveFuel G with
  | error e => cases e <;> rfl
  | ok H =>
    obtain ⟨h1, h2, -, h3⟩ := presolve_ok_ordered hG hp hsafe h
    simp only []
    rw [C68_rows_debug_partial H h1 h3 h2 (C73_entry hG presolveFuel h)]

/-- **C68 is false**: a debug build never reports an optimum for a problem without variables. -/
theorem C68_no_variables_aborts (G : GeneralForm) (hG : G.Consistent)
    (hs : G.fromActive.Pairwise (· < ·)) (h0 : G.vars = []) (inv : InverseName) (rule : RuleName)
    (fuel : ℕ) (solution : Solution) : G.solveDebug inv rule fuel ≠ .ok (.finiteOptimum solution) :=
  solveDebug_no_vars hG hs h0 solution

/-- A problem without variables and with the constraint `0 ≤ 1`. -/
def Example.noVariables : GeneralForm := .new .minimize ⟨[], 0, 1⟩ [.less] [1] [] [] 7

theorem Example.noVariables_consistent : Example.noVariables.Consistent ∧ Example.noVariables.Acyclic :=
  GeneralForm.new_consistent _ _ _ _ _ _ _ rfl rfl rfl rfl (by decide +kernel) (by decide +kernel) rfl
    (by decide +kernel)

/-- A release build gives the right answer for this problem, and a debug build aborts. -/
theorem C68_not_equal :
    Example.noVariables.solve .rows .firstProfitable 10 = .ok (.finiteOptimum ⟨7, []⟩) ∧
    Example.noVariables.solveDebug .rows .firstProfitable 10 = .error (.panic .debugAssertion) := by
  decide +kernel

/-! Concrete cases. -/

example : Example.general.solveDebug .rows .steepestDescentAlongObjective 30 =
    Example.general.solve .rows .steepestDescentAlongObjective 30 :=
  C68_rows_debug_partial _ Example.general_consistent.1 (by decide +kernel) Example.general_proper
    (by decide +kernel) _ _

example : Example.general.solveDebug .lu .firstProfitable 30 =
    Example.general.solve .lu .firstProfitable 30 :=
  C68_lu_debug_partial _ Example.general_consistent.1 (by decide +kernel) Example.general_proper
    (by decide +kernel) _ _ (by decide +kernel)

example (p : Panic) : Example.general.solve .lu .firstProfitable 1000000 ≠ .error (.panic p) :=
  C43_lu_never_panics _ Example.general_consistent.1 Example.general_proper _ _
    Example.general_consistent.2 (by decide +kernel) p

example : Example.textbook.presolveAndSolveDebug .rows .firstProfitable 100 30 =
    Example.textbook.presolveAndSolve .rows .firstProfitable 100 30 :=
  have h := debugSafe_spec (G := Example.textbook) (fuel := 100) (by decide +kernel)
  C68_presolve_debug_partial Example.textbook_fresh.1 Example.textbook_fresh.2 _ _ _ h.1 h.2

example : Example.general.solveDebug .lu .steepestDescentAlongObjective 30 =
    .ok (.finiteOptimum ⟨1, [("x", -3), ("y", 3), ("z", 1)]⟩) := by decide +kernel

end Relp
