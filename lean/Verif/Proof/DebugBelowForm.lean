import Verif.Model.DebugForm
import Verif.Proof.DebugBelowSolve
import Verif.Proof.PresolveDebugAgree

/-!
# What a debug build answers for a problem in general form, a release build answers
-/

namespace Relp

theorem SparseMatrix.newDebug_below (data : List (SVec ℕ)) (major minor : ℕ) :
    Below Eq (SparseMatrix.newDebug data major minor) (.ok ⟨data, major, minor⟩) :=
  .skip fun _ => .skip fun _ => .skip fun _ => .skip fun _ => .refl _

theorem SparseMatrix.concatenateDebug_below (A B : SparseMatrix) :
    Below Eq (A.concatenateDebug B) (.ok (A.concatenate B)) :=
  .skip fun _ => SparseMatrix.newDebug_below _ _ _

theorem SparseVector.removeIndicesDebug_below (v : SparseVector) (indices : List ℕ) :
    Below Eq (v.removeIndicesDebug indices) (.ok (v.removeIndices indices)) :=
  .skip fun _ => .skip fun _ => .skip fun _ => .skip fun _ => .refl _

theorem MatrixData.reconstructSolutionDebug_below (M : MatrixData) (v : SparseVector) :
    Below Eq (M.reconstructSolutionDebug v) (.ok (M.reconstructSolution v)) :=
  .skip fun _ => SparseVector.removeIndicesDebug_below _ _

namespace GeneralForm

theorem splitFreeVariablesDebug_below (G : GeneralForm) :
    Below Eq G.splitFreeVariablesDebug (.ok G.splitFreeVariables) := by
  refine .bindOk (SparseMatrix.newDebug_below _ _ _) fun _ h => ?_
  subst h
  refine .bindOk (SparseMatrix.concatenateDebug_below _ _) fun _ h => ?_
  subst h
  exact .refl _

theorem transformVariablesDebug_below (G : GeneralForm) :
    Below Eq G.transformVariablesDebug (.ok G.transformVariables) := by
  refine .bindOk G.splitFreeVariablesDebug_below fun _ h => ?_
  subst h
  exact .skip fun _ => .skip fun _ => .refl _

theorem reorderConstraintsDebug_below (G : GeneralForm) :
    Below Eq G.reorderConstraintsDebug (orPanic G.reorderConstraints) := by
  intro a ha
  unfold reorderConstraintsDebug at ha
  cases h : orPanic G.reorderConstraints with
  | error e => rw [h] at ha; cases ha
  | ok b =>
    rw [h] at ha
    have := (Below.skip fun _ => .skip fun _ => Below.refl (pure (b.1, b.2))).elim ha
    cases this
    exact ⟨_, rfl, rfl⟩

theorem standardizeDebug_below (G : GeneralForm) : Below Eq G.standardizeDebug (orPanic G.standardize) := by
  refine .bindOk G.transformVariablesDebug_below fun _ h => ?_
  subst h
  refine .bindOk (S := Eq) (b := G.transformVariables.makeBNonNegative) (.skip fun _ => .refl _) fun _ h => ?_
  subst h
  exact reorderConstraintsDebug_below _

theorem deriveMatrixDataDebug_below (G : GeneralForm) (counts : Counts) :
    Below Eq (G.deriveMatrixDataDebug counts) (orPanic (G.deriveMatrixData counts)) := by
  refine .skip fun _ => .skip fun _ => ?_
  intro a ha
  cases h : orPanic (G.deriveMatrixData counts) with
  | error e => rw [h] at ha; cases ha
  | ok b =>
    rw [h] at ha
    have := (Below.skip fun _ => .skip fun _ => Below.refl (pure b)).elim ha
    cases this
    exact ⟨_, rfl, rfl⟩

theorem reshiftStepDebug_below (x : SparseVector) (p : Variable × ℕ) :
    Below Eq (reshiftStepDebug x p) (.ok (reshiftStep x p)) := by
  unfold reshiftStepDebug reshiftStep
  refine .skip fun _ => ?_
  simp only []
  split
  · cases (x.shiftValue p.2 (-p.1.shift)).get p.2 with
    | none => exact .refl _
    | some value => exact .skip fun _ => .refl _
  · exact .refl _

theorem reshiftSolutionDebug_below (G : GeneralForm) (x : SparseVector) :
    Below Eq (G.reshiftSolutionDebug x) (.ok (G.reshiftSolution x)) := by
  refine .skip fun _ => ?_
  have := Below.foldlMEq (g := fun x p => (.ok (reshiftStep x p) : Res _)) reshiftStepDebug_below
    G.vars.zipIdx x
  have e : ∀ (l : List (Variable × ℕ)) (x : SparseVector),
      l.foldlM (fun x p => (.ok (reshiftStep x p) : Res _)) x = .ok (l.foldl reshiftStep x) := by
    intro l
    induction l with
    | nil => exact fun _ => rfl
    | cons p l ih => exact fun x => ih _
  rw [e] at this
  exact this

theorem computeFullSolutionDebug_below (G : GeneralForm) (reduced : SparseVector) :
    Below Eq (G.computeFullSolutionDebug reduced) (orPanic (G.computeFullSolution reduced)) := by
  refine .skip fun _ => .bindOk (G.reshiftSolutionDebug_below reduced) fun _ h => ?_
  subst h
  refine .skip fun _ => ?_
  unfold computeFullSolution
  simp only []
  cases (List.range G.original.length).mapM fun j =>
    G.solutionValue (G.reshiftSolution reduced) (G.original.length + 1) j with
  | none => exact .panicked _ _
  | some values => exact .refl _

theorem solveStandardizedDebug_below (inv : InverseName) (rule : RuleName) (fuel : ℕ) (H : GeneralForm)
    (M : MatrixData) :
    Below Eq (solveStandardizedDebug inv rule fuel H M) (solveStandardized inv rule fuel H M) := by
  refine .bindEq (solveRelaxationDebug_below _ _ _ _ _) fun result => ?_
  cases result with
  | infeasible => exact .refl _
  | unbounded => exact .refl _
  | finiteOptimum z =>
    refine .bindOk (M.reconstructSolutionDebug_below _) fun _ h => ?_
    subst h
    exact .bindEq (computeFullSolutionDebug_below _ _) fun _ => .refl _

theorem solveDebug_below (inv : InverseName) (rule : RuleName) (fuel : ℕ) (G : GeneralForm) :
    Below Eq (G.solveDebug inv rule fuel) (G.solve inv rule fuel) :=
  .bindEq G.standardizeDebug_below fun x => .bindEq (x.1.deriveMatrixDataDebug_below x.2) fun M =>
    solveStandardizedDebug_below inv rule fuel x.1 M

theorem presolveAndSolveDebug_some {inv : InverseName} {rule : RuleName} {presolveFuel fuel : ℕ} {G : GeneralForm}
    {answer : LinearProgramType} (h : G.presolveAndSolveDebug inv rule presolveFuel fuel = some answer) :
    G.presolveAndSolve inv rule presolveFuel fuel = some answer := by
  unfold presolveAndSolveDebug at h
  unfold presolveAndSolve
  rcases Presolve.presolveDebug_agree presolveFuel G with e | e
  · rw [e] at h
    cases hp : Presolve.presolve presolveFuel G with
    | error e => rw [hp] at h; cases e <;> exact h
    | ok H =>
      rw [hp] at h
      simp only [] at h ⊢
      cases hs : H.solveDebug inv rule fuel with
      | error e => rw [hs] at h; cases h
      | ok b =>
        rw [hs] at h
        cases h
        rw [(H.solveDebug_below inv rule fuel).elim hs]
        rfl
  · rw [e] at h
    cases h

end GeneralForm

end Relp
