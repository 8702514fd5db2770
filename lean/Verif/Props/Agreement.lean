import Verif.Spec.Agreement
import Verif.Props.Termination
import Verif.Props.DebugProper
import Verif.Props.ScaleSolve
import Verif.Props.Presolve

/-!
# C80: answers do not depend on how the problem is written down and solved

The specification is in `Spec/Agreement.lean`.
-/

namespace Relp

open Spec GeneralForm

variable {m n m' n' : ℕ}

/-- **C80**, for the solver: two problems whose feasible points have the same objective values get the same answer,
whichever pivot rule, basis inverse and initial basis are used for each of them, and however many iterations
were needed. -/
theorem C80_relaxation (P : Provider m n) (Q : Provider m' n') (hP : P.Ok) (hQ : Q.Ok)
    (hPQ : SameValues P.toLP Q.toLP)
    (inv inv' : InverseName) (rule rule' : RuleName) (fuel fuel' : ℕ)
    (start : InitialBasis m n) (hs : StartOk P start) (start' : InitialBasis m' n') (hs' : StartOk Q start')
    (a : OptimizationResult n) (b : OptimizationResult n')
    (ha : solveRelaxation inv rule fuel P start = .ok a)
    (hb : solveRelaxation inv' rule' fuel' Q start' = .ok b) :
    SameAnswer P.toLP Q.toLP a b := by
  have right : ∀ {m n : ℕ} {P : Provider m n} (_ : P.Ok) {inv rule fuel start} (_ : StartOk P start) {a},
      solveRelaxation inv rule fuel P start = .ok a →
      match a with
      | .infeasible => P.toLP.Infeasible
      | .unbounded => P.toLP.Unbounded
      | .finiteOptimum x => P.toLP.Optimal (SVec.val x) := by
    intro m n P hP inv rule fuel start hs a ha
    cases a with
    | infeasible => exact C04_infeasible_correct inv rule fuel P hP start hs ha
    | unbounded => exact C03_unbounded_correct inv rule fuel P hP start hs ha
    | finiteOptimum x =>
      exact ⟨C01_optimum_feasible inv rule fuel P hP start hs x ha,
        C02_optimum_optimal inv rule fuel P hP start hs x ha⟩
  have h1 := right hP hs ha
  have h2 := right hQ hs' hb
  cases a with
  | infeasible =>
    cases b with
    | infeasible => trivial
    | unbounded =>
      obtain ⟨y, hy, -⟩ := h2 0
      obtain ⟨x, hx, -⟩ := (hPQ _).2 ⟨y, hy, rfl⟩
      exact h1 x hx
    | finiteOptimum y =>
      obtain ⟨x, hx, -⟩ := (hPQ _).2 ⟨_, h2.1, rfl⟩
      exact h1 x hx
  | unbounded =>
    cases b with
    | infeasible =>
      obtain ⟨x, hx, -⟩ := h1 0
      obtain ⟨y, hy, -⟩ := (hPQ _).1 ⟨x, hx, rfl⟩
      exact h2 y hy
    | unbounded => trivial
    | finiteOptimum y =>
      obtain ⟨x, hx, hlt⟩ := h1 (Q.toLP.objective (SVec.val y))
      obtain ⟨z, hz, he⟩ := (hPQ _).1 ⟨x, hx, rfl⟩
      exact absurd (h2.2 z hz) (not_le.2 (he ▸ hlt))
  | finiteOptimum x =>
    cases b with
    | infeasible =>
      obtain ⟨y, hy, -⟩ := (hPQ _).1 ⟨_, h1.1, rfl⟩
      exact h2 y hy
    | unbounded =>
      obtain ⟨y, hy, hlt⟩ := h2 (P.toLP.objective (SVec.val x))
      obtain ⟨z, hz, he⟩ := (hPQ _).2 ⟨y, hy, rfl⟩
      exact absurd (h1.2 z hz) (not_le.2 (he ▸ hlt))
    | finiteOptimum y =>
      change P.toLP.objective (SVec.val x) = Q.toLP.objective (SVec.val y)
      obtain ⟨z, hz, he⟩ := (hPQ _).1 ⟨_, h1.1, rfl⟩
      obtain ⟨w, hw, he'⟩ := (hPQ _).2 ⟨_, h2.1, rfl⟩
      have h3 := h1.2 w hw
      have h4 := h2.2 z hz
      linarith

/-- In particular, for one problem, none of the choices matters. -/
theorem C80_choices (P : Provider m n) (hP : P.Ok)
    (inv inv' : InverseName) (rule rule' : RuleName) (fuel fuel' : ℕ)
    (start start' : InitialBasis m n) (hs : StartOk P start) (hs' : StartOk P start')
    (a b : OptimizationResult n)
    (ha : solveRelaxation inv rule fuel P start = .ok a)
    (hb : solveRelaxation inv' rule' fuel' P start' = .ok b) :
    SameAnswer P.toLP P.toLP a b :=
  C80_relaxation P P hP hP (fun _ => Iff.rfl) inv inv' rule rule' fuel fuel' start hs start' hs' a b ha hb

/-- **C80.** The order of the constraints and of the variables does not matter, nor do factors of the constraints. -/
theorem C80_reordered (P : Provider m n) (Q : Provider m' n') (hP : P.Ok) (hQ : Q.Ok)
    (rows : Fin m' ≃ Fin m) (columns : Fin n' ≃ Fin n) (factor : Fin m' → ℚ) (hf : ∀ i, factor i ≠ 0)
    (hA : ∀ i j, Q.toLP.A i j = factor i * P.toLP.A (rows i) (columns j))
    (hb : ∀ i, Q.toLP.b i = factor i * P.toLP.b (rows i)) (hc : ∀ j, Q.toLP.c j = P.toLP.c (columns j))
    (inv inv' : InverseName) (rule rule' : RuleName) (fuel fuel' : ℕ)
    (start : InitialBasis m n) (hs : StartOk P start) (start' : InitialBasis m' n') (hs' : StartOk Q start')
    (a : OptimizationResult n) (b : OptimizationResult n')
    (ha : solveRelaxation inv rule fuel P start = .ok a)
    (hb' : solveRelaxation inv' rule' fuel' Q start' = .ok b) :
    SameAnswer P.toLP Q.toLP a b := by
  refine C80_relaxation P Q hP hQ (fun v => ?_) inv inv' rule rule' fuel fuel' start hs start' hs' a b ha hb'
  have hrow (x : Fin n → ℚ) (i : Fin m') :
      (Q.toLP.A.mulVec fun j => x (columns j)) i = factor i * (P.toLP.A.mulVec x) (rows i) := by
    simp only [Matrix.mulVec, dotProduct, hA, Finset.mul_sum]
    rw [← Equiv.sum_comp columns]
    exact Finset.sum_congr rfl fun j _ => by ring
  have hobj (x : Fin n → ℚ) : Q.toLP.objective (fun j => x (columns j)) = P.toLP.objective x := by
    simp only [LP.objective, dotProduct, hc]
    rw [← Equiv.sum_comp columns fun j => P.toLP.c j * x j]
  have hfeas (x : Fin n → ℚ) : Q.toLP.Feasible (fun j => x (columns j)) ↔ P.toLP.Feasible x := by
    constructor
    · rintro ⟨h1, h2⟩
      refine ⟨funext fun i => ?_, fun j => ?_⟩
      · have := congrFun h1 (rows.symm i)
        rw [hrow, hb, rows.apply_symm_apply] at this
        exact mul_left_cancel₀ (hf _) this
      · simpa using h2 (columns.symm j)
    · rintro ⟨h1, h2⟩
      exact ⟨funext fun i => by rw [hrow, hb, h1], fun j => h2 _⟩
  constructor
  · rintro ⟨x, hx, he⟩
    exact ⟨_, (hfeas x).2 hx, (hobj x).trans he⟩
  · rintro ⟨y, hy, he⟩
    have hy' : (fun j => (fun k => y (columns.symm k)) (columns j)) = y := by
      funext j
      simp
    refine ⟨fun k => y (columns.symm k), (hfeas _).1 (by rw [hy']; exact hy), ?_⟩
    rw [← hobj, hy']
    exact he

namespace Example

/-- `optimum` with its two rows exchanged, one of them tripled, and its variables in reverse order. -/
def reversed : Provider 2 4 where
  column := ![[(0, 1)], [(1, 3)], [(0, 1), (1, 6)], [(0, 1), (1, 3)]]
  cost := ![0, 0, -5, -3]
  rhs := ![6, 24]

theorem reversed_ok : reversed.Ok := ⟨by decide +kernel, by decide +kernel, fun _ _ _ => rfl⟩

theorem reversed_solved : solveRelaxation .lu .firstProfitable 10 reversed .none
    = .ok (.finiteOptimum [(2, 2), (3, 4)]) := by decide +kernel

end Example

example : SameAnswer Example.optimum.toLP Example.reversed.toLP (.finiteOptimum [(0, 4), (1, 2)])
    (.finiteOptimum [(2, 2), (3, 4)]) :=
  C80_reordered Example.optimum Example.reversed Example.optimum_ok Example.reversed_ok
    (Equiv.swap 0 1) Fin.revPerm ![1, 3] (by decide +kernel)
    (by intro i j; fin_cases i <;> fin_cases j <;> decide +kernel) (by decide +kernel)
    (by decide +kernel) _ _ _ _ _ _ .none trivial .none trivial _ _ Example.optimum_solved
    Example.reversed_solved

/-! ### Problems in general form -/

/-- The ways to get an answer for a problem in general form: as it is, in a debug build, and with scaling. -/
inductive Answered (G : GeneralForm) (a : LinearProgramType) : Prop
  | plain (inv : InverseName) (rule : RuleName) (fuel : ℕ) (h : G.solve inv rule fuel = .ok a)
  | debug (inv : InverseName) (rule : RuleName) (fuel : ℕ) (h : G.solveDebug inv rule fuel = .ok a)
  | scaled (factorize : ℚ → Scaling.Factorization) (hf : ∀ v, ∀ q ∈ factorize v, 0 < q.1) (scaleFuel : ℕ)
      (inv : InverseName) (rule : RuleName) (fuel : ℕ)
      (h : G.solveScaled factorize scaleFuel inv rule fuel = .ok a)

/-- What is known about an answer. -/
def RightAnswer (G : GeneralForm) : LinearProgramType → Prop
  | .infeasible => G.toProgram.Infeasible
  | .unbounded => G.Unbounded
  | .finiteOptimum solution => ∃ x, G.Best x ∧ G.Extends x solution.values ∧
      (G.objective = .minimize → solution.objectiveValue = G.toProgram.objective x)

theorem Answered.right {G : GeneralForm} (hG : G.Consistent) (hp : G.Proper) (ha : G.Acyclic)
    {a : LinearProgramType} (h : Answered G a) : RightAnswer G a := by
  cases h with
  | plain inv rule fuel h =>
    cases a with
    | infeasible => exact C43_infeasible G hG hp inv rule fuel h
    | unbounded => exact C43_unbounded G hG hp inv rule fuel h
    | finiteOptimum s => exact C43_optimum G hG hp inv rule fuel s h ha
  | debug inv rule fuel h =>
    have := C71_general_form G hG inv rule fuel ha a h
    cases a <;> exact this
  | scaled factorize hf scaleFuel inv rule fuel h =>
    cases a with
    | infeasible => exact GeneralForm.C63_infeasible hG hp factorize hf scaleFuel inv rule fuel ha h
    | unbounded => exact GeneralForm.C63_unbounded hG hp factorize hf scaleFuel inv rule fuel ha h
    | finiteOptimum s => exact GeneralForm.C63_optimum hG hp factorize hf scaleFuel inv rule fuel ha s h

theorem RightAnswer.same {G H : GeneralForm} (hv : SameValuesGeneral G H) {a b : LinearProgramType}
    (h1 : RightAnswer G a) (h2 : RightAnswer H b) : SameAnswerGeneral G H a b := by
  obtain ⟨hd, hv⟩ := hv
  cases a with
  | infeasible =>
    cases b with
    | infeasible => trivial
    | unbounded =>
      obtain ⟨y, hy, -⟩ := h2 0
      obtain ⟨x, hx, -⟩ := (hv _).2 ⟨y, hy, rfl⟩
      exact h1 x hx
    | finiteOptimum t =>
      obtain ⟨y, hy, -⟩ := h2
      obtain ⟨x, hx, -⟩ := (hv _).2 ⟨y, hy.1, rfl⟩
      exact h1 x hx
  | unbounded =>
    cases b with
    | infeasible =>
      obtain ⟨x, hx, -⟩ := h1 0
      obtain ⟨y, hy, -⟩ := (hv _).1 ⟨x, hx, rfl⟩
      exact h2 y hy
    | unbounded => trivial
    | finiteOptimum t =>
      obtain ⟨y, hy, -⟩ := h2
      obtain ⟨x, hx, hlt⟩ := h1 (H.toProgram.objective y)
      obtain ⟨z, hz, he⟩ := (hv _).1 ⟨x, hx, rfl⟩
      have := hy.2 z hz
      rw [hd] at hlt
      revert this hlt
      cases H.objective <;> simp only <;> intros <;> linarith
  | finiteOptimum s =>
    obtain ⟨x, hx, he, hval⟩ := h1
    cases b with
    | infeasible =>
      obtain ⟨y, hy, -⟩ := (hv _).1 ⟨x, hx.1, rfl⟩
      exact h2 y hy
    | unbounded =>
      obtain ⟨y, hy, hlt⟩ := h2 (G.toProgram.objective x)
      obtain ⟨z, hz, he⟩ := (hv _).2 ⟨y, hy, rfl⟩
      have := hx.2 z hz
      rw [← hd] at hlt
      revert this hlt
      cases G.objective <;> simp only <;> intros <;> linarith
    | finiteOptimum t =>
      obtain ⟨y, hy, he', hval'⟩ := h2
      have heq : G.toProgram.objective x = H.toProgram.objective y := by
        obtain ⟨z, hz, e1⟩ := (hv _).1 ⟨x, hx.1, rfl⟩
        obtain ⟨w, hw, e2⟩ := (hv _).2 ⟨y, hy.1, rfl⟩
        have h3 := hx.2 w hw
        have h4 := hy.2 z hz
        rw [← hd] at h4
        revert h3 h4
        cases G.objective <;> simp only <;> intro h3 h4 <;> linarith
      exact ⟨x, y, hx, he, hy, he', heq, fun h => by rw [hval h, hval' (hd ▸ h), heq]⟩

/-- **C80.** Two problems in general form whose feasible points have the same objective values get the same answer,
in a release or debug build, with or without scaling, whichever pivot rule and basis inverse are used. -/
theorem C80_general (G H : GeneralForm) (hG : G.Consistent) (hp : G.Proper) (ha : G.Acyclic)
    (hH : H.Consistent) (hp' : H.Proper) (ha' : H.Acyclic) (hv : SameValuesGeneral G H)
    (a b : LinearProgramType) (h1 : Answered G a) (h2 : Answered H b) : SameAnswerGeneral G H a b :=
  (h1.right hG hp ha).same hv (h2.right hH hp' ha')

/-- **C80**, partial: presolving, if it is right (see C44), does not change the answer for a problem that has a
feasible point. Missing: problems that are not presolved rightly, and infeasible ones, which may be said to be
unbounded (C45). -/
theorem C80_presolve_partial (G : GeneralForm) (hG : G.Consistent) (hp : G.Proper) (ha : G.Acyclic)
    (hfeas : ∃ x, G.toProgram.Feasible x) (presolveFuel : ℕ)
    (hc : Presolve.ResultCorrect G (fun a => a = .unreachable) (Presolve.presolve presolveFuel G))
    (inv : InverseName) (rule : RuleName) (fuel : ℕ) (a b : LinearProgramType)
    (h1 : G.presolveAndSolve inv rule presolveFuel fuel = some a) (h2 : Answered G b) :
    SameAnswerGeneral G G a b := by
  refine RightAnswer.same ⟨rfl, fun _ => Iff.rfl⟩ ?_ (h2.right hG hp ha)
  cases a with
  | infeasible => exact C44_infeasible_partial presolveFuel inv rule fuel hc h1
  | unbounded =>
    rcases C44_unbounded_partial presolveFuel inv rule fuel hc h1 with h | h
    · exact h
    · obtain ⟨x, hx⟩ := hfeas
      exact absurd hx (h x)
  | finiteOptimum s => exact C44_optimum_partial presolveFuel inv rule fuel hc h1

/-- The answers of a release build with the LU decomposition and of a debug build agree. -/
example (inv : InverseName) (rule : RuleName) (fuel : ℕ) (b : LinearProgramType)
    (h : Example.general.solveDebug inv rule fuel = .ok b) :
    SameAnswerGeneral Example.general Example.general
      (.finiteOptimum ⟨1, [("x", -3), ("y", 3), ("z", 1)]⟩) b :=
  C80_general _ _ Example.general_consistent.1 Example.general_proper Example.general_consistent.2
    Example.general_consistent.1 Example.general_proper Example.general_consistent.2
    ⟨rfl, fun _ => Iff.rfl⟩ _ _ (.plain _ _ _ Example.general_solved) (.debug _ _ _ h)

attribute [local irreducible] Presolve.presolve in
/-- The answers with and without presolving agree for `reducible`. -/
example (inv : InverseName) (rule : RuleName) (fuel : ℕ) (b : LinearProgramType)
    (h : Example.reducible.solve inv rule fuel = .ok b) :
    SameAnswerGeneral Example.reducible Example.reducible
      (.finiteOptimum ⟨15, [("x0", 4), ("x1", 5), ("x2", 0), ("x3", 5), ("x4", 1)]⟩) b :=
  C80_presolve_partial _ Example.reducible_fresh.toConsistent Example.reducible_proper
    (new_consistent _ _ _ _ _ _ _ rfl rfl rfl rfl (by decide +kernel) (by decide +kernel) rfl (by decide +kernel)).2
    (by
      obtain ⟨x, hx, -⟩ := C44_optimum_partial 100 .lu .steepestDescentAlongObjective 30
        Example.reducible_correct Example.reducible_solved
      exact ⟨x, hx.1⟩)
    100 Example.reducible_correct .lu .steepestDescentAlongObjective 30 _ _ Example.reducible_solved
    (.plain _ _ _ h)

/-! ### Where the answers do not agree -/

/-- **C80 is false** with presolving: an infeasible problem is reported to be unbounded with presolving, and
to be infeasible without. -/
theorem C80_not_presolve :
    Example.hasty.presolveAndSolve .lu .steepestDescentAlongObjective 100 30 = some .unbounded ∧
    Example.hasty.solve .lu .steepestDescentAlongObjective 30 = .ok .infeasible := by
  constructor <;> decide +kernel

namespace Example

/-- Maximise `x` with `x ≤ 7` and `0 ≤ x ≤ 5`. -/
def upwards : GeneralForm :=
  .new .maximize ⟨[[(0, 1)]], 1, 1⟩ [.less] [7] [⟨.continuous, 1, some 0, some 5, 0, false⟩] ["x"] 0

/-- Maximise `-x` with `-x ≤ 7` and `-5 ≤ x ≤ 0`. -/
def downwards : GeneralForm :=
  .new .maximize ⟨[[(0, -1)]], 1, 1⟩ [.less] [7] [⟨.continuous, -1, some (-5), some 0, 0, false⟩] ["x"] 0

theorem upwards_feasible (x : Fin 1 → ℚ) : upwards.toProgram.Feasible x ↔ 0 ≤ x 0 ∧ x 0 ≤ 5 := by
  have e : (upwards.toProgram.A.mulVec x) (0 : Fin 1) = SVec.val [(0, 1)] 0 * x 0 :=
    Fin.sum_univ_one (fun j : Fin 1 => upwards.toProgram.A (0 : Fin 1) j * x j)
  have e' : (upwards.toProgram.A.mulVec x) (0 : Fin 1) = x 0 := by rw [e]; simp [SVec.val]
  constructor
  · exact fun h => ⟨(h.2 (0 : Fin 1)).1 0 rfl, (h.2 (0 : Fin 1)).2 5 rfl⟩
  · rintro ⟨h1, h2⟩
    refine ⟨fun (i : Fin 1) => ?_, fun (j : Fin 1) => ?_⟩
    · have hi : i = 0 := Subsingleton.elim _ _
      subst hi
      change (upwards.toProgram.A.mulVec x) (0 : Fin 1) ≤ 7
      rw [e']
      linarith
    · have hj : j = 0 := Subsingleton.elim _ _
      subst hj
      exact ⟨fun l hl => by cases hl; exact h1, fun u hu => by cases hu; exact h2⟩

theorem downwards_feasible (x : Fin 1 → ℚ) : downwards.toProgram.Feasible x ↔ -5 ≤ x 0 ∧ x 0 ≤ 0 := by
  have e : (downwards.toProgram.A.mulVec x) (0 : Fin 1) = SVec.val [(0, -1)] 0 * x 0 :=
    Fin.sum_univ_one (fun j : Fin 1 => downwards.toProgram.A (0 : Fin 1) j * x j)
  have e' : (downwards.toProgram.A.mulVec x) (0 : Fin 1) = -x 0 := by rw [e]; simp [SVec.val]
  constructor
  · exact fun h => ⟨(h.2 (0 : Fin 1)).1 (-5) rfl, (h.2 (0 : Fin 1)).2 0 rfl⟩
  · rintro ⟨h1, h2⟩
    refine ⟨fun (i : Fin 1) => ?_, fun (j : Fin 1) => ?_⟩
    · have hi : i = 0 := Subsingleton.elim _ _
      subst hi
      change (downwards.toProgram.A.mulVec x) (0 : Fin 1) ≤ 7
      rw [e']
      linarith
    · have hj : j = 0 := Subsingleton.elim _ _
      subst hj
      exact ⟨fun l hl => by cases hl; exact h1, fun u hu => by cases hu; exact h2⟩

theorem upwards_objective (x : Fin 1 → ℚ) : upwards.toProgram.objective x = x 0 := by
  have e : upwards.toProgram.objective x = 0 + 1 * x 0 :=
    congrArg (0 + ·) (Fin.sum_univ_one (fun j : Fin 1 => upwards.toProgram.c j * x j))
  rw [e]; ring

theorem downwards_objective (x : Fin 1 → ℚ) : downwards.toProgram.objective x = -x 0 := by
  have e : downwards.toProgram.objective x = 0 + -1 * x 0 :=
    congrArg (0 + ·) (Fin.sum_univ_one (fun j : Fin 1 => downwards.toProgram.c j * x j))
  rw [e]; ring

end Example

/-- **C80 is false** for the objective value reported with an optimum of a maximisation problem: the feasible
points of these problems have the same objective values, between 0 and 5, and the value -5 is reported for one
of them. -/
theorem C80_not_maximize : SameValuesGeneral Example.upwards Example.downwards ∧
    Example.upwards.solve .lu .steepestDescentAlongObjective 30 = .ok (.finiteOptimum ⟨-5, [("x", 5)]⟩) ∧
    Example.downwards.solve .lu .steepestDescentAlongObjective 30 = .ok (.finiteOptimum ⟨5, [("x", -5)]⟩) := by
  refine ⟨⟨rfl, fun v => ⟨?_, ?_⟩⟩, by decide +kernel, by decide +kernel⟩
  · rintro ⟨x, hx, rfl⟩
    have h := (Example.upwards_feasible x).1 hx
    refine ⟨fun j => -x j, (Example.downwards_feasible _).2 ⟨by linarith, by linarith⟩, ?_⟩
    exact (Example.downwards_objective _).trans ((neg_neg _).trans (Example.upwards_objective x).symm)
  · rintro ⟨x, hx, rfl⟩
    have h := (Example.downwards_feasible x).1 hx
    refine ⟨fun j => -x j, (Example.upwards_feasible _).2 ⟨by linarith, by linarith⟩, ?_⟩
    exact (Example.upwards_objective _).trans (Example.downwards_objective x).symm

end Relp
