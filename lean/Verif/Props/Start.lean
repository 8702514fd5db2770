import Verif.Props.DebugSame
import Verif.Proof.DebugStart

/-!
# Properties: columns that are no basis, and starts that are not valid (C70, C71)

**C70.** A set of columns can be inverted exactly if there is at least one and they are linearly independent,
with both representations. Otherwise inverting aborts, and so does solving from these columns: dependent
columns never lead to an answer.

**C71.** In a debug build, every answer is right, whatever was offered as initial basis: nothing at all is
assumed about the pivots, or the list of columns, that is offered, nor about the sign of the right-hand side.
-/

namespace Relp

open Matrix

variable {m n : ℕ}

/-! ### C70 -/

/-- **C70.** Columns can be inverted exactly if they are (at least one and) linearly independent. -/
theorem C70_invert (inv : InverseName) (columns : Fin m → Sparse m) (hc : ∀ i, SVec.WF (columns i)) :
    (∃ bi : inv.type m, BasisInverse.invert columns = .ok bi) ↔
      m ≠ 0 ∧ LinearIndependent ℚ (columnsMatrix columns).col := by
  have hdet : LinearIndependent ℚ (columnsMatrix columns).col ↔
      ∃ M : Matrix (Fin m) (Fin m) ℚ, M * columnsMatrix columns = 1 := by
    rw [Matrix.linearIndependent_cols_iff_isUnit]
    constructor
    · rintro ⟨u, hu⟩
      exact ⟨(u⁻¹ : _), by rw [← hu]; simp⟩
    · rintro ⟨M, hM⟩
      exact IsUnit.of_mul_eq_one _ (mul_eq_one_comm.1 hM)
  rw [hdet]
  constructor
  · rintro ⟨bi, h⟩
    cases inv with
    | rows =>
      refine ⟨?_, BasisInverseRows.invert_invertible hc h⟩
      rintro rfl
      cases h
    | lu =>
      refine ⟨?_, LU.invert_invertible hc h⟩
      rintro rfl
      cases h
  · rintro ⟨hm, M, hM⟩
    cases inv with
    | rows =>
      obtain ⟨bi, h, -⟩ := BasisInverseRows.invert_rep hm hc hM
      exact ⟨bi, h⟩
    | lu =>
      obtain ⟨bi, h, -⟩ := LU.invert_rep hm hc hM
      exact ⟨bi, h⟩

/-- **C70.** Dependent columns make inverting abort. -/
theorem C70_dependent_aborts (inv : InverseName) (columns : Fin m → Sparse m)
    (hc : ∀ i, SVec.WF (columns i)) (h : ¬ LinearIndependent ℚ (columnsMatrix columns).col) :
    ∃ p, (BasisInverse.invert columns : Res (inv.type m)) = .error (.panic p) := by
  have hM : ¬ ∃ M : Matrix (Fin m) (Fin m) ℚ, M * columnsMatrix columns = 1 := by
    rintro ⟨M, hM⟩
    refine h ?_
    rw [Matrix.linearIndependent_cols_iff_isUnit]
    exact IsUnit.of_mul_eq_one _ (mul_eq_one_comm.1 hM)
  obtain ⟨p, hp⟩ := invert_singular hc hM
  refine ⟨p, ?_⟩
  cases inv with
  | rows =>
    change BasisInverseRows.invert columns = _
    unfold BasisInverseRows.invert
    rw [hp]
    rfl
  | lu => exact hp

/-- **C70.** Solving from dependent columns aborts. -/
theorem C70_dependent_start_aborts (inv : InverseName) (rule : RuleName) (fuel : ℕ) (P : Provider m n)
    (hP : ∀ j, SVec.WF (P.column j)) (basis : Fin m → Fin n)
    (h : ¬ LinearIndependent ℚ fun i => P.toLP.A.col (basis i)) :
    ∃ p, primalFromBasis inv.type rule.type fuel P basis = .error (.panic p) := by
  obtain ⟨p, hp⟩ := C70_dependent_aborts inv (fun i => P.column (basis i)) (fun i => hP _) h
  refine ⟨p, ?_⟩
  unfold primalFromBasis Carry.fromBasis
  rw [hp]
  rfl

/-- Two columns of which the second is twice the first. -/
example (fuel : ℕ) : ∃ p, primalFromBasis LU FirstProfitable fuel
    (⟨![[(0, 1), (1, 1)], [(0, 2), (1, 2)]], fun _ => 0, fun _ => 1, fun _ _ => []⟩ : Provider 2 2) ![0, 1] =
      .error (.panic p) := by
  refine C70_dependent_start_aborts .lu .firstProfitable fuel _ (by decide +kernel) ![0, 1] fun h => ?_
  have := Fintype.linearIndependent_iff.1 h ![2, -1] (by
    funext i
    fin_cases i <;> simp [Fin.sum_univ_two, Provider.toLP, columnsMatrix, SVec.val]) 0
  simp at this

example : ∃ bi : LU 2, LU.invert ![[(0, 1), (1, 1)], [(1, 2)]] = .ok bi :=
  (C70_invert .lu ![[(0, 1), (1, 1)], [(1, 2)]] (by decide +kernel)).2 ⟨by decide, by
    refine Fintype.linearIndependent_iff.2 fun g hg => ?_
    have h0 := congrFun hg 0
    have h1 := congrFun hg 1
    simp [Fin.sum_univ_two, columnsMatrix, SVec.val] at h0 h1
    intro i
    fin_cases i
    · exact h0
    · simp only [h0] at h1
      simpa using h1⟩

/-! ### C71 -/

/-- The columns are a feasible basis. -/
theorem fromBasis_feasible {inv : InverseName} {rule : RuleName} {fuel : ℕ} {P : Provider m n}
    (hP : ∀ j, SVec.WF (P.column j)) {basis : Fin m → Fin n} {answer : OptimizationResult n}
    (h : primalFromBasisDebug inv.debugType rule.type fuel P basis = .ok answer) :
    2 ≤ m ∧ P.toLP.FeasibleBasis basis := by
  have hm : 2 ≤ m := by
    by_contra hc
    unfold primalFromBasisDebug at h
    rw [fromBasis_one_row inv (by omega)] at h
    cases h
  have hli : LinearIndependent ℚ fun i => P.toLP.A.col (basis i) := by
    have h' := h
    unfold primalFromBasisDebug at h'
    obtain ⟨carry, hcarry, -⟩ := bind_eq_ok h'
    cases inv with
    | rows => exact independent_of_fromBasis (BI := DebugRows) hP hcarry
    | lu => exact independent_of_fromBasis (BI := DebugLU) hP hcarry
  have hfuel : 0 < fuel := by
    rcases Nat.eq_zero_or_pos fuel with rfl | h0
    · unfold primalFromBasisDebug at h
      obtain ⟨carry, -, h⟩ := bind_eq_ok h
      unfold phaseTwoDebug at h
      obtain ⟨r, -, h⟩ := bind_eq_ok h
      cases h
    · exact h0
  refine ⟨hm, ?_⟩
  by_contra hb
  rw [C61_infeasible_basis_aborts inv rule fuel hfuel P hP basis hli hb] at h
  cases h

theorem fromBasis_answer {inv : InverseName} {rule : RuleName} {fuel : ℕ} {P : Provider m n}
    (hP : ∀ j, SVec.WF (P.column j)) {basis : Fin m → Fin n} {answer : OptimizationResult n}
    (h : primalFromBasisDebug inv.debugType rule.type fuel P basis = .ok answer) :
    answer ≠ .infeasible ∧ Answer P.toLP answer := by
  obtain ⟨hm, hb⟩ := fromBasis_feasible hP h
  have hr := C69_from_basis inv rule fuel P basis answer h
  have hdim : LawfulBasisInverse.OkDim inv.type m := by
    cases inv with
    | rows => exact trivial
    | lu => exact hm
  obtain ⟨carry, h1, h2⟩ := feasibleBasis_start hdim (inv.okInvert (by omega)) hP hb
  rcases primalFromBasis_spec (R := rule.type) hdim fuel h1 h2 with h3 | ⟨a, h3, h4⟩
  · rw [hr] at h3; cases h3
  · rw [hr] at h3
    cases h3
    exact h4

/-- **C71**, a given list of columns. If a debug build gives an answer, then the columns are a feasible basis,
and the answer is right. -/
theorem C71_from_basis (inv : InverseName) (rule : RuleName) (fuel : ℕ) (P : Provider m n)
    (hP : ∀ j, SVec.WF (P.column j)) (basis : Fin m → Fin n) (answer : OptimizationResult n) :
    primalFromBasisDebug inv.debugType rule.type fuel P basis = .ok answer →
    P.toLP.FeasibleBasis basis ∧
      match answer with
      | .infeasible => False
      | .unbounded => P.toLP.Unbounded
      | .finiteOptimum x => P.toLP.Optimal (SVec.val x) ∧ P.toLP.Basic (SVec.val x) := by
  intro h
  refine ⟨(fromBasis_feasible hP h).2, ?_⟩
  obtain ⟨h1, h2⟩ := fromBasis_answer hP h
  cases answer with
  | infeasible => exact h1 rfl
  | unbounded => exact h2
  | finiteOptimum x => exact ⟨h2.1, h2.2.2⟩

/-- **C71.** Every answer of a debug build is right, whatever is offered as initial basis, and whatever the
signs of the right-hand side are. -/
theorem C71_answer (inv : InverseName) (rule : RuleName) (fuel : ℕ) (P : Provider m n)
    (hP : ∀ j, SVec.WF (P.column j))
    (hfilter : ∀ rows, P.toLP.Redundant rows →
      ∀ j, P.filteredColumn rows j = removeSparseIndices rows (P.column j))
    (start : InitialBasis m n) (answer : OptimizationResult n) :
    solveRelaxationDebug inv rule fuel P start = .ok answer →
    match answer with
    | .infeasible => P.toLP.Infeasible
    | .unbounded => P.toLP.Unbounded
    | .finiteOptimum x => P.toLP.Optimal (SVec.val x) ∧ P.toLP.Basic (SVec.val x) := by
  intro h
  have done : (∀ i, 0 ≤ P.rhs i) ∧ StartOk P start → Answer P.toLP answer := fun h1 =>
    solveRelaxation_answer ⟨hP, h1.1, hfilter⟩ h1.2 (C69_solver inv rule fuel P start answer h)
  suffices ha : Answer P.toLP answer by
    cases answer with
    | infeasible => exact ha
    | unbounded => exact ha
    | finiteOptimum x => exact ⟨ha.1, ha.2.2⟩
  cases start with
  | none => exact done ⟨none_says h, trivial⟩
  | partially pivots =>
    cases inv with
    | rows => exact done (partially_says (BI := DebugRows) hP h)
    | lu => exact done (partially_says (BI := DebugLU) hP h)
  | fully pivots =>
    obtain ⟨basis, hb⟩ := fully_says h
    exact (fromBasis_answer hP hb).2

/-- A full initial basis that is not made of unit columns, as the interface asks for, but a feasible basis. -/
example : Example.optimum.toLP.Optimal (SVec.val [(0, 4), (1, 2)]) ∧
    Example.optimum.toLP.Basic (SVec.val [(0, 4), (1, 2)]) :=
  C71_answer .lu .firstProfitable 10 Example.optimum Example.optimum_ok.wf (fun _ _ _ => rfl)
    (.fully [(0, 0), (1, 2)]) (.finiteOptimum [(0, 4), (1, 2)]) (by decide +kernel)

/-- A release build gives a wrong answer if a partial initial basis that is offered is not made of unit
columns; the debug build aborts. The problem is `2 x = 2`, the reported `x = 2` is not feasible. -/
theorem C71_release_wrong :
    let P : Provider 1 1 := ⟨fun _ => [(0, 2)], fun _ => 0, fun _ => 2, fun _ _ => []⟩
    solveRelaxation .rows .firstProfitable 5 P (.partially [(0, 0)]) = .ok (.finiteOptimum [(0, 2)]) ∧
      ¬ P.toLP.Feasible (SVec.val [(0, 2)]) ∧
      solveRelaxationDebug .rows .firstProfitable 5 P (.partially [(0, 0)]) =
        .error (.panic .debugAssertion) := by
  refine ⟨by decide +kernel, fun h => ?_, by decide +kernel⟩
  have h1 := congrFun h.1 0
  simp [Matrix.mulVec, dotProduct, Provider.toLP, columnsMatrix, SVec.val] at h1

end Relp
