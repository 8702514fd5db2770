import Verif.Props.ColumnRange
import Verif.Proof.Debug

/-!
# Debug builds (C61)

In a debug build the solver checks its own state while it runs. `solveRelaxationDebug`
(`Verif/Model/Debug.lean`) is the solver with these checks.
-/

namespace Relp

variable {m n : ℕ}

/-! ### C61 -/

/-- **C61, `BasisInverseRows`.** In a debug build the solver returns exactly what it returns in a release
build, for every problem, initial basis, pivot rule and number of iterations, unless the problem has no rows,
or neither an entry nor a right hand side that is not zero, or only one row while a full initial basis is
given. -/
theorem C61_rows_debug_partial (rule : RuleName) (fuel : ℕ) (P : Provider m n) (hP : P.Ok)
    (start : InitialBasis m n) (hs : StartOk P start)
    (hm : m ≠ 0) (h : P.toLP.A ≠ 0 ∨ P.toLP.b ≠ 0)
    (hfull : m = 1 → ∀ pivots, start ≠ .fully pivots) :
    solveRelaxationDebug .rows rule fuel P start = solveRelaxation .rows rule fuel P start := by
  have hrem : ∀ rows, P.toLP.Redundant rows → keptLen rows ≠ 0 := by
    intro rows hr h0
    have hlen := keptLen_eq (hr.1.imp ne_of_lt)
    obtain ⟨h1, h2⟩ := hr.all (by omega)
    rcases h with h | h
    · exact h h1
    · exact h h2
  have hinv : ∀ pivots, start = .fully pivots → 2 ≤ m := by
    intro pivots hp
    by_contra hc
    exact hfull (by omega) pivots hp
  refine (solveWithDebug_eq (BI := DebugRows) (R := rule.type) hm (Nat.pos_of_ne_zero hm) hP hs
    (fun rows hr => ⟨hrem rows hr, Nat.pos_of_ne_zero (hrem rows hr)⟩) hinv fuel).trans ?_
  exact solveWith_eq_rows (BI := DebugRows) (R := rule.type) hm hm hP hs hrem hinv fuel

/-- This restriction is needed: with one row and a full initial basis, every debug build aborts, whatever
the representation of the basis inverse. -/
theorem C61_one_row_aborts (inv : InverseName) (rule : RuleName) (fuel : ℕ) (P : Provider 1 n)
    (pivots : List (Fin 1 × Fin n)) (hs : StartOk P (.fully pivots)) :
    solveRelaxationDebug inv rule fuel P (.fully pivots) = .error (.panic .debugAssertion) := by
  change solveWithDebug inv.debugType rule.type fuel P (.fully pivots) = _
  unfold solveWithDebug
  dsimp only
  obtain ⟨_, hlen, -⟩ := solveFull_eq hs
  rw [dif_pos hlen, fromBasis_one_row inv le_rfl]
  rfl

/-- The restriction is needed: a debug build aborts on every problem with rows in which everything is
zero. (A release build returns an answer, see `C05_rows_never_panics`.) -/
theorem C61_zero_problem_aborts (rule : RuleName) (fuel : ℕ) (hfuel : 0 < fuel) (P : Provider m n)
    (hP : P.Ok) (hm : m ≠ 0) (hA : P.toLP.A = 0) (hb : P.toLP.b = 0) :
    solveRelaxationDebug .rows rule fuel P .none = .error (.panic .debugAssertion) := by
  obtain ⟨k, rfl⟩ := Nat.exists_eq_succ_of_ne_zero hfuel.ne'
  exact solveWithDebug_allRedundant hP hm hA hb k

/-- The other restriction is needed too: a debug build aborts on every problem without rows. (A release
build returns the answer that is right, see `C05_rows_never_panics` and `C02_optimum_optimal`.) -/
theorem C61_no_rows_aborts (inv : InverseName) (rule : RuleName) (fuel : ℕ) (P : Provider 0 n) :
    solveRelaxationDebug inv rule fuel P .none = .error (.panic .debugAssertion) := rfl

/-- **C61, `LUDecomposition`.** The same if at least two rows remain when redundant rows are removed (with
fewer rows the decomposition itself aborts, C17). -/
theorem C61_lu_debug_partial (rule : RuleName) (fuel : ℕ) (P : Provider m n) (hP : P.Ok)
    (start : InitialBasis m n) (hs : StartOk P start)
    (h : ∀ rows, P.toLP.Redundant rows → rows.length + 2 ≤ m) :
    solveRelaxationDebug .lu rule fuel P start = solveRelaxation .lu rule fuel P start := by
  have h2 : 2 ≤ m := by simpa using h [] ⟨List.Pairwise.nil, by simp⟩
  have hrem : ∀ rows, P.toLP.Redundant rows → 2 ≤ keptLen rows := by
    intro rows hr
    have hlen := keptLen_eq (hr.1.imp ne_of_lt)
    have := h rows hr
    omega
  refine (solveWithDebug_eq (BI := DebugLU) (R := rule.type) h2 (by omega) hP hs
    (fun rows hr => ⟨hrem rows hr, by have := hrem rows hr; omega⟩) (fun _ _ => h2) fuel).trans ?_
  refine (solveWith_eq_rows (BI := DebugLU) (R := rule.type) h2 h2 hP hs hrem (fun _ _ => h2)
    fuel).trans ?_
  exact (solveWith_eq_rows (BI := LU) (R := rule.type) h2 (by change m ≠ 0; omega) hP hs hrem
    (fun _ _ => by change m ≠ 0; omega) fuel).symm

/-- **C61, given basis.** Started from a feasible basis of at least two columns, the debug build returns
what the release build returns. -/
theorem C61_basis_debug_partial (inv : InverseName) (rule : RuleName) (fuel : ℕ) (P : Provider m n)
    (hP : ∀ j, SVec.WF (P.column j)) (basis : Fin m → Fin n) (hb : P.toLP.FeasibleBasis basis)
    (hm : 2 ≤ m) :
    primalFromBasisDebug inv.debugType rule.type fuel P basis =
      primalFromBasis inv.type rule.type fuel P basis := by
  have h0 : m ≠ 0 := by omega
  cases inv with
  | rows =>
    refine (primalFromBasisDebug_eq (BI := DebugRows) (R := rule.type) h0 (by omega) hm hP hb
      fuel).trans ?_
    exact primalFromBasis_eq_rows (BI := DebugRows) (R := rule.type) h0 hm h0 hP hb fuel
  | lu =>
    refine (primalFromBasisDebug_eq (BI := DebugLU) (R := rule.type) hm (by omega) hm hP hb
      fuel).trans ?_
    refine (primalFromBasis_eq_rows (BI := DebugLU) (R := rule.type) hm hm hm hP hb fuel).trans ?_
    exact (primalFromBasis_eq_rows (BI := LU) (R := rule.type) hm h0 h0 hP hb fuel).symm

/-- With a basis of one column every debug build aborts. -/
theorem C61_basis_one_row_aborts (inv : InverseName) (rule : RuleName) (fuel : ℕ) (P : Provider 1 n)
    (basis : Fin 1 → Fin n) :
    primalFromBasisDebug inv.debugType rule.type fuel P basis = .error (.panic .debugAssertion) := by
  unfold primalFromBasisDebug
  rw [fromBasis_one_row inv le_rfl]
  rfl

/-- And it aborts for every basis that is not feasible: the mistake of `C59_infeasible_basis` is caught. -/
theorem C61_infeasible_basis_aborts (inv : InverseName) (rule : RuleName) (fuel : ℕ) (hfuel : 0 < fuel)
    (P : Provider m n) (hP : ∀ j, SVec.WF (P.column j)) (basis : Fin m → Fin n)
    (hli : LinearIndependent ℚ fun i => P.toLP.A.col (basis i)) (hb : ¬ P.toLP.FeasibleBasis basis) :
    primalFromBasisDebug inv.debugType rule.type fuel P basis = .error (.panic .debugAssertion) := by
  by_cases hm : m ≤ 1
  · unfold primalFromBasisDebug
    rw [fromBasis_one_row inv hm]
    rfl
  · obtain ⟨k, rfl⟩ := Nat.exists_eq_succ_of_ne_zero hfuel.ne'
    have h2 : 2 ≤ m := by omega
    have h0 : m ≠ 0 := by omega
    cases inv with
    | rows =>
      exact primalFromBasisDebug_fail (BI := DebugRows) (R := rule.type) h0 (by omega) h2 hP hli hb k
    | lu => exact primalFromBasisDebug_fail (BI := DebugLU) (R := rule.type) h2 (by omega) h2 hP hli hb k

/-! Concrete runs: a problem with a redundant row, a problem in which everything is zero, and a start from a
basis. -/

example : Example.redundant.toLP.A ≠ 0 := by
  intro h
  have := congrFun (congrFun h 0) 0
  revert this
  decide +kernel

example : solveRelaxationDebug .rows .steepestDescentAlongObjective 10 Example.redundant .none =
    solveRelaxation .rows .steepestDescentAlongObjective 10 Example.redundant .none :=
  C61_rows_debug_partial _ _ _ Example.redundant_ok .none trivial (by decide) (.inl (by
    intro h
    have := congrFun (congrFun h 0) 0
    revert this
    decide +kernel)) (fun h => absurd h (by decide))

/-- One row, one column, everything zero. -/
def Example.allZero : Provider 1 1 := ⟨fun _ => [], fun _ => 0, fun _ => 0, fun _ _ => []⟩

example : solveRelaxationDebug .rows .steepestDescentAlongObjective 1 Example.allZero .none =
    .error (.panic .debugAssertion) := by decide +kernel

example : solveRelaxation .rows .steepestDescentAlongObjective 1 Example.allZero .none =
    .ok (.finiteOptimum []) := by decide +kernel

/-- No rows and one column of cost one. -/
example : solveRelaxationDebug .rows .firstProfitable 1
    (⟨fun _ => [], fun _ => 1, Fin.elim0, fun _ _ => []⟩ : Provider 0 1) .none =
    .error (.panic .debugAssertion) := by decide +kernel

example : solveRelaxation .rows .firstProfitable 1
    (⟨fun _ => [], fun _ => 1, Fin.elim0, fun _ _ => []⟩ : Provider 0 1) .none =
    .ok (.finiteOptimum []) := by decide +kernel

example : primalFromBasisDebug DebugLU FirstProfitable 3 Example.optimum ![0, 2] =
    .ok (.finiteOptimum [(0, 4), (1, 2)]) := by decide +kernel

example : primalFromBasisDebug DebugRows FirstProfitable 3 Example.optimum ![0, 2] =
    .ok (.finiteOptimum [(0, 4), (1, 2)]) := by decide +kernel

/-- Two rows, and a basis whose solution has a negative entry. -/
example : primalFromBasisDebug DebugRows FirstProfitable 1
    (⟨![[(0, -1)], [(1, 1)]], fun _ => 0, fun _ => 1, fun _ _ => []⟩ : Provider 2 2) ![0, 1] =
    .error (.panic .debugAssertion) := by decide +kernel

/-- One row `x = 1` with the full initial basis `x`: the release build with `BasisInverseRows` answers, each
debug build aborts. -/
def Example.oneRow : Provider 1 1 := ⟨fun _ => [(0, 1)], fun _ => 1, fun _ => 1, fun _ _ => []⟩

example : solveRelaxation .rows .firstProfitable 1 Example.oneRow (.fully [(0, 0)]) =
    .ok (.finiteOptimum [(0, 1)]) := by decide +kernel

example : solveRelaxationDebug .rows .firstProfitable 1 Example.oneRow (.fully [(0, 0)]) =
    .error (.panic .debugAssertion) := by decide +kernel

/-- A run with basis changes in which all checks of the LU decomposition succeed. -/
example : solveRelaxationDebug .lu .firstProfitable 10 Example.optimum .none =
    solveRelaxation .lu .firstProfitable 10 Example.optimum .none := by decide +kernel

end Relp
