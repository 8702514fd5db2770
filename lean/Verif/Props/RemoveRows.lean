import Verif.Proof.RemoveRows
import Verif.Props.MatrixData

/-!
# Properties of solving a problem from which equality constraints are removed (C66)

`M.toProgram` is the program that the fields of a `MatrixData` describe; `FeasibleExcept skip` says that a point
satisfies all of it except perhaps for the constraints in `skip`. A problem with rows removed is what
`RemoveRows` presents to the solver; its rows are those of `MatrixData` without these.
-/

namespace Relp

open Matrix

variable (inv : InverseName) (rule : RuleName) (fuel : ℕ) (M : MatrixData) (hM : M.Valid) (skip : List ℕ)
  (hs : skip.Pairwise (· < ·)) (hr : ∀ r ∈ skip, r < M.nrEquality)

include hs hr in
/-- **C66.** The initial basis that is offered: its elements are in range, sorted by row, as many as before; each of
the columns is the unit vector of its row, and costs nothing. -/
theorem C66_initial_basis :
    let pivots := RemoveRows.pivotElementIndices skip M.pivotElementIndices
    (pivots.map (·.1)).Pairwise (· < ·) ∧ pivots.map (·.2) = M.pivotElementIndices.map (·.2) ∧
    ∀ p ∈ pivots, ∃ (h1 : p.1 < M.nrRows - skip.length) (h2 : p.2 < M.nrColumns),
      (∀ i, (RemoveRows.toProvider M skip).toLP.A i ⟨p.2, h2⟩ = if i = ⟨p.1, h1⟩ then 1 else 0) ∧
      (RemoveRows.toProvider M skip).toLP.c ⟨p.2, h2⟩ = 0 := by
  have hR : M.Removable skip := ⟨hs, hr⟩
  obtain ⟨h1, -, h3⟩ := C23_initial_basis (M.without skip)
  have hn := MatrixData.without_nrRows hR
  simp only
  rw [MatrixData.without_pivots hR]
  refine ⟨h1, ?_, fun p hp => ?_⟩
  · simp only [MatrixData.pivotElementIndices, List.map_append, List.map_map]
    rfl
  · obtain ⟨a, b, c, d⟩ := h3 p hp
    refine ⟨by rw [hn]; exact a, b, fun i => ?_, d⟩
    have hi : i.val < (M.without skip).nrRows := by rw [← hn]; exact i.2
    have := c ⟨i, hi⟩
    rw [MatrixData.toLP_entry, MatrixData.entry, ← MatrixData.without_column hR p.2 b] at this
    refine (SVec.val_toFin _ _ _).trans (this.trans ?_)
    simp only [Fin.ext_iff]

include hM hs hr in
/-- A reported optimum reconstructs to the values of a point that is best among those that satisfy all bounds and
all constraints that are not removed. -/
theorem C66_optimum (x : SVec (Fin M.nrColumns))
    (hx : solveRelaxation inv rule fuel (RemoveRows.toProvider M skip) (RemoveRows.initialBasis M skip) =
      .ok (.finiteOptimum x)) :
    ∃ point : Fin M.vars.length → ℚ, M.toProgram.FeasibleExcept skip point ∧
      (∀ y, M.toProgram.FeasibleExcept skip y → M.toProgram.objective point ≤ M.toProgram.objective y) ∧
      Spec.Represents (RemoveRows.reconstructSolution M x.toVector) (List.ofFn point) := by
  have hR : M.Removable skip := ⟨hs, hr⟩
  rw [MatrixData.without_solve hM hR] at hx
  obtain ⟨point, h1, h2⟩ := C24_optimum inv rule fuel (M.without skip) (MatrixData.without_valid hM hR) x hx
  exact ⟨point, (MatrixData.without_feasible hM hR point).1 h1.1,
    fun y hy => h1.2 y ((MatrixData.without_feasible hM hR y).2 hy), h2⟩

include hM hs hr in
/-- If `Unbounded` is reported, there are such points of arbitrarily low cost. -/
theorem C66_unbounded
    (hx : solveRelaxation inv rule fuel (RemoveRows.toProvider M skip) (RemoveRows.initialBasis M skip) =
      .ok .unbounded) (bound : ℚ) :
    ∃ point, M.toProgram.FeasibleExcept skip point ∧ M.toProgram.objective point < bound := by
  have hR : M.Removable skip := ⟨hs, hr⟩
  rw [MatrixData.without_solve hM hR] at hx
  obtain ⟨point, h1, h2⟩ := C24_unbounded inv rule fuel (M.without skip) (MatrixData.without_valid hM hR) hx bound
  exact ⟨point, (MatrixData.without_feasible hM hR point).1 h1, h2⟩

include hM hs hr in
/-- If `Infeasible` is reported, there is no such point. -/
theorem C66_infeasible
    (hx : solveRelaxation inv rule fuel (RemoveRows.toProvider M skip) (RemoveRows.initialBasis M skip) =
      .ok .infeasible) (point : Fin M.vars.length → ℚ) : ¬ M.toProgram.FeasibleExcept skip point := by
  have hR : M.Removable skip := ⟨hs, hr⟩
  rw [MatrixData.without_solve hM hR] at hx
  exact fun h => C24_infeasible inv rule fuel (M.without skip) (MatrixData.without_valid hM hR) hx point
    ((MatrixData.without_feasible hM hR point).2 h)

include hM hs hr in
/-- With the row-wise basis inverse, solving never aborts. -/
theorem C66_never_panics (p : Panic) :
    solveRelaxation .rows rule fuel (RemoveRows.toProvider M skip) (RemoveRows.initialBasis M skip) ≠
      .error (.panic p) := by
  have hR : M.Removable skip := ⟨hs, hr⟩
  rw [MatrixData.without_solve hM hR]
  exact C24_never_panics rule fuel (M.without skip) (MatrixData.without_valid hM hR) p

/-! ### A concrete problem -/

/-- Without the equality constraint, and its double. -/
theorem Example.data_removed_solved : solveRelaxation .lu .steepestDescentAlongObjective 20
    (RemoveRows.toProvider Example.data [0, 1]) (RemoveRows.initialBasis Example.data [0, 1]) =
    .ok (.finiteOptimum [(0, 3), (1, 15/4), (2, 7/4), (3, 2), (5, 23/4), (7, 1/4)]) := by
  decide +kernel

example : ∃ point, Example.data.toProgram.FeasibleExcept [0, 1] point ∧
    (∀ y, Example.data.toProgram.FeasibleExcept [0, 1] y →
      Example.data.toProgram.objective point ≤ Example.data.toProgram.objective y) ∧
    Spec.Represents ⟨[(0, 3), (1, 15/4), (2, 7/4)], 3⟩ (List.ofFn point) :=
  C66_optimum .lu _ _ _ Example.data_valid [0, 1] (by decide) (by decide) _ Example.data_removed_solved

example : RemoveRows.pivotElementIndices [0] Example.data.pivotElementIndices = [(2, 4), (4, 6), (5, 7), (6, 8)] := by
  decide +kernel

/-- Rows that can not be in a problem together, one of which is removed. -/
def Example.conflict (cost : ℚ) : MatrixData where
  constraints := ⟨[[(0, 1), (1, 1), (2, 1)], [(0, -1), (1, -1), (2, -1)]], 2, 3⟩
  b := [1, 2, 3]
  ranges := []
  nrEquality := 3
  nrRange := 0
  nrUpper := 0
  nrLower := 0
  vars := [⟨.continuous, cost, some 0, none, 0, false⟩, ⟨.continuous, 0, some 0, none, 0, false⟩]

theorem Example.conflict_valid : (Example.conflict 1).Valid :=
  ⟨rfl, rfl, by decide +kernel, by decide +kernel, rfl, rfl, by decide +kernel, by decide +kernel, by decide +kernel⟩

theorem Example.conflict_valid' : (Example.conflict (-1)).Valid :=
  ⟨rfl, rfl, by decide +kernel, by decide +kernel, rfl, rfl, by decide +kernel, by decide +kernel, by decide +kernel⟩

example (point : Fin 2 → ℚ) : ¬ (Example.conflict 1).toProgram.FeasibleExcept [2] point :=
  C66_infeasible .rows .firstProfitable 10 _ Example.conflict_valid [2] (by decide) (by decide)
    (by decide +kernel) point

example : ∃ point : Fin 2 → ℚ, (Example.conflict (-1)).toProgram.FeasibleExcept [0, 2] point ∧
    (Example.conflict (-1)).toProgram.objective point < -1000 :=
  C66_unbounded .rows .firstProfitable 10 _ Example.conflict_valid' [0, 2] (by decide) (by decide)
    (by decide +kernel) _

end Relp
