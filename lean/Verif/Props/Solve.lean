import Verif.Proof.Fuel

/-!
# Properties of `solve_relaxation` (C01 to C06, C09, C13)

`solveRelaxation inv rule fuel P start` is the model of `solve_relaxation` with the basis inverse
`inv` and the pivot rule `rule` on the provider `P`, which offers the initial basis `start`. The
result is `.ok result`, `.error (.panic _)` if the program aborts, or `.error .outOfFuel` if one of
the two simplex loops has not ended after `fuel` iterations. The amount of fuel does not influence a
result: see `solveRelaxation_fuel_irrelevant`.

`P.toLP : Spec.LP m n` is the linear program that the provider describes, `P.Ok` says that its
columns are valid sparse vectors and its right-hand side is non-negative, `StartOk P start` that the
offered initial basis columns are unit columns. All quantities are arbitrary.
-/

namespace Relp

open Matrix

variable {m n : ℕ}

/-! ### A concrete problem, which meets the hypotheses -/

namespace Example

/-- `minimise -3 x₀ - 5 x₁` subject to `x₀ + 2 x₁ + x₂ = 8`, `x₀ + x₁ + x₃ = 6`, `x ≥ 0`. -/
def optimum : Provider 2 4 where
  column := ![[(0, 1), (1, 1)], [(0, 2), (1, 1)], [(0, 1)], [(1, 1)]]
  cost := ![-3, -5, 0, 0]
  rhs := ![8, 6]

/-- The same with `x₂` and `x₃` only: `x₀ - x₁ + x₂ = 2`, `-x₀ + x₃ = 1`. -/
def unbounded : Provider 2 4 where
  column := ![[(0, 1), (1, -1)], [(0, -1)], [(0, 1)], [(1, 1)]]
  cost := ![1, -2, 0, 0]
  rhs := ![2, 1]

/-- `x₀ + x₁ = 1`, `2 x₀ + 2 x₁ = 3`. -/
def infeasible : Provider 2 2 where
  column := ![[(0, 1), (1, 2)], [(0, 1), (1, 2)]]
  cost := ![1, 1]
  rhs := ![1, 3]

/-- `x₀ + x₁ = 1`, `2 x₀ + 2 x₁ = 2`, `x₀ - x₁ + x₂ = 1`: the second row is redundant. -/
def redundant : Provider 3 3 where
  column := ![[(0, 1), (1, 2), (2, 1)], [(0, 1), (1, 2), (2, -1)], [(2, 1)]]
  cost := ![1, 2, 0]
  rhs := ![1, 2, 1]

theorem optimum_ok : optimum.Ok := ⟨by decide +kernel, by decide +kernel, fun _ _ _ => rfl⟩
theorem unbounded_ok : unbounded.Ok := ⟨by decide +kernel, by decide +kernel, fun _ _ _ => rfl⟩
theorem infeasible_ok : infeasible.Ok := ⟨by decide +kernel, by decide +kernel, fun _ _ _ => rfl⟩
theorem redundant_ok : redundant.Ok := ⟨by decide +kernel, by decide +kernel, fun _ _ _ => rfl⟩

theorem optimum_full : FullPivotsOk optimum [(1, 3), (0, 2)] :=
  ⟨rfl, by decide +kernel, by decide +kernel⟩

theorem optimum_partial : PivotsOk optimum [(1, 3)] := ⟨by decide +kernel, by decide +kernel⟩

theorem optimum_solved : solveRelaxation .rows .steepestDescentAlongObjective 10 optimum .none
    = .ok (.finiteOptimum [(0, 4), (1, 2)]) := by decide +kernel

theorem optimum_solved_lu : solveRelaxation .lu .firstProfitable 10 optimum
    (.partially [(1, 3)]) = .ok (.finiteOptimum [(0, 4), (1, 2)]) := by decide +kernel

theorem optimum_solved_full : solveRelaxation .lu .steepestDescentAlongVariable 10 optimum
    (.fully [(1, 3), (0, 2)]) = .ok (.finiteOptimum [(0, 4), (1, 2)]) := by decide +kernel

theorem unbounded_solved : solveRelaxation .lu .firstProfitableWithMemory 10 unbounded
    (.fully [(0, 2), (1, 3)]) = .ok .unbounded := by decide +kernel

theorem infeasible_solved : solveRelaxation .rows .steepestDescentAlongObjective 10 infeasible .none
    = .ok .infeasible := by decide +kernel

theorem redundant_solved : solveRelaxation .lu .steepestDescentAlongObjective 10 redundant
    (.partially [(2, 2)]) = .ok (.finiteOptimum [(0, 1)]) := by decide +kernel

end Example

/-! ### C01 -/

/-- **C01.** A reported optimum satisfies every equation `A x = b` and is non-negative. -/
theorem C01_optimum_feasible (inv : InverseName) (rule : RuleName) (fuel : ℕ) (P : Provider m n)
    (hP : P.Ok) (start : InitialBasis m n) (hs : StartOk P start) (x : SVec (Fin n))
    (h : solveRelaxation inv rule fuel P start = .ok (.finiteOptimum x)) :
    P.toLP.Feasible (SVec.val x) :=
  (solveRelaxation_answer hP hs h).1.1

example : Example.optimum.toLP.Feasible (SVec.val [(0, 4), (1, 2)]) :=
  C01_optimum_feasible .lu _ _ _ Example.optimum_ok (.partially _) Example.optimum_partial _
    Example.optimum_solved_lu

/-! ### C02 -/

/-- **C02.** A reported optimum has the least objective value of all feasible points. -/
theorem C02_optimum_optimal (inv : InverseName) (rule : RuleName) (fuel : ℕ) (P : Provider m n)
    (hP : P.Ok) (start : InitialBasis m n) (hs : StartOk P start) (x : SVec (Fin n))
    (h : solveRelaxation inv rule fuel P start = .ok (.finiteOptimum x))
    (y : Fin n → ℚ) (hy : P.toLP.Feasible y) :
    P.toLP.objective (SVec.val x) ≤ P.toLP.objective y :=
  (solveRelaxation_answer hP hs h).1.2 y hy

example : Example.optimum.toLP.objective (SVec.val [(0, 4), (1, 2)]) ≤
    Example.optimum.toLP.objective ![6, 0, 2, 0] :=
  C02_optimum_optimal .lu _ _ _ Example.optimum_ok (.fully _) Example.optimum_full _
    Example.optimum_solved_full _ ⟨by decide +kernel, by decide +kernel⟩

/-! ### C03 -/

/-- **C03.** If `Unbounded` is reported, there are feasible points of arbitrarily low objective
value. -/
theorem C03_unbounded_correct (inv : InverseName) (rule : RuleName) (fuel : ℕ) (P : Provider m n)
    (hP : P.Ok) (start : InitialBasis m n) (hs : StartOk P start)
    (h : solveRelaxation inv rule fuel P start = .ok .unbounded) (bound : ℚ) :
    ∃ x, P.toLP.Feasible x ∧ P.toLP.objective x < bound :=
  solveRelaxation_answer hP hs h bound

example : ∃ x, Example.unbounded.toLP.Feasible x ∧ Example.unbounded.toLP.objective x < -1000 :=
  C03_unbounded_correct .lu _ _ _ Example.unbounded_ok
    (.fully [(0, 2), (1, 3)]) ⟨rfl, by decide +kernel, by decide +kernel⟩
    Example.unbounded_solved _

/-! ### C04 -/

/-- **C04.** If `Infeasible` is reported, there is no feasible point. -/
theorem C04_infeasible_correct (inv : InverseName) (rule : RuleName) (fuel : ℕ) (P : Provider m n)
    (hP : P.Ok) (start : InitialBasis m n) (hs : StartOk P start)
    (h : solveRelaxation inv rule fuel P start = .ok .infeasible) (x : Fin n → ℚ) :
    ¬ P.toLP.Feasible x :=
  solveRelaxation_answer hP hs h x

example (x : Fin 2 → ℚ) : ¬ Example.infeasible.toLP.Feasible x :=
  C04_infeasible_correct .rows _ _ _ Example.infeasible_ok .none trivial
    Example.infeasible_solved x

/-! ### C05 -/

/-- **C05.** With the row-wise basis inverse, the solver never aborts, whatever the fuel; a provider
that offers a full initial basis has to have a row. -/
theorem C05_rows_never_panics (rule : RuleName) (fuel : ℕ) (P : Provider m n) (hP : P.Ok)
    (start : InitialBasis m n) (hs : StartOk P start)
    (hfull : ∀ pivots, start = .fully pivots → m ≠ 0) (p : Panic) :
    solveRelaxation .rows rule fuel P start ≠ .error (.panic p) := by
  rcases solveRows_spec rule fuel hP hs (fun hm pivots he => hfull pivots he hm) with h | ⟨a, h, -⟩
  · rw [h]; simp
  · rw [h]; simp

example (p : Panic) : solveRelaxation .rows .steepestDescentAlongObjective 1000000 Example.redundant
    .none ≠ .error (.panic p) :=
  C05_rows_never_panics _ _ _ Example.redundant_ok .none trivial (by simp) p

/-- The restriction on providers that offer a full initial basis is needed: without rows, the basis
matrix is factorised to invert it, which underflows. -/
theorem C05_full_basis_without_rows (rule : RuleName) (fuel : ℕ) (P : Provider 0 n) :
    solveRelaxation .rows rule fuel P (.fully []) = .error (.panic .underflow) := by
  have h1 : StartOk P (.fully []) := ⟨rfl, by simp, by simp⟩
  obtain ⟨basis, -, -, -, -, heq⟩ := solveFull_eq (P := P) (pivots := []) h1
  change solveFull InverseName.rows.type rule.type fuel P [] = _
  rw [heq, carry_fromBasis_zero .rows rfl P basis]
  rfl

/-! ### C06 -/

/-- **C06.** A reported optimum is a valid sparse vector (strictly increasing indices, in range by
typing) with positive values, with at most one entry per row of the problem, and the columns of its
entries are linearly independent. -/
theorem C06_optimum_basic (inv : InverseName) (rule : RuleName) (fuel : ℕ) (P : Provider m n)
    (hP : P.Ok) (start : InitialBasis m n) (hs : StartOk P start) (x : SVec (Fin n))
    (h : solveRelaxation inv rule fuel P start = .ok (.finiteOptimum x)) :
    (x.map (·.1)).Pairwise (· < ·) ∧ (∀ p ∈ x, 0 < p.2) ∧ x.length ≤ m ∧
      LinearIndependent ℚ fun j : {j // SVec.val x j ≠ 0} => P.toLP.A.col j := by
  obtain ⟨h1, h2, h3⟩ := solveRelaxation_answer hP hs h
  refine ⟨?_, fun p hp => ?_, length_le_of_basic h2 h3, h3⟩
  · rw [List.pairwise_map]
    exact h2.1
  · have h4 := h1.1.2 p.1
    rw [SVec.val_of_mem h2 hp] at h4
    exact lt_of_le_of_ne h4 (Ne.symm (h2.2 p hp))

example : LinearIndependent ℚ fun j : {j // SVec.val [((0 : Fin 4), (4 : ℚ)), (1, 2)] j ≠ 0} =>
    Example.optimum.toLP.A.col j :=
  (C06_optimum_basic .rows _ _ _ Example.optimum_ok .none trivial _ Example.optimum_solved).2.2.2

/-! ### C09 -/

/-- **C09.** If phase one declares rows redundant, these rows follow from the others, and the problem
without these rows, which is what phase two works with, has exactly the same feasible points. -/
theorem C09_removed_rows_redundant (inv : InverseName) (rule : RuleName) (P : Provider m n)
    (hP : P.Ok) (start : InitialBasis m n) (hs : StartOk P start) (hm : inv = .lu → 2 ≤ m)
    {nrArtificial : ℕ} (rows : List (Fin m)) (carry : Carry inv.type m (nrArtificial + n))
    (basis : Finset (Fin (nrArtificial + n)))
    (h : PhaseOneResult rule.type P start (.feasible (.deficient rows) carry basis)) :
    P.toLP.Redundant rows ∧
      ∀ x, (P.removeRows rows).toLP.Feasible x ↔ P.toLP.Feasible x := by
  have hdim : LawfulBasisInverse.OkDim inv.type m := by
    cases inv with
    | rows => exact trivial
    | lu => exact hm rfl
  obtain ⟨t, ctr, M, rows', h1, -, -, h4, h5⟩ := h.inv hdim hP hs
  have hrows : rows' = rows := by
    by_cases hc : rows' = []
    · rw [if_pos hc] at h5; cases h5
    · rw [if_neg hc] at h5; cases h5; rfl
  subst hrows
  have hr := h4.redundant_rows h1
  exact ⟨hr, Provider.removeRows_feasible hP hr⟩

/-- Phase one declares the second row of the example redundant. -/
theorem Example.redundant_rows : ∃ carry basis,
    PhaseOneResult (BI := InverseName.rows.type) (nrArtificial := 3)
      RuleName.steepestDescentAlongObjective.type Example.redundant .none
      (.feasible (.deficient [1]) carry basis) := by
  have h : (do
      let t ← (Tableau.newFully Example.redundant : Res (Tableau InverseName.rows.type 3 (3 + 3)))
      let f ← phaseOne RuleName.steepestDescentAlongObjective.type 10 t
      pure (match f with | .feasible (.deficient rows) _ _ => decide (rows = [1]) | _ => false))
      = (.ok true : Res Bool) := by decide +kernel
  obtain ⟨t, h1, h⟩ := bind_eq_ok h
  obtain ⟨f, h2, h⟩ := bind_eq_ok h
  match f, h2, h with
  | .feasible (.deficient rows) carry basis, h2, h =>
    have hr : rows = [1] := by
      injection h with h
      simpa using h
    subst hr
    exact ⟨carry, basis, phaseOneResult_fully h1 h2⟩

example (x : Fin 3 → ℚ) : (Example.redundant.removeRows [1]).toLP.Feasible x ↔
    Example.redundant.toLP.Feasible x := by
  obtain ⟨carry, basis, h⟩ := Example.redundant_rows
  exact (C09_removed_rows_redundant .rows _ _ Example.redundant_ok .none trivial (by simp) [1]
    carry basis h).2 x

/-! ### C13 -/

/-- **C13.** With at least two rows, also after any removal of redundant rows, the LU decomposition
and the row-wise basis inverse give the same result for every amount of fuel: the same verdict, the
same solution vector, the same number of iterations. -/
theorem C13_representation_irrelevant (rule : RuleName) (fuel : ℕ) (P : Provider m n) (hP : P.Ok)
    (start : InitialBasis m n) (hs : StartOk P start) (hm : 2 ≤ m)
    (hrows : ∀ rows, P.toLP.Redundant rows → 2 ≤ m - rows.length) :
    solveRelaxation .lu rule fuel P start = solveRelaxation .rows rule fuel P start := by
  have hdim : ∀ rows, P.toLP.Redundant rows → 2 ≤ keptLen rows := by
    intro rows hr
    rw [keptLen_eq (hr.1.imp ne_of_lt)]
    exact hrows rows hr
  have hf := solve_follows rule fuel hP hs
  rcases solveLU_spec rule fuel hP hs hm hdim with h | ⟨a, h, -⟩
  · rw [h] at hf ⊢
    exact hf.symm
  · rw [h] at hf ⊢
    obtain ⟨b, h1, rfl⟩ := hf
    exact h1.symm

/-- The rows of the example are linearly independent. -/
theorem Example.optimum_rank (rows : List (Fin 2)) (h : Example.optimum.toLP.Redundant rows) :
    rows = [] := by
  by_contra hc
  obtain ⟨i, hi⟩ := List.exists_mem_of_ne_nil rows hc
  obtain ⟨u, h1, -, h3, -⟩ := h.2 i hi
  have h4 := congrFun h1 2
  have h5 := congrFun h1 3
  have e2 : (u ᵥ* Example.optimum.toLP.A) 2 = u 0 := by
    simp [vecMul, dotProduct, Provider.toLP, columnsMatrix, Example.optimum,
      SVec.val]
  have e3 : (u ᵥ* Example.optimum.toLP.A) 3 = u 1 := by
    simp [vecMul, dotProduct, Provider.toLP, columnsMatrix, Example.optimum,
      SVec.val]
  rw [e2] at h4
  rw [e3] at h5
  fin_cases i
  · simp_all
  · simp_all

example (rule : RuleName) (fuel : ℕ) : solveRelaxation .lu rule fuel Example.optimum .none =
    solveRelaxation .rows rule fuel Example.optimum .none :=
  C13_representation_irrelevant rule fuel _ Example.optimum_ok .none trivial (by simp) fun rows hr => by
    rw [Example.optimum_rank rows hr]; simp

/-- Without any condition on the number of rows: unless the LU decomposition aborts, the result is
the same. -/
theorem C13_unless_panic (rule : RuleName) (fuel : ℕ) (P : Provider m n) (hP : P.Ok)
    (start : InitialBasis m n) (hs : StartOk P start)
    (h : ∀ p, solveRelaxation .lu rule fuel P start ≠ .error (.panic p)) :
    solveRelaxation .lu rule fuel P start = solveRelaxation .rows rule fuel P start := by
  have hf := solve_follows rule fuel hP hs
  match hx : solveRelaxation .lu rule fuel P start with
  | .ok a =>
    rw [hx] at hf
    obtain ⟨b, h1, rfl⟩ := hf
    exact h1.symm
  | .error .outOfFuel =>
    rw [hx] at hf
    exact hf.symm
  | .error (.panic p) => exact absurd hx (h p)

/-- The hypotheses are met, also with a redundant row. -/
example : solveRelaxation .lu .steepestDescentAlongObjective 10 Example.redundant (.partially [(2, 2)]) =
    solveRelaxation .rows .steepestDescentAlongObjective 10 Example.redundant (.partially [(2, 2)]) :=
  C13_unless_panic _ _ _ Example.redundant_ok _ ⟨by decide +kernel, by decide +kernel⟩ fun p h => by
    rw [Example.redundant_solved] at h
    cases h

/-! ### Fuel -/

/-- The amount of fuel does not matter: two runs that end have the same result. -/
theorem solveRelaxation_fuel_irrelevant (inv : InverseName) (rule : RuleName) (P : Provider m n)
    (start : InitialBasis m n) (fuel fuel' : ℕ)
    (h : solveRelaxation inv rule fuel P start ≠ .error .outOfFuel)
    (h' : solveRelaxation inv rule fuel' P start ≠ .error .outOfFuel) :
    solveRelaxation inv rule fuel P start = solveRelaxation inv rule fuel' P start :=
  solveRelaxation_unique h h'

end Relp
