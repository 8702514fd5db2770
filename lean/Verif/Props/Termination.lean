import Verif.Proof.Nondegenerate
import Verif.Proof.Cycle
import Verif.Props.Solve
import Verif.Props.MatrixData
import Verif.Props.GeneralForm
import Mathlib.Tactic.IntervalCases

/-!
# Termination of `solve_relaxation` (C07, C08)

`solveRelaxation inv rule fuel P start` is `.error .outOfFuel` iff one of the two simplex loops is
still running after `fuel` iterations.
-/

namespace Relp

open Matrix

variable {m n : ℕ}

/-! ### C07 -/

/-- **C07.** With the rule `FirstProfitable`, both phases end: each of them does less iterations than there are sets of
`m` out of `m + n` columns, on every problem, for both basis inverses and every kind of initial basis. -/
theorem C07_number_of_bases (inv : InverseName) (P : Provider m n) (hP : P.Ok)
    (start : InitialBasis m n) (hs : StartOk P start) (fuel : ℕ) (hfuel : (m + n).choose m ≤ fuel) :
    solveRelaxation inv .firstProfitable fuel P start ≠ .error .outOfFuel :=
  AllBounded.relaxation (rule := .firstProfitable) hP hs (firstProfitable_allBounded P)
    (lt_of_lt_of_le (Nat.choose_pos (by omega)) hfuel) hfuel

/-- **C07.** With the rule `FirstProfitable`, both phases end: each of them does less than
`(m + n) ^ m` iterations, on every problem, for both basis inverses and every kind of initial basis. -/
theorem C07_first_profitable_terminates (inv : InverseName) (P : Provider m n) (hP : P.Ok)
    (start : InitialBasis m n) (hs : StartOk P start) (fuel : ℕ)
    (hfuel : (m + n) ^ m ≤ fuel) :
    solveRelaxation inv .firstProfitable fuel P start ≠ .error .outOfFuel :=
  C07_number_of_bases inv P hP start hs fuel ((Nat.choose_le_pow _ _).trans hfuel)

/-- Consequently, there is a single result, which is correct. With the row-wise basis inverse, it is
the answer of the solver for every problem that has a row. -/
theorem C07_first_profitable_answers (P : Provider m n) (hP : P.Ok) (start : InitialBasis m n)
    (hs : StartOk P start) (hm : m ≠ 0) :
    ∃ result, (∀ fuel, (m + n) ^ m < fuel →
        solveRelaxation .rows .firstProfitable fuel P start = .ok result) ∧
      match result with
      | .infeasible => P.toLP.Infeasible
      | .unbounded => P.toLP.Unbounded
      | .finiteOptimum x => P.toLP.Optimal (SVec.val x) := by
  have hends : ∀ fuel, (m + n) ^ m < fuel →
      solveRelaxation .rows .firstProfitable fuel P start ≠ .error .outOfFuel := fun fuel hf =>
    C07_first_profitable_terminates .rows P hP start hs fuel hf.le
  rcases solveRows_spec .firstProfitable ((m + n) ^ m + 1) hP hs (fun h => absurd h hm) with
    h | ⟨a, h, ha⟩
  · exact absurd h (hends _ (Nat.lt_succ_self _))
  · refine ⟨a, fun fuel hf => ?_, ?_⟩
    · rw [← h]
      exact solveRelaxation_unique (hends _ hf) (hends _ (Nat.lt_succ_self _))
    · cases a with
      | infeasible => exact ha
      | unbounded => exact ha
      | finiteOptimum x => exact ha.1

/-- The same for a problem in matrix form, also without rows. -/
theorem C07_matrixData_answers (M : MatrixData) (h : M.Valid) :
    ∃ N result, ∀ fuel ≥ N,
      solveRelaxation .rows .firstProfitable fuel M.toProvider M.initialBasis = .ok result := by
  have hs := (C23_start M).1
  refine ⟨(M.nrRows + M.nrColumns) ^ M.nrRows + 1, ?_⟩
  have hends : ∀ fuel, (M.nrRows + M.nrColumns) ^ M.nrRows < fuel →
      solveRelaxation .rows .firstProfitable fuel M.toProvider M.initialBasis ≠ .error .outOfFuel := fun fuel hf =>
    C07_first_profitable_terminates .rows _ h.ok _ hs fuel hf.le
  rcases solveRows_spec .firstProfitable ((M.nrRows + M.nrColumns) ^ M.nrRows + 1) h.ok hs
    (fun _ pivots he => by cases he) with h | ⟨a, h, ha⟩
  · exact absurd h (hends _ (Nat.lt_succ_self _))
  · refine ⟨a, fun fuel hf => ?_⟩
    rw [← h]
    exact solveRelaxation_unique (hends _ hf) (hends _ (Nat.lt_succ_self _))

/-- **C43.** Every problem with proper bounds is solved: there is one answer, for all sufficient numbers of
iterations, and it is right. -/
theorem GeneralForm.C43_answers (G : GeneralForm) (hG : G.Consistent) (hp : G.Proper) (ha : G.Acyclic) :
    ∃ N result, (∀ fuel ≥ N, G.solve .rows .firstProfitable fuel = .ok result) ∧
      match result with
      | .infeasible => G.toProgram.Infeasible
      | .unbounded => G.Unbounded
      | .finiteOptimum solution => ∃ x, G.Best x ∧ G.Extends x solution.values ∧
        (G.objective = .minimize → solution.objectiveValue = G.toProgram.objective x) := by
  obtain ⟨H, counts, M, h, hM, h2, -⟩ := solve_eq .rows .firstProfitable 0 hG
  obtain ⟨r, d1, -, d3, -⟩ := h2.derive
  rw [hM] at d1
  cases d1
  obtain ⟨N, a, hN⟩ := C07_matrixData_answers _ (d3 hp)
  have he : ∀ fuel ≥ N, G.solve .rows .firstProfitable fuel = G.solve .rows .firstProfitable N := by
    intro fuel hf
    simp only [GeneralForm.solve, h, orPanic, bind, Except.bind, hM, solveStandardized, hN fuel hf, hN N le_rfl]
  cases hr : G.solve .rows .firstProfitable N with
  | error e =>
    cases e with
    | panic p => exact absurd hr (C43_never_panics G hG hp .firstProfitable N ha p)
    | outOfFuel =>
      exfalso
      simp only [GeneralForm.solve, h, orPanic, bind, Except.bind, hM, solveStandardized, hN N le_rfl] at hr
      cases a with
      | infeasible => cases hr
      | unbounded => cases hr
      | finiteOptimum z =>
        dsimp only at hr
        split at hr
        next h' => revert h'; split <;> simp [Relp.panic]; rintro rfl; cases hr
        next => cases hr
  | ok result =>
    refine ⟨N, result, fun fuel hf => (he fuel hf).trans hr, ?_⟩
    cases result with
    | infeasible => exact C43_infeasible G hG hp _ _ _ hr
    | unbounded => exact C43_unbounded G hG hp _ _ _ hr
    | finiteOptimum solution => exact C43_optimum G hG hp _ _ _ solution hr ha

example : ∃ N result, ∀ fuel ≥ N, Example.general.solve .rows .firstProfitable fuel = .ok result := by
  obtain ⟨N, result, h, -⟩ := GeneralForm.C43_answers _ Example.general_consistent.1 Example.general_proper
    Example.general_consistent.2
  exact ⟨N, result, h⟩

example : solveRelaxation .lu .firstProfitable 36 Example.optimum .none ≠ .error .outOfFuel :=
  C07_first_profitable_terminates .lu _ Example.optimum_ok .none trivial 36 (by norm_num)

/-- There are 15 pairs of 6 columns. -/
example : solveRelaxation .lu .firstProfitable 15 Example.optimum .none ≠ .error .outOfFuel :=
  C07_number_of_bases .lu _ Example.optimum_ok .none trivial 15 (by decide)

/-! ### C08

The rule that the program uses does not guarantee termination, nor do the two other ones. -/

/-- `minimise -x₀ + x₁ - 11/18 x₂ + 5/3 x₃` subject to `1/3 x₀ - 2 x₁ - 4/3 x₂ + 2 x₃ ≤ 0`,
`13/18 x₀ - 4/3 x₁ - 13/18 x₂ + 1/3 x₃ ≤ 0`, `-3 x₀ + 12 x₁ + 5 x₂ + 3 x₃ ≤ 1`, `x ≥ 0`. -/
def Example.cycling : MatrixData where
  constraints := ⟨[[(0, 1/3), (1, 13/18), (2, -3)], [(0, -2), (1, -4/3), (2, 12)],
    [(0, -4/3), (1, -13/18), (2, 5)], [(0, 2), (1, 1/3), (2, 3)]], 4, 3⟩
  b := [0, 0, 1]
  ranges := []
  nrEquality := 0
  nrRange := 0
  nrUpper := 3
  nrLower := 0
  vars := [⟨.continuous, -1, some 0, none, 0, false⟩, ⟨.continuous, 1, some 0, none, 0, false⟩,
    ⟨.continuous, -11/18, some 0, none, 0, false⟩, ⟨.continuous, 5/3, some 0, none, 0, false⟩]

theorem Example.cycling_valid : Example.cycling.Valid :=
  ⟨rfl, rfl, by decide +kernel, by decide +kernel, rfl, rfl, by decide +kernel, by decide +kernel,
    by decide +kernel⟩

namespace Cycling

/-- The problem as the solver sees it. -/
def P : Provider 3 7 := Example.cycling.toProvider

/-- The six bases that are visited in turn. -/
def carry : ℕ → Carry BasisInverseRows 3 7
  | 0 => ⟨0, ![0, 0, 0], ![0, 0, 1], ![4, 5, 6],
      ⟨![[(0, 1)], [(1, 1)], [(2, 1)]]⟩⟩
  | 1 => ⟨0, ![3, 0, 0], ![0, 0, 1], ![0, 5, 6],
      ⟨![[(0, 3)], [(0, -13/6), (1, 1)], [(0, 9), (2, 1)]]⟩⟩
  | 2 => ⟨0, ![-11/18, 5/3, 0], ![0, 0, 1], ![0, 1, 6],
      ⟨![[(0, -4/3), (1, 2)], [(0, -13/18), (1, 1/3)], [(0, 14/3), (1, 2), (2, 1)]]⟩⟩
  | 3 => ⟨0, ![-83/18, 23/3, 0], ![0, 0, 1], ![2, 1, 6],
      ⟨![[(0, -4), (1, 6)], [(0, 13/6), (1, -4)], [(0, -6), (1, 18), (2, 1)]]⟩⟩
  | 4 => ⟨0, ![-1, 1, 0], ![0, 0, 1], ![2, 3, 6],
      ⟨![[(0, 1/3), (1, -2)], [(0, 13/18), (1, -4/3)], [(0, -23/6), (1, 14), (2, 1)]]⟩⟩
  | _ => ⟨0, ![0, -5, 0], ![0, 0, 1], ![4, 3, 6],
      ⟨![[(0, 1), (1, -6)], [(1, 3)], [(1, -9), (2, 1)]]⟩⟩

/-- The weights of `SteepestDescentAlongObjective`. -/
def gamma : ℕ → SteepestDescentAlongObjective 7
  | 0 => ⟨![some (3445/324), some (1357/9), some (9169/324), some (127/9), none, none, none]⟩
  | 1 => ⟨![none, some (82), some (2545/36), some (494), some (3445/36), none, none]⟩
  | 2 => ⟨![none, none, some (2833/324), some (1582/9), some (8125/324), some (82/9), none]⟩
  | 3 => ⟨![some (2833/36), none, none, some (55), some (2077/36), some (377), none]⟩
  | 4 => ⟨![some (6047/162), some (55/9), none, none, some (2645/162), some (1825/9), none]⟩
  | _ => ⟨![some (2015/18), some (629), some (2645/18), none, none, some (127), none]⟩

/-- The states of the run with a rule that remembers `rule k` before iteration `k`. -/
def states {R : ℕ → Type} (rule : ℕ → R 7) (k : ℕ) : LoopState R 3 7 :=
  (rule k, carry (k % 6), Finset.univ.image (carry (k % 6)).basisIndices)

/-- The memory of `FirstProfitableWithMemory`. -/
def memory : ℕ → FirstProfitableWithMemory 7
  | 0 => ⟨none⟩
  | 1 => ⟨some 0⟩
  | 2 => ⟨some 1⟩
  | 3 => ⟨some 2⟩
  | 4 => ⟨some 3⟩
  | 5 => ⟨some 4⟩
  | 6 => ⟨some 5⟩
  | _ => ⟨some 0⟩

theorem objective_next : ∀ k < 6, LoopState.next (Tableau.nonArtificialKind P)
    (states (fun k => gamma (k % 6)) k) = .ok (some (states (fun k => gamma (k % 6)) (k + 1))) := by
  intro k hk
  interval_cases k <;> decide +kernel

theorem variable_next : ∀ k < 6, LoopState.next (Tableau.nonArtificialKind P)
    (states (fun _ => SteepestDescentAlongVariable.mk) k)
      = .ok (some (states (fun _ => SteepestDescentAlongVariable.mk) (k + 1))) := by
  intro k hk
  interval_cases k <;> decide +kernel

theorem memory_next : ∀ k < 7, LoopState.next (Tableau.nonArtificialKind P) (states memory k)
      = .ok (some (states memory (k + 1))) := by
  intro k hk
  interval_cases k <;> decide +kernel

/-- The slack variables are the initial basis. -/
def pivots : List (Fin 3 × Fin 7) := [(0, 4), (1, 5), (2, 6)]

theorem initialBasis : Example.cycling.initialBasis = .partially pivots :=
  rfl

theorem rows_cycle {R : ℕ → Type} [PivotRule R] {rule : ℕ → R 7}
    (hbegin : LoopState.begin R P pivots = .ok (some (states rule 0)))
    {K L : ℕ} (hL : L < K) (hcycle : states rule K = states rule L)
    (hnext : ∀ k < K, LoopState.next (Tableau.nonArtificialKind P) (states rule k)
      = .ok (some (states rule (k + 1)))) (fuel : ℕ) :
    solvePartially BasisInverseRows R fuel P pivots = .error .outOfFuel := by
  have hloop := fun fuel => LoopState.cycle (states rule) hnext hL hcycle fuel
  have hsucc : ∀ fuel, solvePartially BasisInverseRows R (fuel + 1) P pivots
      = .error .outOfFuel := by
    intro fuel
    rw [LoopState.solve hbegin]
    exact hloop _
  cases fuel with
  | zero =>
    rcases solveWith_sticky (BI := BasisInverseRows) (R := R) (Nat.zero_le 1) P (.partially pivots)
      with h | h
    · exact h
    · exact h.trans (hsucc 0)
  | succ fuel => exact hsucc fuel

theorem independent (rows : List (Fin 3)) (h : P.toLP.Redundant rows) : rows = [] := by
  by_contra hc
  obtain ⟨i, hi⟩ := List.exists_mem_of_ne_nil rows hc
  exact absurd (C26_only_equality_rows Example.cycling rows h i hi) (Nat.not_lt_zero _)

end Cycling

/-- **C08** fails for the three other rules, one of which is the default: on one and the same problem,
that has three rows, that `MatrixData` represents and for which the slack variables are the initial
basis, they never return, for both basis inverses. -/
theorem C08_cycles (inv : InverseName) (rule : RuleName) (hrule : rule ≠ .firstProfitable)
    (fuel : ℕ) : solveRelaxation inv rule fuel Example.cycling.toProvider
      Example.cycling.initialBasis = .error .outOfFuel := by
  have hrows : solveRelaxation .rows rule fuel Example.cycling.toProvider
      Example.cycling.initialBasis = .error .outOfFuel := by
    rw [Cycling.initialBasis]
    cases rule with
    | firstProfitable => exact absurd rfl hrule
    | firstProfitableWithMemory =>
      exact Cycling.rows_cycle (rule := Cycling.memory) (by decide +kernel) (K := 7) (L := 1)
        (by norm_num) (by decide +kernel) Cycling.memory_next fuel
    | steepestDescentAlongVariable =>
      exact Cycling.rows_cycle (rule := fun _ => SteepestDescentAlongVariable.mk)
        (by decide +kernel) (K := 6) (L := 0) (by norm_num) (by decide +kernel)
        Cycling.variable_next fuel
    | steepestDescentAlongObjective =>
      exact Cycling.rows_cycle (rule := fun k => Cycling.gamma (k % 6)) (by decide +kernel)
        (K := 6) (L := 0) (by norm_num) (by decide +kernel) Cycling.objective_next fuel
  cases inv with
  | rows => exact hrows
  | lu =>
    rw [← hrows]
    exact C13_representation_irrelevant rule fuel _ Example.cycling_valid.ok _
      (C23_start Example.cycling).1 (by decide +kernel) fun rows hr => by
        rw [Cycling.independent rows hr]
        decide +kernel

/-- The problem does have an optimum, which `FirstProfitable` finds. -/
theorem C08_cycling_has_optimum : ∃ x, (∀ fuel, 9 < fuel →
      solveRelaxation .rows .firstProfitable fuel Example.cycling.toProvider
        Example.cycling.initialBasis = .ok (.finiteOptimum x)) ∧
    Example.cycling.toProvider.toLP.Optimal (SVec.val x) := by
  have h : solveRelaxation .rows .firstProfitable 10 Cycling.P (.partially Cycling.pivots)
      = .ok (.finiteOptimum [(0, 1/2), (2, 1/2), (4, 1/2)]) := by decide +kernel
  rw [Cycling.initialBasis]
  have hP := Example.cycling_valid.ok
  have hs := (C23_start Example.cycling).1
  rw [Cycling.initialBasis] at hs
  refine ⟨_, fun fuel hf => ?_, (solveRelaxation_answer hP hs h).1⟩
  rcases solveWith_sticky (BI := BasisInverseRows) (R := FirstProfitable) (Nat.succ_le_of_lt hf)
    Cycling.P (.partially Cycling.pivots) with h' | h'
  · exact absurd (h.symm.trans h') (by simp)
  · exact h'.symm.trans h

/-- This degenerate problem also meets the hypotheses of C07. -/
example (inv : InverseName) : solveRelaxation inv .firstProfitable 1000 Example.cycling.toProvider
    Example.cycling.initialBasis ≠ .error .outOfFuel :=
  C07_first_profitable_terminates inv _ Example.cycling_valid.ok _ (C23_start Example.cycling).1 1000
    (by decide +kernel)

/-- **C08** restricted to nondegenerate problems, those whose right-hand side is not a combination
with non-negative coefficients of fewer than `m` of the columns of the coefficients and of the
identity matrix: with every rule, in
particular with the default one, both phases end: each does less iterations than there are sets of `m` out of `m + n`
columns. Missing: degenerate problems, on which the
property is violated. -/
theorem C08_nondegenerate_partial (inv : InverseName) (rule : RuleName) (P : Provider m n)
    (hP : P.Ok) (hnd : P.toLP.Nondegenerate) (start : InitialBasis m n) (hs : StartOk P start)
    (fuel : ℕ) (hfuel : (m + n).choose m ≤ fuel) :
    solveRelaxation inv rule fuel P start ≠ .error .outOfFuel :=
  AllBounded.relaxation hP hs (nondegenerate_allBounded hP hnd)
    (lt_of_lt_of_le (Nat.choose_pos (by omega)) hfuel) hfuel

/-- `(8, 6)` is not a multiple of one of the columns `(1, 1)`, `(2, 1)`, `(1, 0)`, `(0, 1)`. -/
theorem Example.optimum_nondegenerate : Example.optimum.toLP.Nondegenerate := by
  intro x y _ _ h
  have h0 := congrFun h 0
  have h1 := congrFun h 1
  simp [mulVec, dotProduct, Provider.toLP, columnsMatrix, Example.optimum, SVec.val,
    Fin.sum_univ_four] at h0 h1
  rw [Finset.card_filter, Finset.card_filter, Fin.sum_univ_four, Fin.sum_univ_two]
  split_ifs with a b c d e f <;> first | omega | (simp_all <;> linarith)

example (rule : RuleName) : solveRelaxation .lu rule 15 Example.optimum .none ≠ .error .outOfFuel :=
  C08_nondegenerate_partial .lu rule _ Example.optimum_ok Example.optimum_nondegenerate .none trivial
    15 (by decide)

/-- **C08** on degenerate problems: the only way in which a run goes on is that it keeps exchanging
basis columns without moving. If the program is still running after `fuel` iterations of a phase, the
tableaus `s 0, s 1, …` that it visited in that phase each result from the previous one by bringing a
profitable column into the basis, and less than `(m + n).choose m` of these pivots changed the current
point, however large `fuel` is. Missing: that the pivots without movement end, which is false
(`C08_cycles`). By C13 the basis inverse is irrelevant. -/
theorem C08_only_stalling_partial (rule : RuleName) (P : Provider m n) (hP : P.Ok)
    (start : InitialBasis m n) (hs : StartOk P start) (fuel : ℕ)
    (hrun : solveRelaxation .rows rule fuel P start = .error .outOfFuel) :
    ∃ m' N, m' ≤ m ∧ N ≤ m + n ∧ ∃ s : ℕ → Tableau BasisInverseRows m' N,
      (phaseOne rule.type fuel (s 0) = .error .outOfFuel ∨
        phaseTwo rule.type fuel (s 0) = .error .outOfFuel) ∧
      (∀ i < fuel, ∃ column row info change, (s i).relativeCost column < 0 ∧
        (s i).generateColumn column = .ok info ∧
        (s i).selectPrimalPivotRow (BasisInverse.infoColumn info) = some row ∧
        (s i).bringIntoBasis column row info ((s i).relativeCost column)
          = .ok (s (i + 1), change)) ∧
      ((Finset.range fuel).filter fun i =>
        SVec.val (s (i + 1)).currentBfs ≠ SVec.val (s i).currentBfs).card < (m + n).choose m :=
  rows_stalls hP hs hrun

/-- Of a million iterations on the problem above, at least 999 000 don't move. -/
example (rule : RuleName) (hrule : rule ≠ .firstProfitable) :
    ∃ m' N, ∃ s : ℕ → Tableau BasisInverseRows m' N,
      ((Finset.range 1000000).filter fun i =>
        SVec.val (s (i + 1)).currentBfs ≠ SVec.val (s i).currentBfs).card < 1000 := by
  obtain ⟨m', N, -, -, s, -, -, h⟩ := C08_only_stalling_partial rule _ Example.cycling_valid.ok _
    (C23_start Example.cycling).1 1000000 (C08_cycles .rows rule hrule 1000000)
  refine ⟨m', N, s, lt_of_lt_of_le h ?_⟩
  decide +kernel

end Relp
