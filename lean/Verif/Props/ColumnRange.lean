import Verif.Props.Solve
import Verif.Proof.ColumnRange
import Verif.Proof.Pivoting

/-!
# Starting from a given basis (C59), and the column range example (C60)

`FeasibleBasis`, and the column range problem, are defined in `Verif/Spec/ColumnRange.lean`.
-/

namespace Relp

variable {m n : ℕ}

/-! ### C59 -/

/-- **C59.** Started from any feasible basis, without phase one, the solver does not abort, and what it
answers is right: an optimum is an optimal basic solution, after `Unbounded` there are arbitrarily good
points, and `Infeasible` is never answered. -/
theorem C59_answer (inv : InverseName) (rule : RuleName) (fuel : ℕ) (P : Provider m n)
    (hP : ∀ j, SVec.WF (P.column j)) (basis : Fin m → Fin n) (hb : P.toLP.FeasibleBasis basis)
    (hm : m ≠ 0) (hlu : inv = .lu → 2 ≤ m) :
    primalFromBasis inv.type rule.type fuel P basis = .error .outOfFuel ∨
      ∃ a, primalFromBasis inv.type rule.type fuel P basis = .ok a ∧
        match a with
        | .infeasible => False
        | .unbounded => P.toLP.Unbounded
        | .finiteOptimum x => P.toLP.Optimal (SVec.val x) ∧ P.toLP.Basic (SVec.val x) := by
  have hdim : LawfulBasisInverse.OkDim inv.type m := by
    cases inv with
    | rows => exact trivial
    | lu => exact hlu rfl
  obtain ⟨carry, h1, h2⟩ := feasibleBasis_start hdim (inv.okInvert hm) hP hb
  rcases primalFromBasis_spec (R := rule.type) hdim fuel h1 h2 with h | ⟨a, h, h3, h4⟩
  · exact Or.inl h
  · refine Or.inr ⟨a, h, ?_⟩
    cases a with
    | infeasible => exact absurd rfl h3
    | unbounded => exact h4
    | finiteOptimum x => exact ⟨h4.1, h4.2.2⟩

/-- With the rule `FirstProfitable` it ends, and the answer does not depend on the number of iterations
that are allowed. -/
theorem C59_ends (inv : InverseName) (P : Provider m n)
    (hP : ∀ j, SVec.WF (P.column j)) (basis : Fin m → Fin n) (hb : P.toLP.FeasibleBasis basis)
    (hm : m ≠ 0) (hlu : inv = .lu → 2 ≤ m) :
    ∃ a, (∀ fuel, n ^ m < fuel →
        primalFromBasis inv.type FirstProfitable fuel P basis = .ok a) ∧
      match a with
      | .infeasible => False
      | .unbounded => P.toLP.Unbounded
      | .finiteOptimum x => P.toLP.Optimal (SVec.val x) ∧ P.toLP.Basic (SVec.val x) := by
  have hdim : LawfulBasisInverse.OkDim inv.type m := by
    cases inv with
    | rows => exact trivial
    | lu => exact hlu rfl
  obtain ⟨carry, h1, h2⟩ := feasibleBasis_start hdim (inv.okInvert hm) hP hb
  have hends : ∀ fuel, n ^ m < fuel →
      primalFromBasis inv.type FirstProfitable fuel P basis ≠ .error .outOfFuel := fun fuel hf =>
    primalFromBasis_ends hdim h1 h2 (by omega) hf.le
  rcases C59_answer inv .firstProfitable (n ^ m + 1) P hP basis hb hm hlu with h | ⟨a, h, ha⟩
  · exact absurd h (hends _ (Nat.lt_succ_self _))
  · exact ⟨a, fun fuel hf => (primalFromBasis_unique (hends _ hf) (hends _ (Nat.lt_succ_self _))).trans h,
      ha⟩

/-- The first and the third column are a feasible basis of the example: `x₀ = 6`, `x₂ = 2`. -/
theorem Example.optimum_basis : Example.optimum.toLP.FeasibleBasis ![0, 2] := by
  refine ⟨Fintype.linearIndependent_iff.2 fun g hg => ?_, ![6, 0, 2, 0],
    ⟨by decide +kernel, by decide +kernel⟩, by decide +kernel⟩
  have h1 := congrFun hg 0
  have h2 := congrFun hg 1
  have e : ∀ i k, Example.optimum.toLP.A i ((![0, 2] : Fin 2 → Fin 4) k) =
      (![![1, 1], ![1, 0]] : Fin 2 → Fin 2 → ℚ) i k := by decide +kernel
  simp only [Fin.sum_univ_two, Pi.add_apply, Pi.smul_apply, Matrix.col_apply, e, smul_eq_mul,
    Pi.zero_apply] at h1 h2
  simp at h1 h2
  rw [h2, zero_add] at h1
  intro i
  fin_cases i
  · exact h2
  · exact h1

example : ∃ a, ∀ fuel, 16 < fuel →
    primalFromBasis LU FirstProfitable fuel Example.optimum ![0, 2] = .ok a :=
  let ⟨a, h, _⟩ := C59_ends .lu _ Example.optimum_ok.wf _ Example.optimum_basis (by decide)
    fun _ => le_rfl
  ⟨a, h⟩

example : primalFromBasis LU FirstProfitable 3 Example.optimum ![0, 2] =
    .ok (.finiteOptimum [(0, 4), (1, 2)]) := by decide +kernel

/-- The basis has to be feasible. The problem `-x₀ = 1`, `x₀ ≥ 0` has no feasible point, but an optimum is
reported if it is started from its only basis. -/
theorem C59_infeasible_basis :
    let P : Provider 1 1 := ⟨fun _ => [(0, -1)], fun _ => 0, fun _ => 1, fun _ _ => []⟩
    primalFromBasis BasisInverseRows FirstProfitable 1 P ![0] = .ok (.finiteOptimum [(0, -1)]) ∧
      P.toLP.Infeasible := by
  refine ⟨by decide +kernel, fun x hx => ?_⟩
  have h1 := congrFun hx.1 0
  have h2 := hx.2 0
  simp [Matrix.mulVec, dotProduct, Provider.toLP, columnsMatrix, SVec.val] at h1
  linarith

/-! ### C60 -/

open Spec.ColumnRange ColumnRange

/-- **C60.** For every matrix with a value in each column and without negative values, the example ends and
prints amounts to subtract from the rows that are allowed, and for which the sum of the column ranges is
the least of all allowed amounts. -/
theorem C60_column_range (input : Input m n) (hn : n ≠ 0) (hvalue : ∀ j, ∃ i v, input i j = some v)
    (hnonneg : ∀ i j v, input i j = some v → 0 ≤ v) :
    ∃ x : Fin m → ℚ,
      (∃ bound, ∀ fuel, bound < fuel → ColumnRange.main fuel input = .ok (List.ofFn x)) ∧
      Allowed input x ∧ ∃ total, TotalRange input x total ∧
        ∀ y total', Allowed input y → TotalRange input y total' → total ≤ total' := by
  obtain ⟨x, h1, h2⟩ := main_spec hn hvalue hnonneg
  exact ⟨x, ⟨_, h1⟩, h2⟩

/-- The program aborts if a column has no value, though its comment asks only for a value in each row. -/
theorem C60_no_value (input : Input m n) (hm : m ≠ 0) (j : Fin n) (h : ∀ i, input i j = none)
    (fuel : ℕ) : ColumnRange.main fuel input = .error .noValue :=
  main_noValue hm h fuel

/-- The matrix of the example. -/
def Example.columns : Input 3 3 :=
  ![![some 3, some 3, some 3], ![none, some 3, some 3], ![some 1, some 2, some 3]]

example : ∃ x : Fin 3 → ℚ,
    (∃ bound, ∀ fuel, bound < fuel → ColumnRange.main fuel Example.columns = .ok (List.ofFn x)) ∧
    Allowed Example.columns x ∧ ∃ total, TotalRange Example.columns x total ∧
      ∀ y total', Allowed Example.columns y → TotalRange Example.columns y total' → total ≤ total' :=
  C60_column_range _ (by decide) (by
    intro j
    refine ⟨0, 3, ?_⟩
    fin_cases j <;> rfl) (by
    intro i j v h
    fin_cases i <;> fin_cases j <;> first | (cases h; done) | (cases h; decide))

/-- A matrix with a single column. -/
example : ColumnRange.main 40 (![![some 3], ![some 1]] : Input 2 1) = .ok [2, 0] := by decide +kernel

/-- Each row has a value, the second column has none. -/
example (fuel : ℕ) :
    ColumnRange.main fuel (![![some 3, none], ![some 1, none]] : Input 2 2) = .error .noValue :=
  C60_no_value _ (by decide) 1 (by decide) fuel

end Relp
