import Verif.Props.Rank
import Mathlib.LinearAlgebra.Matrix.AbsoluteValue

/-!
# C06: a reported optimum is a vertex

A reported optimum is not between two other feasible points, and it has at most as many entries as the rank of the
coefficients. Its values are quotients of integers that are not too large.
-/

namespace Relp

open Matrix Spec

variable {m n : ℕ}

/-- Two feasible points that vanish where the first one, whose columns are independent, vanishes, are equal. -/
theorem eq_of_basic {P : LP m n} {x y : Fin n → ℚ} (hx : P.Feasible x) (hb : P.Basic x) (hy : P.Feasible y)
    (h0 : ∀ j, x j = 0 → y j = 0) : y = x := by
  classical
  have hker : P.A *ᵥ (y - x) = 0 := by rw [mulVec_sub, hx.1, hy.1, sub_self]
  have hsum : ∑ j : {j // x j ≠ 0}, (y j.val - x j.val) • P.A.col j.val = 0 := by
    have h1 : ∀ j ∈ Finset.univ, j ∉ Finset.univ.filter (fun j => x j ≠ 0) → (y j - x j) • P.A.col j = 0 := by
      intro j _ hj
      have : x j = 0 := by simpa using hj
      rw [h0 j this, this, sub_zero, zero_smul]
    have h2 : P.A *ᵥ (y - x) = ∑ j, (y j - x j) • P.A.col j := by
      rw [mulVec_eq_sum]
      refine Finset.sum_congr rfl fun j _ => ?_
      ext i
      exact mul_comm _ _
    rw [← hker, h2, ← Finset.sum_subset (Finset.subset_univ _) h1]
    exact (Finset.sum_subtype _ (fun j => by rw [Finset.mem_filter]; exact and_iff_right (Finset.mem_univ j))
      fun j => (y j - x j) • P.A.col j).symm
  ext j
  by_cases hj : x j = 0
  · rw [h0 j hj, hj]
  · exact sub_eq_zero.1 (Fintype.linearIndependent_iff.1 hb _ hsum ⟨j, hj⟩)

/-- **C06** (vertex): if a reported optimum lies properly between two feasible points, both are equal to it. -/
theorem C06_vertex (inv : InverseName) (rule : RuleName) (fuel : ℕ) (P : Provider m n) (hP : P.Ok)
    (start : InitialBasis m n) (hs : StartOk P start) (x : SVec (Fin n))
    (h : solveRelaxation inv rule fuel P start = .ok (.finiteOptimum x)) (y z : Fin n → ℚ)
    (hy : P.toLP.Feasible y) (hz : P.toLP.Feasible z) (a : ℚ) (ha : 0 < a) (ha' : a < 1)
    (hx : ∀ j, SVec.val x j = a * y j + (1 - a) * z j) : y = SVec.val x ∧ z = SVec.val x := by
  obtain ⟨h1, -, h3⟩ := solveRelaxation_answer hP hs h
  have h4 : 0 < 1 - a := by linarith
  refine ⟨eq_of_basic h1.1 h3 hy fun j hj => ?_, eq_of_basic h1.1 h3 hz fun j hj => ?_⟩
  all_goals
    rw [hx] at hj
    have h5 := mul_nonneg ha.le (hy.2 j)
    have h6 := mul_nonneg h4.le (hz.2 j)
  · exact (mul_eq_zero.1 (by linarith : a * y j = 0)).resolve_left ha.ne'
  · exact (mul_eq_zero.1 (by linarith : (1 - a) * z j = 0)).resolve_left h4.ne'

/-- **C06** (rank): a reported optimum has at most as many entries as the rank of the coefficients. -/
theorem C06_rank (inv : InverseName) (rule : RuleName) (fuel : ℕ) (P : Provider m n) (hP : P.Ok)
    (start : InitialBasis m n) (hs : StartOk P start) (x : SVec (Fin n))
    (h : solveRelaxation inv rule fuel P start = .ok (.finiteOptimum x)) : x.length ≤ P.toLP.A.rank := by
  classical
  obtain ⟨-, h2, h3⟩ := solveRelaxation_answer hP hs h
  have h4 : x.length ≤ Fintype.card {j // SVec.val x j ≠ 0} := by
    have h5 : (x.map (·.1)).Nodup := by
      rw [List.Nodup, List.pairwise_map]
      exact h2.1.imp ne_of_lt
    rw [Fintype.card_subtype, ← List.length_map (·.1), ← List.toFinset_card_of_nodup h5]
    refine Finset.card_le_card fun j hj => ?_
    rw [List.mem_toFinset, List.mem_map] at hj
    obtain ⟨p, hp, rfl⟩ := hj
    rw [Finset.mem_filter]
    exact ⟨Finset.mem_univ _, by rw [SVec.val_of_mem h2 hp]; exact h2.2 p hp⟩
  refine h4.trans ?_
  rw [← finrank_span_eq_card h3, Matrix.rank_eq_finrank_span_cols]
  exact Submodule.finrank_mono (Submodule.span_mono (by rintro _ ⟨j, rfl⟩; exact ⟨j.val, rfl⟩))

/-- Cramer's rule for a point whose columns are independent: as many rows determine it. -/
theorem cramer_of_basic {P : LP m n} {x : Fin n → ℚ} (hx : P.Feasible x) (hb : P.Basic x) :
    ∃ r : {j // x j ≠ 0} → Fin m, r.Injective ∧ (P.A.submatrix r Subtype.val).det ≠ 0 ∧
      ∀ j, (P.A.submatrix r Subtype.val).det * x j.val =
        ((P.A.submatrix r Subtype.val).updateCol j fun k => P.b (r k)).det := by
  classical
  let M : Matrix (Fin m) {j // x j ≠ 0} ℚ := P.A.submatrix id Subtype.val
  have hrank : M.rank = Fintype.card {j // x j ≠ 0} := by
    rw [Matrix.rank_eq_finrank_span_cols]
    exact finrank_span_eq_card hb
  obtain ⟨κ, a, ha, hspan, hli⟩ := exists_linearIndependent' ℚ M.row
  haveI : Fintype κ := Fintype.ofInjective a ha
  have hcard : Fintype.card κ = Fintype.card {j // x j ≠ 0} := by
    rw [← hrank, Matrix.rank_eq_finrank_span_row, ← hspan]
    exact (finrank_span_eq_card hli).symm
  let e : {j // x j ≠ 0} ≃ κ := Fintype.equivOfCardEq hcard.symm
  have hdet : (P.A.submatrix (a ∘ e) Subtype.val : Matrix {j // x j ≠ 0} {j // x j ≠ 0} ℚ).det ≠ 0 := by
    have : LinearIndependent ℚ (P.A.submatrix (a ∘ e) Subtype.val : Matrix {j // x j ≠ 0} {j // x j ≠ 0} ℚ).row :=
      hli.comp e e.injective
    rw [Matrix.linearIndependent_rows_iff_isUnit, Matrix.isUnit_iff_isUnit_det] at this
    exact this.ne_zero
  refine ⟨a ∘ e, ha.comp e.injective, hdet, fun j => ?_⟩
  have hmul : (P.A.submatrix (a ∘ e) Subtype.val : Matrix {j // x j ≠ 0} {j // x j ≠ 0} ℚ) *ᵥ
      (fun j => x j.val) = fun k => P.b ((a ∘ e) k) := by
    ext k
    rw [← hx.1]
    change ∑ j : {j // x j ≠ 0}, P.A ((a ∘ e) k) j.val * x j.val = ∑ j, P.A ((a ∘ e) k) j * x j
    rw [← Finset.sum_subset (Finset.subset_univ (Finset.univ.filter fun j => x j ≠ 0)) fun j _ hj => ?_]
    · exact (Finset.sum_subtype _ (fun j => by rw [Finset.mem_filter]; exact and_iff_right (Finset.mem_univ j))
        fun j => P.A ((a ∘ e) k) j * x j).symm
    · have : x j = 0 := by simpa using hj
      rw [this, mul_zero]
  rw [← hmul, ← Matrix.cramer_apply, Matrix.cramer_eq_adjugate_mulVec, mulVec_mulVec, Matrix.adjugate_mul,
    smul_mulVec, one_mulVec]
  rfl

/-- The determinant of a matrix of small integers is an integer that is not too large. -/
theorem det_integer {ι : Type} [Fintype ι] [DecidableEq ι] (M : Matrix ι ι ℚ) (bound : ℕ)
    (h : ∀ i j, ∃ z : ℤ, M i j = z ∧ |z| ≤ bound) :
    ∃ z : ℤ, M.det = z ∧ |z| ≤ (Fintype.card ι).factorial * bound ^ Fintype.card ι := by
  choose f hf hb using h
  refine ⟨(Matrix.of f).det, ?_, ?_⟩
  · rw [Int.cast_det]
    congr 1
    ext i j
    exact hf i j
  · have := Matrix.det_le (abv := AbsoluteValue.abs) (A := Matrix.of f) (x := (bound : ℤ)) fun i j => hb i j
    simpa [nsmul_eq_mul] using this

/-- **C06** (size of the numbers): if the coefficients and right-hand sides are integers with absolute values of at
most `bound`, then the values of a reported optimum are quotients of integers from `0` to `r! * bound ^ r`, where `r` is
the rank of the coefficients, with a common denominator. -/
theorem C06_size (inv : InverseName) (rule : RuleName) (fuel : ℕ) (P : Provider m n) (hP : P.Ok)
    (start : InitialBasis m n) (hs : StartOk P start) (x : SVec (Fin n))
    (h : solveRelaxation inv rule fuel P start = .ok (.finiteOptimum x)) (bound : ℕ) (hbound : 1 ≤ bound)
    (hA : ∀ i j, ∃ z : ℤ, P.toLP.A i j = z ∧ |z| ≤ bound) (hb : ∀ i, ∃ z : ℤ, P.toLP.b i = z ∧ |z| ≤ bound) :
    let limit : ℕ := P.toLP.A.rank.factorial * bound ^ P.toLP.A.rank
    ∃ q : ℤ, 0 < q ∧ q ≤ limit ∧ ∀ j, ∃ p : ℤ, 0 ≤ p ∧ p ≤ limit ∧ SVec.val x j = p / q := by
  classical
  intro limit
  obtain ⟨h1, h2, h3⟩ := solveRelaxation_answer hP hs h
  obtain ⟨r, -, hdet, hcramer⟩ := cramer_of_basic h1.1 h3
  have hcard : Fintype.card {j // SVec.val x j ≠ 0} ≤ P.toLP.A.rank := by
    rw [← finrank_span_eq_card h3, Matrix.rank_eq_finrank_span_cols]
    exact Submodule.finrank_mono (Submodule.span_mono (by rintro _ ⟨j, rfl⟩; exact ⟨j.val, rfl⟩))
  have hlimit : ((Fintype.card {j // SVec.val x j ≠ 0}).factorial *
      (bound : ℤ) ^ Fintype.card {j // SVec.val x j ≠ 0}) ≤ limit := by
    have := Nat.mul_le_mul (Nat.factorial_le hcard) (Nat.pow_le_pow_right hbound hcard)
    exact_mod_cast this
  obtain ⟨d, hd, hd'⟩ := det_integer (P.toLP.A.submatrix r Subtype.val) bound fun i j => hA _ _
  have hd0 : d ≠ 0 := by
    rintro rfl
    exact hdet (by rw [hd, Int.cast_zero])
  have hq : 0 < |d| := abs_pos.2 hd0
  refine ⟨|d|, hq, hd'.trans hlimit, fun j => ?_⟩
  by_cases hj : SVec.val x j = 0
  · exact ⟨0, le_rfl, Int.natCast_nonneg _, by simp [hj]⟩
  · obtain ⟨p, hp, hp'⟩ := det_integer
      ((P.toLP.A.submatrix r Subtype.val).updateCol ⟨j, hj⟩ fun k => P.toLP.b (r k)) bound fun i k => by
        by_cases hk : k = ⟨j, hj⟩
        · subst hk
          rw [updateCol_self]
          exact hb _
        · rw [updateCol_ne hk]
          exact hA _ _
    refine ⟨|p|, abs_nonneg _, hp'.trans hlimit, ?_⟩
    have h4 := hcramer ⟨j, hj⟩
    rw [hd, hp] at h4
    have h5 : |(d : ℚ)| * SVec.val x j = |(p : ℚ)| := by
      rw [← h4, abs_mul, abs_of_nonneg (h1.1.2 j)]
    have h6 : |(d : ℚ)| ≠ 0 := abs_ne_zero.2 (by exact_mod_cast hd0)
    push_cast
    rw [eq_div_iff h6, mul_comm]
    exact h5

/-- The example has an optimum with two entries, so its rank is at least two. -/
example : 2 ≤ Example.optimum.toLP.A.rank :=
  C06_rank .rows _ _ _ Example.optimum_ok .none trivial _ Example.optimum_solved

/-- The numbers of the example are at most 8, so those of its optimum have a common denominator of at most 128. -/
example : ∃ q : ℤ, 0 < q ∧ q ≤ 128 ∧ ∀ j, ∃ p : ℤ, 0 ≤ p ∧ p ≤ 128 ∧
    SVec.val [((0 : Fin 4), (4 : ℚ)), (1, 2)] j = p / q := by
  have hrank : Example.optimum.toLP.A.rank = 2 := le_antisymm Example.optimum.toLP.A.rank_le_height
    (C06_rank .rows _ _ _ Example.optimum_ok .none trivial _ Example.optimum_solved)
  have hA : ∀ i j, Example.optimum.toLP.A i j = (![![1, 2, 1, 0], ![1, 1, 0, 1]] i j : ℤ) := by
    intro i j
    revert j
    fin_cases i <;> decide +kernel
  have hA' : ∀ (i : Fin 2) (j : Fin 4), |(![![1, 2, 1, 0], ![1, 1, 0, 1]] i j : ℤ)| ≤ (8 : ℕ) := by decide +kernel
  have hb : ∀ i, Example.optimum.toLP.b i = ((Example.optimum.toLP.b i).num : ℤ) ∧
      |(Example.optimum.toLP.b i).num| ≤ (8 : ℕ) := by decide +kernel
  have := C06_size .rows _ _ _ Example.optimum_ok .none trivial _ Example.optimum_solved 8 (by norm_num)
    (fun i j => ⟨_, hA i j, hA' i j⟩) fun i => ⟨_, hb i⟩
  rw [hrank] at this
  exact this

/-- The optimum of the example is not between two other feasible points. -/
example (y z : Fin 4 → ℚ) (hy : Example.optimum.toLP.Feasible y) (hz : Example.optimum.toLP.Feasible z)
    (h : ∀ j, SVec.val [((0 : Fin 4), (4 : ℚ)), (1, 2)] j = 1 / 3 * y j + (1 - 1 / 3) * z j) : y = z :=
  have := C06_vertex .rows _ _ _ Example.optimum_ok .none trivial _ Example.optimum_solved y z hy hz (1 / 3)
    (by norm_num) (by norm_num) h
  this.1.trans this.2.symm

end Relp
