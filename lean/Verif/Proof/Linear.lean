import Mathlib.LinearAlgebra.Matrix.NonsingularInverse
import Mathlib.LinearAlgebra.Matrix.RowCol
import Mathlib.Data.Matrix.Mul
import Mathlib.Algebra.BigOperators.Field
import Mathlib.Algebra.Order.Ring.Rat
import Mathlib.Tactic.Ring
import Mathlib.Tactic.Linarith
import Mathlib.Tactic.FieldSimp
import Mathlib.Tactic.LinearCombination

/-! # Linear algebra of a basis change -/

namespace Relp

open Matrix

variable {m : ℕ}

/-- Row reduction of `M` with the pivot `α p`. -/
def pivotUpdate (M : Matrix (Fin m) (Fin m) ℚ) (α : Fin m → ℚ) (p : Fin m) :
    Matrix (Fin m) (Fin m) ℚ :=
  Matrix.of fun i k => if i = p then M p k / α p else M i k - α i * (M p k / α p)

theorem pivotUpdate_pivot (M : Matrix (Fin m) (Fin m) ℚ) (α : Fin m → ℚ) (p : Fin m) :
    pivotUpdate M α p p = fun k => M p k / α p := by
  ext k; simp [pivotUpdate]

theorem pivotUpdate_other (M : Matrix (Fin m) (Fin m) ℚ) (α : Fin m → ℚ) {p i : Fin m}
    (h : i ≠ p) :
    pivotUpdate M α p i = fun k => M i k - α i * pivotUpdate M α p p k := by
  ext k; simp [pivotUpdate, h]

/-- Uniform description of the rows after the change. -/
theorem pivotUpdate_row (M : Matrix (Fin m) (Fin m) ℚ) (α : Fin m → ℚ) {p : Fin m}
    (hp : α p ≠ 0) (i : Fin m) (k : Fin m) :
    pivotUpdate M α p i k
      = M i k - α i * pivotUpdate M α p p k + if i = p then pivotUpdate M α p p k else 0 := by
  by_cases h : i = p
  · subst h
    simp only [pivotUpdate, of_apply, if_true]
    field_simp
    ring
  · simp [pivotUpdate, h]

theorem pivotUpdate_mulVec_pivot (M : Matrix (Fin m) (Fin m) ℚ) (α : Fin m → ℚ) (p : Fin m)
    (v : Fin m → ℚ) : (pivotUpdate M α p *ᵥ v) p = (M *ᵥ v) p / α p := by
  simp only [mulVec, pivotUpdate_pivot, dotProduct, Finset.sum_div]
  exact Finset.sum_congr rfl fun k _ => by ring

theorem pivotUpdate_mulVec_other (M : Matrix (Fin m) (Fin m) ℚ) (α : Fin m → ℚ) {p i : Fin m}
    (h : i ≠ p) (v : Fin m → ℚ) :
    (pivotUpdate M α p *ᵥ v) i = (M *ᵥ v) i - α i * ((M *ᵥ v) p / α p) := by
  simp only [mulVec, pivotUpdate_pivot, pivotUpdate_other M α h, dotProduct, Finset.sum_div,
    Finset.mul_sum, ← Finset.sum_sub_distrib]
  exact Finset.sum_congr rfl fun k _ => by ring

/-- The row reduction inverts the basis matrix in which column `p` was replaced. -/
theorem pivotUpdate_mul {M B : Matrix (Fin m) (Fin m) ℚ} (h : M * B = 1) (a : Fin m → ℚ)
    (p : Fin m) (hp : (M *ᵥ a) p ≠ 0) :
    pivotUpdate M (M *ᵥ a) p * B.updateCol p a = 1 := by
  have key : ∀ k v, (∀ i, B.updateCol p a i k = v i) → ∀ i,
      (pivotUpdate M (M *ᵥ a) p * B.updateCol p a) i k = (pivotUpdate M (M *ᵥ a) p *ᵥ v) i := by
    intro k v hv i
    simp only [mul_apply, mulVec, dotProduct, hv]
  ext i k
  by_cases hk : k = p
  · subst hk
    rw [key k a (by simp)]
    by_cases hi : i = k
    · subst hi
      rw [pivotUpdate_mulVec_pivot, div_self hp]; simp
    · rw [pivotUpdate_mulVec_other _ _ hi, div_self hp]; simp [hi]
  · rw [key k (fun i => B i k) (by simp [hk])]
    have hB : ∀ i, (M *ᵥ fun i => B i k) i = (1 : Matrix (Fin m) (Fin m) ℚ) i k := by
      intro i
      rw [← h]; rfl
    by_cases hi : i = p
    · subst hi
      rw [pivotUpdate_mulVec_pivot, hB]; simp [Ne.symm hk]
    · rw [pivotUpdate_mulVec_other _ _ hi, hB, hB, Matrix.one_apply_ne (Ne.symm hk : p ≠ k)]; simp

/-- Multiplication of a row vector with the reduced matrix. -/
theorem vecMul_pivotUpdate (M : Matrix (Fin m) (Fin m) ℚ) (α : Fin m → ℚ) {p : Fin m}
    (hp : α p ≠ 0) (c : Fin m → ℚ) (d : ℚ) (k : Fin m) :
    (Function.update c p d ᵥ* pivotUpdate M α p) k
      = (c ᵥ* M) k + (d - c ⬝ᵥ α) * pivotUpdate M α p p k := by
  have h1 : ∀ i, Function.update c p d i * pivotUpdate M α p i k
      = c i * M i k - c i * α i * pivotUpdate M α p p k
        + if i = p then d * pivotUpdate M α p p k else 0 := by
    intro i
    by_cases hi : i = p
    · subst hi
      have : M i k = α i * pivotUpdate M α i i k := by
        simp only [pivotUpdate, of_apply, if_true]; field_simp
      simp [this]; ring
    · rw [Function.update_of_ne hi, pivotUpdate_row M α hp i k]; simp [hi]; ring
  simp only [vecMul, dotProduct, h1, Finset.sum_add_distrib, Finset.sum_sub_distrib,
    Finset.sum_ite_eq', Finset.mem_univ, if_true, ← Finset.sum_mul]
  ring

end Relp
