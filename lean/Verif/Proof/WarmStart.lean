import Verif.Proof.Termination
import Verif.Proof.Full
import Verif.Spec.ColumnRange
import Mathlib.LinearAlgebra.Matrix.NonsingularInverse
import Mathlib.LinearAlgebra.Matrix.Nondegenerate
import Mathlib.LinearAlgebra.Matrix.ToLinearEquiv

/-!
# Starting from a given basis
-/

namespace Relp

open Matrix LawfulBasisInverse

variable {m n : ℕ} {BI : ℕ → Type} [BasisInverse BI] [LawfulBasisInverse BI]

/-- A basis of which the matrix is injective and for which the system has a non-negative solution. -/
theorem fromBasis_start (hm : OkDim BI m) (hi : OkInvert BI m) {P : Provider m n}
    (hP : ∀ j, SVec.WF (P.column j)) {basis : Fin m → Fin n}
    (hinj : ∀ g, columnsMatrix (fun i => P.column (basis i)) *ᵥ g = 0 → g = 0)
    {y : Fin m → ℚ} (hy : columnsMatrix (fun i => P.column (basis i)) *ᵥ y = P.rhs)
    (hnn : ∀ i, 0 ≤ y i) :
    ∃ carry : Carry BI m n, Carry.fromBasis P basis = .ok carry ∧
      PhaseTwoStart P (⟨carry, Finset.univ.image basis, Tableau.nonArtificialKind P⟩ :
        Tableau BI m n) := by
  have hu : IsUnit (columnsMatrix (fun i => P.column (basis i))) := by
    rw [← Matrix.mulVec_injective_iff_isUnit]
    intro a b hab
    have := hinj (a - b) (by rw [Matrix.mulVec_sub]; exact sub_eq_zero.2 hab)
    exact sub_eq_zero.1 this
  have hM : (columnsMatrix (fun i => P.column (basis i)))⁻¹ *
      columnsMatrix (fun i => P.column (basis i)) = 1 :=
    Matrix.nonsing_inv_mul _ ((Matrix.isUnit_iff_isUnit_det _).1 hu)
  obtain ⟨carry, h1, h2⟩ := fromBasis_spec (BI := BI) hm hi hP hM rfl
  refine ⟨carry, h1, rfl, ⟨_, h2⟩, fun i => ?_⟩
  have h3 := h2.b_eq
  rw [← hy, Matrix.mulVec_mulVec, hM, Matrix.one_mulVec] at h3
  change 0 ≤ carry.b i
  rw [show carry.b = y from h3]
  exact hnn i

theorem feasibleBasis_start (hm : OkDim BI m) (hi : OkInvert BI m) {P : Provider m n}
    (hP : ∀ j, SVec.WF (P.column j)) {basis : Fin m → Fin n} (hb : P.toLP.FeasibleBasis basis) :
    ∃ carry : Carry BI m n, Carry.fromBasis P basis = .ok carry ∧
      PhaseTwoStart P (⟨carry, Finset.univ.image basis, Tableau.nonArtificialKind P⟩ :
        Tableau BI m n) := by
  obtain ⟨hli, x, hx, hz⟩ := hb
  have hbi : Function.Injective basis := fun a b hab => hli.injective (by simp only [hab])
  refine fromBasis_start hm hi hP (y := fun i => x (basis i)) (fun g hg => ?_) ?_ fun i => hx.2 _
  · refine funext ((Fintype.linearIndependent_iff.1 hli) g ?_)
    rw [← hg]
    funext r
    rw [Matrix.mulVec, dotProduct, Finset.sum_apply]
    refine Finset.sum_congr rfl fun k _ => ?_
    rw [Pi.smul_apply, smul_eq_mul, mul_comm]
    rfl
  · rw [show P.rhs = P.toLP.b from rfl, ← hx.1]
    funext r
    rw [Matrix.mulVec, Matrix.mulVec, dotProduct, dotProduct]
    symm
    rw [← Finset.sum_subset (Finset.subset_univ (Finset.univ.image basis)),
      Finset.sum_image (fun a _ b _ hab => hbi hab)]
    · rfl
    · intro j _ hj
      rw [hz j, mul_zero]
      intro i hc
      exact hj (Finset.mem_image.2 ⟨i, Finset.mem_univ _, hc⟩)

/-- The outcome. -/
theorem primalFromBasis_spec {R : ℕ → Type} [PivotRule R] [LawfulRule R] (hm : OkDim BI m)
    (fuel : ℕ) {P : Provider m n} {basis : Fin m → Fin n} {carry : Carry BI m n}
    (h1 : Carry.fromBasis P basis = .ok carry)
    (h2 : PhaseTwoStart P (⟨carry, Finset.univ.image basis, Tableau.nonArtificialKind P⟩ :
        Tableau BI m n)) :
    primalFromBasis BI R fuel P basis = .error .outOfFuel ∨
      ∃ a, primalFromBasis BI R fuel P basis = .ok a ∧ a ≠ .infeasible ∧ Answer P.toLP a := by
  unfold primalFromBasis
  rw [h1]
  exact phaseTwo_spec (R := R) hm fuel h2

theorem primalFromBasis_ends (hm : OkDim BI m) {P : Provider m n} {basis : Fin m → Fin n}
    {carry : Carry BI m n} (h1 : Carry.fromBasis P basis = .ok carry)
    (h2 : PhaseTwoStart P (⟨carry, Finset.univ.image basis, Tableau.nonArtificialKind P⟩ :
        Tableau BI m n)) {fuel : ℕ} (hpos : 0 < fuel) (hf : n ^ m ≤ fuel) :
    primalFromBasis BI FirstProfitable fuel P basis ≠ .error .outOfFuel := by
  unfold primalFromBasis
  rw [h1]
  exact Bounded.phaseTwo hm h2 (firstProfitable_bounded _ _) hpos (max_le hpos ((Nat.choose_le_pow n m).trans hf))

end Relp
