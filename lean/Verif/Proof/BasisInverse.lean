import Verif.Spec.BasisInverse
import Verif.Proof.Rows
import Verif.Proof.LUInvert
import Verif.Proof.Sim

/-!
# Histories of the basis inverse representations
-/

namespace Relp

open Matrix BasisInverse Spec

variable {m : ℕ}

theorem row_vecMul {M B : Matrix (Fin m) (Fin m) ℚ} (hB : M * B = 1) (i : Fin m) :
    (M i : Fin m → ℚ) ᵥ* B = Pi.single i 1 := by
  have h : (M i : Fin m → ℚ) ᵥ* B = (M * B) i := rfl
  rw [h, hB]
  ext j
  simp [Matrix.one_apply, Pi.single_apply, eq_comm]

theorem BasisInverseRows.Rep.inverts {bi : BasisInverseRows m} {M B : Matrix (Fin m) (Fin m) ℚ}
    (h : Rep bi M) (hB : M * B = 1) : InvertsBasis bi B := by
  have hB' : B * M = 1 := mul_eq_one_comm.1 hB
  refine ⟨⟨M, hB⟩, ?_, ?_, ?_, ?_⟩
  · intro column hc
    obtain ⟨info, h1, h2, h3⟩ := LawfulBasisInverse.left_ok (BI := BasisInverseRows) trivial h hc
    exact ⟨info, h1, h2, by rw [h3, mulVec_mulVec, hB', one_mulVec]⟩
  · intro row hr hne
    obtain ⟨x, h1, h2, h3⟩ := h.right hr hne
    exact ⟨x, h1, h2, by rw [h3, vecMul_vecMul, hB, vecMul_one]⟩
  · intro i
    refine ⟨bi.rows i, rfl, h.wf i, ?_⟩
    rw [h.val i]; exact row_vecMul hB i
  · intro column hc i
    refine ⟨M *ᵥ SVec.val column, by rw [mulVec_mulVec, hB', one_mulVec], ?_⟩
    exact congrArg Except.ok (h.element i column)

theorem LU.Rep.inverts {lu : LU m} {M B : Matrix (Fin m) (Fin m) ℚ}
    (h : Rep lu M) (hB : M * B = 1) : InvertsBasis lu B := by
  have hB' : B * M = 1 := mul_eq_one_comm.1 hB
  refine ⟨⟨M, hB⟩, ?_, ?_, ?_, ?_⟩
  · intro column hc
    obtain ⟨info, h1, h2, -, h3, -⟩ := h.left hc
    refine ⟨info, h1, h2, ?_⟩
    change B *ᵥ SVec.val info.column = _
    rw [h3, mulVec_mulVec, hB', one_mulVec]
  · intro row hr hne
    obtain ⟨x, h1, h2, h3⟩ := h.right hr
    exact ⟨x, h1, h2, by rw [h3, vecMul_vecMul, hB, vecMul_one]⟩
  · intro i
    obtain ⟨x, h1, h2, h3⟩ := h.row i
    refine ⟨x, h1, h2, ?_⟩
    rw [h3]; exact row_vecMul hB i
  · intro column hc i
    exact ⟨M *ᵥ SVec.val column, by rw [mulVec_mulVec, hB', one_mulVec], h.element hc i⟩

theorem BasisInverseRows.history_rep {bi : BasisInverseRows m} {B : Matrix (Fin m) (Fin m) ℚ}
    (h : History bi B) : ∃ M, Rep bi M ∧ M * B = 1 := by
  induction h with
  | identity h =>
    obtain rfl := Except.ok.inj h
    exact ⟨1, identity_rep, by simp⟩
  | @invert bi columns hc hM hbi =>
    obtain ⟨M, hM⟩ := hM
    by_cases hm : m = 0
    · subst hm
      exact ⟨1, ⟨fun i => i.elim0, fun i => i.elim0⟩, by ext i; exact i.elim0⟩
    obtain ⟨bi', h1, h2⟩ := invert_rep hm hc hM
    rw [show BasisInverse.invert columns = invert columns from rfl, h1] at hbi
    obtain rfl := Except.ok.inj hbi
    exact ⟨M, h2, hM⟩
  | @change bi bi' B column info p _ _ hc hi hp hch ih =>
    obtain ⟨M, h1, h2⟩ := ih
    obtain ⟨info', i1, i2, i3⟩ := LawfulBasisInverse.left_ok (BI := BasisInverseRows) trivial h1 hc
    rw [hi] at i1
    obtain rfl := Except.ok.inj i1
    obtain ⟨bi'', c1, c2⟩ := h1.change (column := info) i2 hp
    obtain rfl := (Prod.mk.inj (Except.ok.inj (c1.symm.trans hch))).1
    have i3' : SVec.val info = M *ᵥ SVec.val column := i3
    rw [i3'] at c2
    refine ⟨_, c2, pivotUpdate_mul h2 _ p ?_⟩
    rw [← i3']; exact hp

theorem LU.history_rep (hm : 2 ≤ m) {lu : LU m} {B : Matrix (Fin m) (Fin m) ℚ}
    (h : History lu B) : ∃ M, Rep lu M ∧ M * B = 1 := by
  induction h with
  | identity h =>
    obtain ⟨lu', h1, h2⟩ := identity_rep (m := m) (by omega)
    rw [show BasisInverse.identity m = LU.identity m from rfl, h1] at h
    obtain rfl := Except.ok.inj h
    exact ⟨1, h2, by simp⟩
  | @invert bi columns hc hM hbi =>
    obtain ⟨M, hM⟩ := hM
    obtain ⟨bi', h1, h2, -⟩ := invert_rep (by omega) hc hM
    rw [show BasisInverse.invert columns = invert columns from rfl, h1] at hbi
    obtain rfl := Except.ok.inj hbi
    exact ⟨M, h2, hM⟩
  | @change bi bi' B column info p _ _ hc hi hp hch ih =>
    obtain ⟨M, h1, h2⟩ := ih
    obtain ⟨info', i1, i2, -, i3, -⟩ := h1.left hc
    obtain rfl := Except.ok.inj (i1.symm.trans hi)
    have hp' : (M *ᵥ SVec.val column) p ≠ 0 := by rw [← i3]; exact hp
    obtain ⟨bi'', c1, -, c2, -⟩ := h1.change hm hc hi hp'
    obtain rfl := (Prod.mk.inj (Except.ok.inj (c1.symm.trans hch))).1
    exact ⟨_, c2, pivotUpdate_mul h2 _ p hp'⟩

end Relp
