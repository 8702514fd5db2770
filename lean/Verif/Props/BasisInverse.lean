import Verif.Proof.BasisInverse
import Verif.Proof.Relaxation
import Mathlib.Tactic.FinCases
import Mathlib.Tactic.NormNum
import Mathlib.LinearAlgebra.Matrix.Notation

/-!
# Properties of the basis inverse representations

C14, C15, C16 and C17. The specification is in `Verif/Spec/BasisInverse.lean`: `InvertsBasis bi B`
says that all the questions that the solver asks are answered as the inverse of `B` would, `History`
collects all sequences of basis changes.
-/

namespace Relp

open Matrix BasisInverse Spec

variable {m : ℕ}

/-! ### C14 -/

/-- **C14.** After any history of basis changes, in any dimension, the row-wise representation
answers exactly as the inverse of the current basis matrix. -/
theorem C14_rows_exact (bi : BasisInverseRows m) (B : Matrix (Fin m) (Fin m) ℚ)
    (h : History bi B) : InvertsBasis bi B := by
  obtain ⟨M, h1, h2⟩ := BasisInverseRows.history_rep h
  exact h1.inverts h2

/-- **C14.** Histories of the row-wise representation never get stuck: it starts, and each basis
change with a nonzero pivot succeeds and gives back the column that was computed. -/
theorem C14_rows_progress : (∃ bi : BasisInverseRows m, identity m = .ok bi) ∧
    ∀ (bi : BasisInverseRows m) (B : Matrix (Fin m) (Fin m) ℚ), History bi B →
    ∀ column info, SVec.WF column → leftMultiply bi column = .ok info →
    ∀ p, SVec.val (infoColumn info) p ≠ 0 →
    ∃ bi', changeBasis bi p info = .ok (bi', infoColumn info) := by
  refine ⟨⟨_, rfl⟩, ?_⟩
  intro bi B h column info hc hi p hp
  obtain ⟨M, h1, -⟩ := BasisInverseRows.history_rep h
  obtain ⟨info', i1, i2, i3⟩ := LawfulBasisInverse.left_ok (BI := BasisInverseRows) trivial h1 hc
  obtain rfl := Except.ok.inj (hi.symm.trans i1)
  obtain ⟨bi', c1, -⟩ := h1.change (column := info) i2 hp
  exact ⟨bi', c1⟩

/-! ### C15 -/

/-- **C15.** Factorising a nonsingular matrix of any positive dimension succeeds, and the result
answers exactly as the inverse of that matrix. -/
theorem C15_factorisation_exact (hm : m ≠ 0) (columns : Fin m → Sparse m)
    (hc : ∀ i, SVec.WF (columns i)) (hM : ∃ M, M * columnsMatrix columns = 1) :
    ∃ lu : LU m, invert columns = .ok lu ∧ InvertsBasis lu (columnsMatrix columns) := by
  obtain ⟨M, hM⟩ := hM
  obtain ⟨lu, h1, h2, -⟩ := LU.invert_rep hm hc hM
  exact ⟨lu, h1, h2.inverts hM⟩

/-! ### C16 -/

/-- **C16.** After any history of basis changes, in any dimension from two on, the LU representation
with its updates answers exactly as the inverse of the current basis matrix. -/
theorem C16_lu_exact (hm : 2 ≤ m) (lu : LU m) (B : Matrix (Fin m) (Fin m) ℚ)
    (h : History lu B) : InvertsBasis lu B := by
  obtain ⟨M, h1, h2⟩ := LU.history_rep hm h
  exact h1.inverts h2

/-- **C16.** Histories of the LU representation never get stuck in these dimensions: it starts, and
each basis change with a nonzero pivot succeeds and gives back the column that was computed. -/
theorem C16_lu_progress (hm : 2 ≤ m) : (∃ lu : LU m, identity m = .ok lu) ∧
    ∀ (lu : LU m) (B : Matrix (Fin m) (Fin m) ℚ), History lu B →
    ∀ column info, SVec.WF column → leftMultiply lu column = .ok info →
    ∀ p, SVec.val (infoColumn info) p ≠ 0 →
    ∃ lu', changeBasis lu p info = .ok (lu', infoColumn info) := by
  refine ⟨?_, ?_⟩
  · obtain ⟨lu, h, -⟩ := LU.identity_rep (m := m) (by omega)
    exact ⟨lu, h⟩
  intro lu B h column info hc hi p hp
  obtain ⟨M, h1, -⟩ := LU.history_rep hm h
  obtain ⟨info', i1, i2, -, i3, -⟩ := h1.left hc
  obtain rfl := Except.ok.inj (i1.symm.trans hi)
  obtain ⟨lu', c1, -⟩ := h1.change hm hc hi (p := p) (by rw [← i3]; exact hp)
  exact ⟨lu', c1⟩

/-! Two columns of the identity of dimension three are replaced, with both representations. The
entering columns are `(2, 3, 0)` and `(1, 1, 1)`. -/

namespace ExampleBasis

def first : Sparse 3 := [(0, 2), (1, 3)]

def second : Sparse 3 := [(0, 1), (1, 1), (2, 1)]

theorem first_wf : SVec.WF first := by
  refine ⟨by decide, ?_⟩
  intro p hp
  simp only [first, List.mem_cons, List.not_mem_nil, or_false] at hp
  rcases hp with rfl | rfl <;> norm_num

theorem second_wf : SVec.WF second := by
  refine ⟨by decide, ?_⟩
  intro p hp
  simp only [second, List.mem_cons, List.not_mem_nil, or_false] at hp
  rcases hp with rfl | rfl | rfl <;> norm_num

/-- In any representation that is exact and makes progress, the two changes form a history. -/
theorem history {BI : ℕ → Type} [BasisInverse BI]
    (hexact : ∀ (bi : BI 3) (B : Matrix (Fin 3) (Fin 3) ℚ), History bi B → InvertsBasis bi B)
    (hstart : ∃ bi : BI 3, identity 3 = .ok bi)
    (hprogress : ∀ (bi : BI 3) (B : Matrix (Fin 3) (Fin 3) ℚ), History bi B →
      ∀ column info, SVec.WF column → leftMultiply bi column = .ok info →
      ∀ p, SVec.val (infoColumn info) p ≠ 0 →
      ∃ bi', changeBasis bi p info = .ok (bi', infoColumn info)) :
    ∃ bi : BI 3, History bi (((1 : Matrix (Fin 3) (Fin 3) ℚ).updateCol 0 (SVec.val first)).updateCol
      1 (SVec.val second)) := by
  obtain ⟨bi, h⟩ := hstart
  have h0 : History bi 1 := .identity h
  obtain ⟨info, i1, -, i3⟩ := (hexact _ _ h0).column first first_wf
  rw [one_mulVec] at i3
  have hp : SVec.val (infoColumn info) 0 ≠ 0 := by rw [i3]; decide +kernel
  obtain ⟨bi1, c⟩ := hprogress _ _ h0 first info first_wf i1 0 hp
  have h1 := History.change h0 first_wf i1 hp c
  obtain ⟨info2, j1, -, j3⟩ := (hexact _ _ h1).column second second_wf
  have hp2 : SVec.val (infoColumn info2) 1 ≠ 0 := by
    intro h0
    have e0 := congrFun j3 0
    have e1 := congrFun j3 1
    have f0 : SVec.val first 0 = 2 := by decide +kernel
    have f1 : SVec.val first 1 = 3 := by decide +kernel
    have s0 : SVec.val second 0 = 1 := by decide +kernel
    have s1 : SVec.val second 1 = 1 := by decide +kernel
    simp [mulVec, dotProduct, Fin.sum_univ_three, updateCol_apply, f0, f1, s0, s1, h0,
      Matrix.one_apply] at e0 e1
    rw [show SVec.val (infoColumn info2) 0 = 1 / 2 by linarith] at e1
    norm_num at e1
  obtain ⟨bi2, c2⟩ := hprogress _ _ h1 second info2 second_wf j1 1 hp2
  exact ⟨bi2, .change h1 second_wf j1 hp2 c2⟩

example : ∃ bi : BasisInverseRows 3, History bi
    (((1 : Matrix (Fin 3) (Fin 3) ℚ).updateCol 0 (SVec.val first)).updateCol 1 (SVec.val second)) :=
  history C14_rows_exact C14_rows_progress.1 C14_rows_progress.2

example : ∃ lu : LU 3, History lu
    (((1 : Matrix (Fin 3) (Fin 3) ℚ).updateCol 0 (SVec.val first)).updateCol 1 (SVec.val second)) :=
  history (C16_lu_exact (by omega)) (C16_lu_progress (by omega)).1 (C16_lu_progress (by omega)).2

/-- The matrix with columns `(0, 2)` and `(3, 1)` meets the hypotheses of C15. -/
example : ∃ lu : LU 2, invert ![[(1, 2)], [(0, 3), (1, 1)]] = .ok lu ∧
    InvertsBasis lu (columnsMatrix ![[(1, 2)], [(0, 3), (1, 1)]]) := by
  refine C15_factorisation_exact (by omega) _ ?_ ⟨!![-1/6, 1/2; 1/3, 0], ?_⟩
  · intro i
    refine ⟨?_, ?_⟩ <;> fin_cases i <;> simp
  · decide +kernel

end ExampleBasis

/-! ### C17 -/

/-- **C17**, the dimensions for which it holds: from two on, every basis change with a nonzero pivot
succeeds. Missing from the full statement is dimension one, where it is false:
`C17_single_row_panics`. -/
theorem C17_lu_dimensions_partial (hm : 2 ≤ m) (lu : LU m) (B : Matrix (Fin m) (Fin m) ℚ)
    (h : History lu B) (column : Sparse m) (info : Info LU m) (hc : SVec.WF column)
    (hi : leftMultiply lu column = .ok info) (p : Fin m) (hp : SVec.val (infoColumn info) p ≠ 0) :
    ∃ lu', changeBasis lu p info = .ok (lu', infoColumn info) :=
  (C16_lu_progress hm).2 lu B h column info hc hi p hp

/-- Negation of **C17**: in dimension one, the LU representation starts, but then panics at each and
every basis change. -/
theorem C17_single_row_panics : (∃ lu : LU 1, identity 1 = .ok lu) ∧
    ∀ (lu : LU 1) (B : Matrix (Fin 1) (Fin 1) ℚ), History lu B → ∀ (p : Fin 1) (info : Info LU 1),
      changeBasis lu p info = .error (.panic .indexOutOfBounds) := by
  refine ⟨?_, ?_⟩
  · obtain ⟨lu, h, -⟩ := LU.identity_rep (m := 1) (by omega)
    exact ⟨lu, h⟩
  intro lu B h p info
  have hrep : ∃ M, LU.Rep lu M := by
    induction h with
    | identity h =>
      obtain ⟨lu', h1, h2⟩ := LU.identity_rep (m := 1) (by omega)
      obtain rfl := Except.ok.inj (h1.symm.trans h)
      exact ⟨1, h2⟩
    | @invert bi columns hc hM hbi =>
      obtain ⟨M, hM⟩ := hM
      obtain ⟨bi', h1, h2, -⟩ := LU.invert_rep (by omega) hc hM
      obtain rfl := Except.ok.inj (h1.symm.trans hbi)
      exact ⟨M, h2⟩
    | @change bi bi' B column info p _ _ _ _ _ hch ih =>
      obtain ⟨M, h1⟩ := ih
      have := LU.changeBasis_small (by omega) h1 p info
      exact absurd (this.symm.trans hch) (by simp [panic])
  obtain ⟨M, hM⟩ := hrep
  exact LU.changeBasis_small (by omega) hM p info

/-- The same, seen from outside: minimise `-x` subject to `x + s = 1`. -/
def singleRow : Provider 1 2 where
  column := ![[(0, 1)], [(0, 1)]]
  cost := ![-1, 0]
  rhs := ![1]
  filteredColumn := fun rows j => removeSparseIndices rows (![[(0, 1)], [(0, 1)]] j)

theorem singleRow_ok : singleRow.Ok where
  wf j := by refine ⟨?_, ?_⟩ <;> fin_cases j <;> simp [singleRow]
  rhs_nonneg i := by fin_cases i; simp [singleRow]
  filter rows _ j := rfl

/-- Negation of **C17**, end to end: the LU representation panics on a problem with one row that the
row-wise representation solves, whatever the pivot rule. -/
theorem C17_single_row_problem (rule : RuleName) :
    solveRelaxation .lu rule 10 singleRow .none = .error (.panic .indexOutOfBounds) ∧
    solveRelaxation .rows rule 10 singleRow .none = .ok (.finiteOptimum [(0, 1)]) := by
  cases rule <;> exact ⟨by decide +kernel, by decide +kernel⟩

/-- Dimension zero: the LU representation does not even start. -/
theorem C17_no_rows_panics : identity (BI := LU) 0 = .error (.panic .underflow) := rfl

end Relp
