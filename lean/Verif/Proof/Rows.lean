import Verif.Model.Rows
import Verif.Proof.Lawful
import Verif.Proof.Carry
import Verif.Proof.Removal
import Verif.Proof.LUInvert

/-!
# The row-wise basis inverse is lawful
-/

namespace Relp.BasisInverseRows

open Matrix

variable {m : ℕ}

/-- The rows are valid sparse vectors that hold the rows of the matrix. -/
structure Rep (bi : BasisInverseRows m) (M : Matrix (Fin m) (Fin m) ℚ) : Prop where
  wf : ∀ i, SVec.WF (bi.rows i)
  val : ∀ i, SVec.val (bi.rows i) = M i

theorem identity_rep : Rep (identity m) 1 :=
  ⟨fun i => SVec.wf_standardBasis i, fun i => by
    ext j
    rw [identity, SVec.val_standardBasis, Matrix.one_apply]
    simp [eq_comm]⟩

theorem Rep.element {bi : BasisInverseRows m} {M} (h : Rep bi M) (i : Fin m) (column : Sparse m) :
    bi.generateElement i column
      = if (M *ᵥ SVec.val column) i = 0 then none else some ((M *ᵥ SVec.val column) i) := by
  rw [generateElement, SVec.innerProduct_eq (h.wf i), h.val i]
  simp only [ne_eq, ite_not]
  rfl

theorem Rep.left_val {bi : BasisInverseRows m} {M} (h : Rep bi M) (column : Sparse m) :
    bi.leftMultiply column = SVec.ofDense (M *ᵥ SVec.val column) := by
  unfold leftMultiply SVec.ofDense
  generalize List.finRange m = l
  induction l with
  | nil => rfl
  | cons i l ih =>
    rw [List.filterMap_cons, h.element, List.filter_cons]
    by_cases hi : (M *ᵥ SVec.val column) i = 0
    · simp [hi, ih]
    · simp [hi, ih]

theorem Rep.right {bi : BasisInverseRows m} {M} (h : Rep bi M) {row : Sparse m}
    (hr : SVec.WF row) (hne : row ≠ []) :
    ∃ r, bi.rightMultiply row = .ok r ∧ SVec.WF r ∧ SVec.val r = SVec.val row ᵥ* M := by
  cases row with
  | nil => exact absurd rfl hne
  | cons p row =>
    have hr' := SVec.wf_cons.1 hr
    have key : ∀ (l : Sparse m) (total : Sparse m), (∀ q ∈ l, q.2 ≠ 0) → SVec.WF total →
        SVec.WF (l.foldl (fun total p => SVec.addMultiple p.2 total (bi.rows p.1)) total) ∧
        SVec.val (l.foldl (fun total p => SVec.addMultiple p.2 total (bi.rows p.1)) total)
          = SVec.val total + SVec.val l ᵥ* M := by
      intro l
      induction l with
      | nil =>
        intro total _ ht
        refine ⟨ht, ?_⟩
        have : SVec.val ([] : Sparse m) = 0 := by ext; simp
        simp [this]
      | cons q l ih =>
        intro total hl ht
        rw [List.foldl_cons]
        obtain ⟨h1, h2⟩ := ih (SVec.addMultiple q.2 total (bi.rows q.1))
          (fun q hq => hl q (by simp [hq]))
          (SVec.wf_addMultiple (hl q (by simp)) ht (h.wf _))
        refine ⟨h1, ?_⟩
        rw [h2]
        have hcons : SVec.val (q :: l) = Pi.single q.1 q.2 + SVec.val l := by
          ext i; rw [SVec.val_cons, Pi.add_apply, Pi.single_apply]; simp [eq_comm]
        rw [hcons, add_vecMul, ← add_assoc]
        congr 1
        ext k
        rw [SVec.val_addMultiple, h.val, Pi.add_apply, single_vecMul]
        simp [mul_comm]
    obtain ⟨h1, h2⟩ := key row (SVec.scale (bi.rows p.1) p.2)
      (fun q hq => hr.nonzero q (by simp [hq])) (SVec.wf_scale (h.wf _) (hr.nonzero p (by simp)))
    refine ⟨_, rfl, h1, ?_⟩
    rw [h2]
    have hcons : SVec.val (p :: row) = Pi.single p.1 p.2 + SVec.val row := by
      ext i; rw [SVec.val_cons, Pi.add_apply, Pi.single_apply]; simp [eq_comm]
    rw [hcons, add_vecMul]
    congr 1
    ext k
    rw [SVec.val_scale, h.val, single_vecMul]
    simp [mul_comm]

theorem Rep.remove {bi : BasisInverseRows m} {M} (h : Rep bi M) (rows : List (Fin m)) :
    Rep (bi.removeBasisPart rows) (M.submatrix (kept rows).get (kept rows).get) := by
  constructor
  · intro i
    exact wf_removeSparseIndices rows (h.wf _)
  · intro i
    ext k
    rw [removeBasisPart, val_removeSparseIndices, removeIndices, h.val]
    rfl

theorem rowReduce_spec (pivotRow : Fin m) {column : Sparse m} (hc : SVec.WF column)
    (bi : BasisInverseRows m) (hwf : ∀ i, SVec.WF (bi.rows i)) :
    (∀ i, SVec.WF ((bi.rowReduce pivotRow column).rows i)) ∧
    ∀ i k, SVec.val ((bi.rowReduce pivotRow column).rows i) k
      = if i = pivotRow then SVec.val (bi.rows pivotRow) k
        else SVec.val (bi.rows i) k - SVec.val column i * SVec.val (bi.rows pivotRow) k := by
  unfold rowReduce
  induction column generalizing bi with
  | nil => exact ⟨hwf, fun i k => by simp; intro h; rw [h]⟩
  | cons p column ih =>
    have hc' := SVec.wf_cons.1 hc
    rw [List.foldl_cons]
    by_cases hp : p.1 = pivotRow
    · rw [if_pos hp]
      obtain ⟨h1, h2⟩ := ih hc'.2.2 bi hwf
      refine ⟨h1, fun i k => ?_⟩
      rw [h2]
      by_cases hi : i = pivotRow
      · rw [if_pos hi, if_pos hi]
      · rw [if_neg hi, if_neg hi, SVec.val_cons, if_neg (hp ▸ Ne.symm hi), zero_add]
    · rw [if_neg hp]
      obtain ⟨h1, h2⟩ := ih hc'.2.2
        ⟨Function.update bi.rows p.1
          (SVec.addMultiple (-p.2) (bi.rows p.1) (bi.rows pivotRow))⟩ (by
          intro i
          by_cases hi : i = p.1
          · subst hi
            simp only [Function.update_self]
            exact SVec.wf_addMultiple (neg_ne_zero.2 (hc.nonzero p (by simp))) (hwf _) (hwf _)
          · simp only [Function.update_of_ne hi]
            exact hwf i)
      refine ⟨h1, fun i k => ?_⟩
      rw [h2]
      simp only [Function.update_of_ne (Ne.symm hp)]
      by_cases hi : i = pivotRow
      · rw [if_pos hi, if_pos hi]
      · rw [if_neg hi, if_neg hi, SVec.val_cons]
        by_cases hip : i = p.1
        · subst hip
          have h0 : SVec.val column p.1 = 0 := SVec.val_eq_zero_of_lt hc'.1
          simp only [Function.update_self, SVec.val_addMultiple, h0, if_true]
          ring
        · simp only [Function.update_of_ne hip, if_neg (Ne.symm hip)]
          ring

theorem Rep.change {bi : BasisInverseRows m} {M} (h : Rep bi M) {column : Sparse m}
    (hc : SVec.WF column) {p : Fin m} (hp : SVec.val column p ≠ 0) :
    ∃ bi', bi.changeBasis p column = .ok (bi', column) ∧
      Rep bi' (pivotUpdate M (SVec.val column) p) := by
  have hn : bi.normalizePivotRow p column
      = .ok ⟨Function.update bi.rows p (SVec.divide (bi.rows p) (SVec.val column p))⟩ := by
    rw [normalizePivotRow, SVec.get?_some hc hp]
    simp only [if_neg hp]
  have hwf : ∀ i, SVec.WF (Function.update bi.rows p
      (SVec.divide (bi.rows p) (SVec.val column p)) i) := by
    intro i
    by_cases hi : i = p
    · subst hi; rw [Function.update_self]; exact SVec.wf_divide (h.wf _) hp
    · rw [Function.update_of_ne hi]; exact h.wf i
  obtain ⟨h1, h2⟩ := rowReduce_spec p hc
    ⟨Function.update bi.rows p (SVec.divide (bi.rows p) (SVec.val column p))⟩ hwf
  refine ⟨_, ?_, h1, ?_⟩
  · simp only [changeBasis, hn, bind, Except.bind, pure, Except.pure]
  · intro i
    ext k
    rw [h2]
    simp only [Function.update_self, SVec.val_divide, h.val]
    by_cases hi : i = p
    · subst hi; simp [pivotUpdate]
    · simp only [if_neg hi, Function.update_of_ne hi, h.val]
      simp [pivotUpdate, hi]

theorem invert_rep (hm : m ≠ 0) {columns : Fin m → Sparse m} (hc : ∀ i, SVec.WF (columns i))
    {M : Matrix (Fin m) (Fin m) ℚ} (hM : M * columnsMatrix columns = 1) :
    ∃ bi : BasisInverseRows m, invert columns = .ok bi ∧ Rep bi M := by
  obtain ⟨lu, h1, h2, -⟩ := LU.invert_rep hm hc hM
  obtain ⟨inverted, h3, h4⟩ := tabulateM_exists fun j : Fin m => h2.left (SVec.wf_standardBasis j)
  refine ⟨⟨Carry.transposeColumns fun j => (inverted j).column⟩, ?_, ?_, ?_⟩
  · simp only [invert, h1, h3, bind, Except.bind, pure, Except.pure]
  · exact fun i => Carry.transposeColumns_wf (fun j => (h4 j).2.1) i
  · intro i
    ext j
    rw [Carry.transposeColumns_val, (h4 j).2.2.2.1, SVec.val_standardBasis_eq, mulVec_single_one]
    rfl

end Relp.BasisInverseRows

namespace Relp

open Matrix

instance : LawfulBasisInverse BasisInverseRows where
  OkDim _ := True
  OkInvert m := m ≠ 0
  Rep := BasisInverseRows.Rep
  identity_ok _ := ⟨_, rfl, BasisInverseRows.identity_rep⟩
  invert_ok hm _ hc _ hM := BasisInverseRows.invert_rep hm hc hM
  refactor_ok _ _ _ _ h := by cases h
  left_ok _ _ _ h column _ := ⟨_, rfl, by
    show SVec.WF (BasisInverseRows.leftMultiply _ _)
    rw [h.left_val]; exact SVec.wf_ofDense _, by
    show SVec.val (BasisInverseRows.leftMultiply _ _) = _
    rw [h.left_val]; ext i; exact SVec.val_ofDense _ i⟩
  change_ok := by
    intro m _ bi M h column hc info hinfo _ p hp
    cases hinfo
    have hval : SVec.val (bi.leftMultiply column) = M *ᵥ SVec.val column := by
      rw [h.left_val]; ext i; exact SVec.val_ofDense _ i
    have hwf : SVec.WF (bi.leftMultiply column) := by
      rw [h.left_val]; exact SVec.wf_ofDense _
    have := h.change hwf (p := p) (by rw [hval]; exact hp)
    rw [hval] at this
    exact this
  right_ok _ _ _ h _ hr hne := h.right hr hne
  element_ok _ _ _ h column _ i := by
    show Except.ok (BasisInverseRows.generateElement _ _ _) = _
    rw [h.element]
  row_ok _ _ _ h i := ⟨_, rfl, h.wf i, h.val i⟩
  remove_ok _ _ _ h rows _ _ _ _ _ := ⟨_, rfl, h.remove rows⟩

end Relp
