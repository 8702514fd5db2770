import Verif.Proof.DebugLU
import Verif.Proof.Sim

/-! # The representations of a debug build are lawful and follow the row-wise one -/

namespace Relp

open Matrix BasisInverse

variable {m : ℕ}

namespace LU

/-- Inverting in a debug build. -/
theorem invertDebug_rep (hm : 2 ≤ m) {columns : Fin m → Sparse m} (hc : ∀ i, SVec.WF (columns i))
    {M : Matrix (Fin m) (Fin m) ℚ} (hM : M * columnsMatrix columns = 1) :
    ∃ lu : LU m, invertDebug columns = .ok lu ∧ Rep lu M := by
  obtain ⟨lu, h1, h2, -⟩ := invert_rep (by omega) hc hM
  exact ⟨lu, (invertDebug_eq hm hc hM).trans h1, h2⟩

end LU

namespace DebugLU

/-- The matrix of the decomposition. -/
def Rep (bi : DebugLU m) (M : Matrix (Fin m) (Fin m) ℚ) : Prop := LU.Rep bi.lu M

theorem identity_rep (hm : 2 ≤ m) :
    ∃ bi : DebugLU m, BasisInverse.identity m = .ok bi ∧ Rep bi 1 := by
  obtain ⟨lu, h1, h2⟩ := LU.identity_rep (m := m) (by omega)
  refine ⟨⟨lu⟩, ?_, h2⟩
  change (LU.identity m >>= fun lu => pure (⟨lu⟩ : DebugLU m)) = _
  rw [h1]
  rfl

theorem invert_rep (hm : 2 ≤ m) {columns : Fin m → Sparse m} (hc : ∀ i, SVec.WF (columns i))
    {M : Matrix (Fin m) (Fin m) ℚ} (hM : M * columnsMatrix columns = 1) :
    ∃ bi : DebugLU m, BasisInverse.invert columns = .ok bi ∧ Rep bi M := by
  obtain ⟨lu, h1, h2⟩ := LU.invertDebug_rep hm hc hM
  refine ⟨⟨lu⟩, ?_, h2⟩
  change (LU.invertDebug columns >>= fun lu => pure (⟨lu⟩ : DebugLU m)) = _
  rw [h1]
  rfl

theorem Rep.left (hm : 2 ≤ m) {bi : DebugLU m} {M} (h : Rep bi M) {column : Sparse m}
    (hc : SVec.WF column) : ∃ info, leftMultiply bi column = .ok info ∧
      SVec.WF (infoColumn info) ∧ SVec.val (infoColumn info) = M *ᵥ SVec.val column := by
  obtain ⟨info, h1, h2, -, h4, -⟩ := LU.Rep.left h hc
  exact ⟨info, (LU.Rep.leftDebug (by omega) h hc).trans h1, h2, h4⟩

theorem Rep.change (hm : 2 ≤ m) {bi : DebugLU m} {M} (h : Rep bi M) {column : Sparse m}
    (hc : SVec.WF column) {info} (hi : leftMultiply bi column = .ok info) {p}
    (hp : (M *ᵥ SVec.val column) p ≠ 0) :
    ∃ bi', changeBasis bi p info = .ok (bi', infoColumn info) ∧
      Rep bi' (pivotUpdate M (M *ᵥ SVec.val column) p) := by
  have hi' : bi.lu.leftMultiply column = .ok info :=
    (LU.Rep.leftDebug (by omega) h hc).symm.trans hi
  obtain ⟨lu', -, h1, h2, -⟩ := LU.Rep.change hm h hc hi' hp
  refine ⟨⟨lu'⟩, ?_, h2⟩
  change (bi.lu.changeBasisDebug p info >>= fun x => pure ((⟨x.1⟩ : DebugLU m), x.2)) = _
  rw [h1]
  rfl

theorem Rep.right (hm : 2 ≤ m) {bi : DebugLU m} {M} (h : Rep bi M) {row : Sparse m}
    (hr : SVec.WF row) : ∃ r, rightMultiply bi row = .ok r ∧ SVec.WF r ∧
      SVec.val r = SVec.val row ᵥ* M := by
  obtain ⟨r, h1, h2⟩ := LU.Rep.right h hr
  exact ⟨r, (LU.Rep.rightDebug (by omega) h hr).trans h1, h2⟩

theorem Rep.element (hm : 2 ≤ m) {bi : DebugLU m} {M} (h : Rep bi M) {column : Sparse m}
    (hc : SVec.WF column) (i : Fin m) : generateElement bi i column = .ok (
      if (M *ᵥ SVec.val column) i = 0 then none else some ((M *ᵥ SVec.val column) i)) :=
  (LU.Rep.elementDebug (by omega) h hc i).trans (LU.Rep.element h hc i)

theorem Rep.row (hm : 2 ≤ m) {bi : DebugLU m} {M} (h : Rep bi M) (i : Fin m) :
    ∃ r, basisInverseRow bi i = .ok r ∧ SVec.WF r ∧ SVec.val r = M i := by
  obtain ⟨r, h1, h2⟩ := LU.Rep.row h i
  exact ⟨r, (LU.Rep.rowDebug (by omega) h i).trans h1, h2⟩

end DebugLU

instance : LawfulBasisInverse DebugLU where
  OkDim m := 2 ≤ m
  OkInvert m := 2 ≤ m
  Rep := DebugLU.Rep
  identity_ok hm := DebugLU.identity_rep hm
  invert_ok hm _ hc _ hM := DebugLU.invert_rep hm hc hM
  refactor_ok hm _ _ _ _ := hm
  left_ok hm _ _ h _ hc := h.left hm hc
  change_ok hm _ _ h _ hc _ hi _ _ hp := h.change hm hc hi hp
  right_ok hm _ _ h _ hr _ := h.right hm hr
  element_ok hm _ _ h _ hc i := h.element hm hc i
  row_ok hm _ _ h i := h.row hm i
  remove_ok _ _ _ _ _ _ hk _ hc hM := DebugLU.invert_rep hk hc hM

instance : FollowingInverse DebugLU where
  Dim m := 2 ≤ m
  Rep := DebugLU.Rep
  ne_zero hm := by omega
  identity_ok hm := DebugLU.identity_rep hm
  invert_ok hm _ hc _ hM := .inr (DebugLU.invert_rep hm hc hM)
  left_ok hm _ _ h _ hc := h.left hm hc
  change_ok hm _ _ h _ hc _ hi _ _ hp := .inr (h.change hm hc hi hp)
  right_ok hm _ _ h _ hr _ := h.right hm hr
  element_ok hm _ _ h _ hc i := h.element hm hc i
  row_ok hm _ _ h i := h.row hm i
  remove_ok _ _ _ _ rows _ columns hc hM := by
    by_cases hk : 2 ≤ keptLen rows
    · obtain ⟨bi', h1, h2⟩ := DebugLU.invert_rep hk hc hM
      exact .inr ⟨bi', h1, hk, h2⟩
    · refine .inl ⟨.debugAssertion, ?_⟩
      change (LU.invertDebug columns >>= fun lu => pure (⟨lu⟩ : DebugLU _)) = _
      rw [LU.invertDebug_small (by omega)]
      rfl

namespace DebugRows

/-- The matrix that the rows hold. -/
def Rep (bi : DebugRows m) (M : Matrix (Fin m) (Fin m) ℚ) : Prop := BasisInverseRows.Rep bi.inner M

theorem identity_rep (hm : m ≠ 0) :
    ∃ bi : DebugRows m, BasisInverse.identity m = .ok bi ∧ Rep bi 1 := by
  refine ⟨⟨BasisInverseRows.identity m⟩, ?_, BasisInverseRows.identity_rep⟩
  change (BasisInverseRows.identityDebug m >>= fun bi => pure (⟨bi⟩ : DebugRows m)) = _
  unfold BasisInverseRows.identityDebug
  rw [okBind (forEach_ok fun i _ =>
    sparseVectorCheck_ok (SVec.wf_standardBasis i) (Nat.pos_of_ne_zero hm))]
  rfl

theorem invert_rep (hm : 2 ≤ m) {columns : Fin m → Sparse m} (hc : ∀ i, SVec.WF (columns i))
    {M : Matrix (Fin m) (Fin m) ℚ} (hM : M * columnsMatrix columns = 1) :
    ∃ bi : DebugRows m, BasisInverse.invert columns = .ok bi ∧ Rep bi M := by
  obtain ⟨bi, e1, e2⟩ := BasisInverseRows.invert_rep (by omega) hc hM
  refine ⟨⟨bi⟩, ?_, e2⟩
  change (BasisInverseRows.invertDebug columns >>= fun bi => pure (⟨bi⟩ : DebugRows m)) = _
  obtain ⟨lu, h1, h2, -⟩ := LU.invert_rep (by omega) hc hM
  obtain ⟨inverted, h3, -⟩ := tabulateM_exists fun j : Fin m => h2.left (SVec.wf_standardBasis j)
  unfold BasisInverseRows.invert at e1
  rw [h1, bindOk, h3, bindOk] at e1
  cases Except.ok.inj e1
  have h3' : tabulateM (fun j : Fin m => lu.leftMultiplyDebug (SVec.standardBasis j))
      = .ok inverted := by
    rw [← h3]
    congr 1
    funext j
    exact h2.leftDebug (by omega) (SVec.wf_standardBasis j)
  unfold BasisInverseRows.invertDebug
  rw [LU.invertDebug_eq hm hc hM, h1, bindOk, h3', bindOk,
    okBind (forEach_ok fun i _ => sparseVectorCheck_ok (e2.wf i) (by omega))]
  rfl

theorem invert_small (hm : m ≤ 1) (columns : Fin m → Sparse m) :
    (BasisInverse.invert columns : Res (DebugRows m)) = panic .debugAssertion := by
  change (BasisInverseRows.invertDebug columns >>= fun bi => pure (⟨bi⟩ : DebugRows m)) = _
  unfold BasisInverseRows.invertDebug
  rw [LU.invertDebug_small hm]
  rfl

theorem Rep.left (hm : m ≠ 0) {bi : DebugRows m} {M} (h : Rep bi M) {column : Sparse m}
    (_ : SVec.WF column) : ∃ info, leftMultiply bi column = .ok info ∧
      SVec.WF (infoColumn info) ∧ SVec.val (infoColumn info) = M *ᵥ SVec.val column := by
  have hwf : SVec.WF (bi.inner.leftMultiply column) := by
    rw [BasisInverseRows.Rep.left_val h]
    exact SVec.wf_ofDense _
  refine ⟨bi.inner.leftMultiply column, ?_, hwf, ?_⟩
  · change bi.inner.leftMultiplyDebug column = _
    unfold BasisInverseRows.leftMultiplyDebug
    rw [okBind (sparseVectorCheck_ok hwf (Nat.pos_of_ne_zero hm))]
    rfl
  · change SVec.val (bi.inner.leftMultiply column) = _
    rw [BasisInverseRows.Rep.left_val h]
    ext i
    exact SVec.val_ofDense _ i

theorem Rep.change (hm : m ≠ 0) {bi : DebugRows m} {M} (h : Rep bi M) {column : Sparse m}
    (hc : SVec.WF column) {info} (hi : leftMultiply bi column = .ok info) {p}
    (hp : (M *ᵥ SVec.val column) p ≠ 0) :
    ∃ bi', changeBasis bi p info = .ok (bi', infoColumn info) ∧
      Rep bi' (pivotUpdate M (M *ᵥ SVec.val column) p) := by
  obtain ⟨info', h1, h2, h3⟩ := h.left hm hc
  cases Except.ok.inj (h1.symm.trans hi)
  have h3' : SVec.val info = M *ᵥ SVec.val column := h3
  obtain ⟨bi', e1, e2⟩ := BasisInverseRows.Rep.change h (column := info) h2 (p := p)
    (by rw [h3']; exact hp)
  refine ⟨⟨bi'⟩, ?_, by rw [← h3']; exact e2⟩
  change (bi.inner.changeBasis p info >>= fun x => pure ((⟨x.1⟩ : DebugRows m), x.2)) = _
  rw [e1]
  rfl

theorem Rep.right (hm : m ≠ 0) {bi : DebugRows m} {M} (h : Rep bi M) {row : Sparse m}
    (hr : SVec.WF row) (hne : row ≠ []) : ∃ r, rightMultiply bi row = .ok r ∧ SVec.WF r ∧
      SVec.val r = SVec.val row ᵥ* M := by
  obtain ⟨r, h1, h2⟩ := BasisInverseRows.Rep.right h hr hne
  refine ⟨r, ?_, h2⟩
  change bi.inner.rightMultiplyDebug row = _
  cases row with
  | nil => exact absurd rfl hne
  | cons p row =>
    obtain ⟨index, factor⟩ := p
    unfold BasisInverseRows.rightMultiplyDebug
    dsimp only
    rw [okBind (sparseVectorCheck_ok (SVec.wf_scale (BasisInverseRows.Rep.wf h _)
      (hr.nonzero (index, factor) (by simp))) (Nat.pos_of_ne_zero hm))]
    exact h1

theorem Rep.element {bi : DebugRows m} {M} (h : Rep bi M) (column : Sparse m) (i : Fin m) :
    generateElement bi i column = .ok (
      if (M *ᵥ SVec.val column) i = 0 then none else some ((M *ᵥ SVec.val column) i)) :=
  congrArg Except.ok (BasisInverseRows.Rep.element h i column)

theorem Rep.row {bi : DebugRows m} {M} (h : Rep bi M) (i : Fin m) :
    ∃ r, basisInverseRow bi i = .ok r ∧ SVec.WF r ∧ SVec.val r = M i :=
  ⟨_, rfl, BasisInverseRows.Rep.wf h i, BasisInverseRows.Rep.val h i⟩

theorem Rep.remove {bi : DebugRows m} {M} (h : Rep bi M) (rows : List (Fin m))
    (hs : rows.Pairwise (· < ·)) (hk : keptLen rows ≠ 0)
    (columns : Fin (keptLen rows) → Sparse (keptLen rows)) :
    ∃ bi', removeBasis rows bi columns = .ok bi' ∧
      Rep bi' (M.submatrix (kept rows).get (kept rows).get) := by
  refine ⟨⟨bi.inner.removeBasisPart rows⟩, ?_, BasisInverseRows.Rep.remove h rows⟩
  have hnd : rows.Nodup := hs.imp ne_of_lt
  have hlen := keptLen_eq hnd
  change (bi.inner.removeBasisPartDebug rows >>= fun bi => pure (⟨bi⟩ : DebugRows _)) = _
  unfold BasisInverseRows.removeBasisPartDebug
  rw [debugAssert_bind (decide_eq_true hlen), debugAssert_bind (decide_eq_true (by omega)),
    debugAssert_bind (decide_eq_true (hs.imp le_of_lt)), debugAssert_bind (decide_eq_true hnd)]
  rfl

theorem remove_all (bi : DebugRows m) (rows : List (Fin m)) (hs : rows.Pairwise (· < ·))
    (hk : keptLen rows = 0) (columns : Fin (keptLen rows) → Sparse (keptLen rows)) :
    removeBasis rows bi columns = panic .debugAssertion := by
  have hnd : rows.Nodup := hs.imp ne_of_lt
  have hlen := keptLen_eq hnd
  change (bi.inner.removeBasisPartDebug rows >>= fun bi => pure (⟨bi⟩ : DebugRows _)) = _
  unfold BasisInverseRows.removeBasisPartDebug
  rw [debugAssert_bind (decide_eq_true hlen)]
  have : debugAssert (decide (rows.length < m)) = panic .debugAssertion := by
    unfold debugAssert
    rw [if_neg]
    rw [decide_eq_true_eq]
    omega
  rw [this]
  rfl

end DebugRows

instance : LawfulBasisInverse DebugRows where
  OkDim m := m ≠ 0
  OkInvert m := 2 ≤ m
  Rep := DebugRows.Rep
  identity_ok hm := DebugRows.identity_rep hm
  invert_ok hm _ hc _ hM := DebugRows.invert_rep hm hc hM
  refactor_ok _ _ _ _ h := by cases h
  left_ok hm _ _ h _ hc := h.left hm hc
  change_ok hm _ _ h _ hc _ hi _ _ hp := h.change hm hc hi hp
  right_ok hm _ _ h _ hr hne := h.right hm hr hne
  element_ok _ _ _ h column _ i := h.element column i
  row_ok _ _ _ h i := h.row i
  remove_ok _ _ _ h rows hs hk columns _ _ := h.remove rows hs hk columns

instance : FollowingInverse DebugRows where
  Dim m := m ≠ 0
  Rep := DebugRows.Rep
  ne_zero hm := hm
  identity_ok hm := DebugRows.identity_rep hm
  invert_ok {m} _ columns hc _ hM := by
    by_cases hm : 2 ≤ m
    · exact .inr (DebugRows.invert_rep hm hc hM)
    · exact .inl ⟨_, DebugRows.invert_small (by omega) columns⟩
  left_ok hm _ _ h _ hc := h.left hm hc
  change_ok hm _ _ h _ hc _ hi _ _ hp := .inr (h.change hm hc hi hp)
  right_ok hm _ _ h _ hr hne := h.right hm hr hne
  element_ok _ _ _ h column _ i := h.element column i
  row_ok _ _ _ h i := h.row i
  remove_ok _ bi _ h rows hs columns _ _ := by
    by_cases hk : keptLen rows = 0
    · exact .inl ⟨_, DebugRows.remove_all bi rows hs hk columns⟩
    · obtain ⟨bi', h1, h2⟩ := h.remove rows hs hk columns
      exact .inr ⟨bi', h1, hk, h2⟩

end Relp
