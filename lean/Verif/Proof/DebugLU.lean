import Verif.Proof.LUInvert

/-! # The checks inside of the LU decomposition succeed -/

namespace Relp.LU

open Matrix Permutation

variable {m : ℕ}

theorem applyUpdatesDebug_eq (us : List (EtaFile m × RotateToBack m)) (h : ∀ u ∈ us, u.1.Ok)
    (w : Sparse m) (hw : SVec.WF w) :
    applyUpdatesDebug us w = .ok (us.foldl (fun w u => forwardSorted u.2 (u.1.applyRight w)) w) := by
  induction us generalizing w with
  | nil => rfl
  | cons u us ih =>
    obtain ⟨h1, -⟩ := EtaFile.applyRight_spec (h u (by simp)) hw
    have h3 : SVec.WF (forwardSorted u.2 (u.1.applyRight w)) := u.2.wf_forwardSorted h1
    have e : u.1.applyRightDebug w = .ok (u.1.applyRight w) := by
      unfold EtaFile.applyRightDebug
      rw [okBind (strictlySortedCheck_ok hw), okBind (strictlySortedCheck_ok h1)]
      rfl
    rw [applyUpdatesDebug, e, bindOk, forwardSortedDebug_ok _ h1 h3, bindOk, List.foldl_cons]
    exact ih (fun v hv => h v (by simp [hv])) _ h3

theorem unapplyUpdatesDebug_eq (us : List (EtaFile m × RotateToBack m)) (w : Sparse m)
    (hw : SVec.WF w) :
    unapplyUpdatesDebug us w
      = .ok (us.foldr (fun u lhs => u.1.applyLeft (backwardSorted u.2 lhs)) w) := by
  induction us with
  | nil => rfl
  | cons u us ih =>
    obtain ⟨h1, -⟩ := foldr_updates us w hw
    rw [unapplyUpdatesDebug, ih, bindOk, List.foldr_cons]
    generalize us.foldr (fun u lhs => u.1.applyLeft (backwardSorted u.2 lhs)) w = z at h1
    have h3 : SVec.WF (backwardSorted u.2 z) := u.2.wf_backwardSorted h1
    obtain ⟨h4, -⟩ := EtaFile.applyLeft_spec (eta := u.1) h3
    rw [backwardSortedDebug_ok _ h1 h3, bindOk]
    unfold EtaFile.applyLeftDebug
    rw [okBind (strictlySortedCheck_ok h3), okBind (strictlySortedCheck_ok h4)]
    rfl

/-- Multiplying a column: the checks succeed. -/
theorem Rep.leftDebug {lu : LU m} {M : Matrix (Fin m) (Fin m) ℚ} (hm : 0 < m) (h : Rep lu M)
    {column : Sparse m} (hc : SVec.WF column) :
    lu.leftMultiplyDebug column = lu.leftMultiply column := by
  obtain ⟨info, e, hw, -, -⟩ := h.left hc
  rw [e]
  unfold leftMultiply at e
  unfold leftMultiplyDebug
  have hr1 : SVec.WF (sortByIndex (column.map fun p => (forward lu.rowPermutation p.1, p.2))) :=
    wf_sortByIndex_map h.rowPermutation.fwd_injective hc
  obtain ⟨w, w1, w2, -⟩ := leftLower_spec h.lower m 0 (by omega) _ hr1 (by simp)
  obtain ⟨s1, -⟩ := foldl_updates lu.updates h.etas w w2
  obtain ⟨c, c1, c2, -⟩ := leftUpper_spec h.upper m m (by omega) _ s1 (fun p _ => p.1.2)
  simp only [] at e ⊢
  rw [w1, bindOk] at e ⊢
  rw [c1, bindOk] at e
  rw [applyUpdatesDebug_eq _ h.etas w w2, bindOk]
  unfold leftUpperDebug
  rw [c1, bindOk, okBind (sortedCheck_ok c2)]
  change (do sparseVectorCheck _; pure _) = _
  cases Except.ok.inj e
  rw [okBind (sparseVectorCheck_ok hw hm)]
  rfl

theorem Rep.rightSolveDebug {lu : LU m} {M : Matrix (Fin m) (Fin m) ℚ} (hm : 0 < m) (h : Rep lu M)
    {lhs : Sparse m} (hl : SVec.WF (sortByIndex lhs)) :
    lu.rightSolveDebug lhs = lu.rightSolve lhs := by
  obtain ⟨r, e, hw, -⟩ := h.rightSolve hl
  obtain ⟨x, x1, x2, -⟩ := rightUpper_spec h.upper m 0 (by omega) _ hl (by simp)
  obtain ⟨y1, -⟩ := foldr_updates lu.updates x x2
  obtain ⟨z, z1, z2, -⟩ := rightLower_spec h.lower m m (by omega) _ y1 (fun p _ => p.1.2)
  rw [e]
  unfold LU.rightSolve at e
  unfold LU.rightSolveDebug rightUpperDebug
  rw [x1, bindOk] at e ⊢
  simp only [] at e
  rw [z1, bindOk] at e
  rw [okBind (strictlySortedCheck_ok x2)]
  change (unapplyUpdatesDebug lu.updates x >>= _) = _
  rw [unapplyUpdatesDebug_eq _ x x2, bindOk]
  unfold rightLowerDebug
  rw [z1, bindOk, okBind (sortedCheck_ok z2)]
  change (backwardSortedDebug lu.rowPermutation z >>= _) = _
  cases Except.ok.inj e
  rw [backwardSortedDebug_ok _ z2 hw, bindOk, okBind (sparseVectorCheck_ok hw hm)]
  rfl

/-- Multiplying a row: the checks succeed. -/
theorem Rep.rightDebug {lu : LU m} {M : Matrix (Fin m) (Fin m) ℚ} (hm : 0 < m) (h : Rep lu M)
    {row : Sparse m} (hr : SVec.WF row) : lu.rightMultiplyDebug row = lu.rightMultiply row := by
  have hinj : Function.Injective lu.pivotPosition :=
    Function.LeftInverse.injective (rowOfPosition_pivotPosition h.columnPermutation)
  unfold rightMultiplyDebug rightMultiply
  rw [map_forward]
  exact h.rightSolveDebug hm (wf_sortByIndex_map hinj hr)

/-- Rows of the inverse: the checks succeed. -/
theorem Rep.rowDebug {lu : LU m} {M : Matrix (Fin m) (Fin m) ℚ} (hm : 0 < m) (h : Rep lu M)
    (i : Fin m) : lu.basisInverseRowDebug i = lu.basisInverseRow i :=
  h.rightSolveDebug hm (SVec.wf_standardBasis _)

/-- Single elements: the checks succeed. -/
theorem Rep.elementDebug {lu : LU m} {M : Matrix (Fin m) (Fin m) ℚ} (hm : 0 < m) (h : Rep lu M)
    {column : Sparse m} (hc : SVec.WF column) (i : Fin m) :
    lu.generateElementDebug i column = lu.generateElement i column := by
  unfold generateElementDebug generateElement
  rw [h.leftDebug hm hc]

/-- Decomposing an invertible matrix of at least two rows: the checks succeed. -/
theorem ofRowsDebug_eq (hm : 2 ≤ m) {rows : Fin m → Sparse m} (hwf : ∀ i, SVec.WF (rows i))
    {Y : Matrix (Fin m) (Fin m) ℚ} (hY : (Matrix.of fun i j => SVec.val (rows i) j) * Y = 1) :
    ofRowsDebug rows = ofRows rows := by
  have h0 := inv_start hwf
  obtain ⟨s, e, d, h⟩ := h0.run hY
  obtain ⟨upper, u1, -⟩ := collectUpper_ok h.wf
    (fun i p hp => by
      have := h.key i p hp
      rw [Fin.le_def]; omega)
    (fun i => h.diagonal i i.2)
  have hhead : ∀ i, ∀ p ∈ (s.rows i).head?, p.1 = i := by
    intro i p hp
    obtain ⟨q, hq, hqi⟩ := SVec.exists_mem_of_val_ne_zero (h.diagonal i i.2)
    have hw := h.wf i
    have hk := h.key i
    cases hr : s.rows i with
    | nil => rw [hr] at hp; simp at hp
    | cons x l =>
      rw [hr] at hp hq hw hk
      simp only [List.head?_cons, Option.mem_def, Option.some.injEq] at hp
      subst hp
      rcases List.mem_cons.1 hq with rfl | hq
      · exact hqi
      · have h1 := (SVec.wf_cons.1 hw).1 q hq
        have h2 := hk x (by simp)
        rw [hqi, Fin.lt_def] at h1
        exact absurd h1 (by omega)
  unfold ofRowsDebug ofRows
  rw [if_neg (by omega), okBind (forEach_ok fun i _ => sortedCheck_ok (hwf i)),
    debugAssert_bind (decide_eq_true (show 1 < m from hm))]
  simp only []
  rw [debugAssert_bind (by
      refine decide_eq_true fun j => ?_
      have := h0.columnCount_pos hY (j := j) (Nat.zero_le _)
      rw [← h0.nnzColumn j (Nat.zero_le _)] at this
      exact this),
    debugAssert_bind (by
      refine decide_eq_true fun i => ?_
      exact List.length_pos_of_ne_nil (h0.row_ne_nil hY i)), e, d, bindOk, bindOk,
    okBind (forEach_ok fun i _ => debugAssert_ok (decide_eq_true (hhead i)))]
  refine bindCongr fun a _ => ?_
  refine bindCongr fun b _ => ?_
  rw [debugAssert_bind (decide_eq_true (List.nodup_ofFn.2 h.row_injective)),
    debugAssert_bind (decide_eq_true (List.nodup_ofFn.2 h.column_injective))]

/-- Inverting a matrix of at least two rows: the checks succeed. -/
theorem invertDebug_eq (hm : 2 ≤ m) {columns : Fin m → Sparse m} (hc : ∀ i, SVec.WF (columns i))
    {M : Matrix (Fin m) (Fin m) ℚ} (hM : M * columnsMatrix columns = 1) :
    invertDebug columns = invert columns := by
  have hB : (Matrix.of fun i j => SVec.val (Carry.transposeColumns columns i) j)
      = columnsMatrix columns := by
    ext i j
    simp only [of_apply, Carry.transposeColumns_val, columnsMatrix]
  have hw := fun i => Carry.transposeColumns_wf hc i
  unfold invertDebug invert
  rw [okBind (forEach_ok fun i _ => sortedCheck_ok (hw i)), ofRowsDebug_eq hm hw (Y := M)
    (by rw [hB]; exact mul_eq_one_comm.1 hM)]

/-- A matrix with one row or without rows cannot be inverted in a debug build. -/
theorem invertDebug_small (hm : m ≤ 1) (columns : Fin m → Sparse m) :
    invertDebug columns = .error (.panic .debugAssertion) := by
  unfold invertDebug ofRowsDebug
  have hsorted : ∀ i, sortedCheck (Carry.transposeColumns columns i) = .ok () ∨
      sortedCheck (Carry.transposeColumns columns i) = .error (.panic .debugAssertion) := by
    intro i
    unfold sortedCheck debugAssert
    split
    · exact .inl rfl
    · exact .inr rfl
  have hfe : ∀ l : List (Fin m), forEach (fun i => sortedCheck (Carry.transposeColumns columns i)) l
        = .ok () ∨ forEach (fun i => sortedCheck (Carry.transposeColumns columns i)) l
        = .error (.panic .debugAssertion) := by
    intro l
    induction l with
    | nil => exact .inl rfl
    | cons i l ih =>
      rw [forEach]
      rcases hsorted i with h | h
      · rw [h]; exact ih
      · rw [h]; exact .inr rfl
  rcases hfe (List.finRange m) with h | h
  · rw [h, bindOk, bindOk]
    have : debugAssert (decide (m > 1)) = .error (.panic .debugAssertion) := by
      unfold debugAssert
      rw [if_neg (by simpa using hm)]
      rfl
    rw [this]
    rfl
  · rw [h]
    rfl

/-- Changing the basis: the checks succeed. -/
theorem Rep.changeDebug (hm : 2 ≤ m) {lu : LU m} {M : Matrix (Fin m) (Fin m) ℚ} (h : Rep lu M)
    {column : Sparse m} (hc : SVec.WF column) {info : ColumnAndSpike m}
    (hi : lu.leftMultiply column = .ok info) {p : Fin m} (hp : (M *ᵥ SVec.val column) p ≠ 0) :
    lu.changeBasisDebug p info = lu.changeBasis p info := by
  obtain ⟨lu', e, d, -⟩ := h.change hm hc hi hp
  rw [e, d]

end Relp.LU
