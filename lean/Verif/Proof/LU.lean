import Verif.Proof.LUSolve

/-!
# Multiplying with the inverse represented by an LU decomposition
-/

namespace Relp

open Matrix Permutation

variable {m : ℕ}

theorem val_map_inverse {f g : Fin m → Fin m} (hgf : ∀ i, g (f i) = i) (hfg : ∀ i, f (g i) = i)
    (v : Sparse m) (i : Fin m) : SVec.val (v.map fun p => (f p.1, p.2)) i = SVec.val v (g i) := by
  conv_lhs => rw [← hfg i]
  exact SVec.val_map_injective (Function.LeftInverse.injective hgf) v (g i)

namespace RotateToBack

theorem wf_forwardSorted (q : RotateToBack m) {v : Sparse m} (hv : SVec.WF v) :
    SVec.WF (q.forwardSorted v) := by
  rw [forwardSorted_eq q hv]; exact wf_sortByIndex_map q.forward_injective hv

theorem wf_backwardSorted (q : RotateToBack m) {v : Sparse m} (hv : SVec.WF v) :
    SVec.WF (q.backwardSorted v) := by
  rw [backwardSorted_eq q hv]; exact wf_sortByIndex_map q.backward_injective hv

theorem val_forwardSorted (q : RotateToBack m) {v : Sparse m} (hv : SVec.WF v) (i : Fin m) :
    SVec.val (q.forwardSorted v) i = SVec.val v (q.backward i) := by
  rw [forwardSorted_eq q hv, val_sortByIndex, val_map_inverse q.backward_forward q.forward_backward]

theorem val_backwardSorted (q : RotateToBack m) {v : Sparse m} (hv : SVec.WF v) (i : Fin m) :
    SVec.val (q.backwardSorted v) i = SVec.val v (q.forward i) := by
  rw [backwardSorted_eq q hv, val_sortByIndex, val_map_inverse q.forward_backward q.backward_forward]

end RotateToBack

namespace EtaFile

theorem wf_updateValue {v : Sparse m} (h : SVec.WF v) (d : ℚ) (i : Fin m) :
    SVec.WF (updateValue d i v) := by
  unfold updateValue
  split
  · rename_i hd
    split
    · split
      · exact SVec.wf_setZero h i
      · rename_i hne; exact SVec.wf_set h i hne
    · exact SVec.wf_set h i (neg_ne_zero.2 hd)
  · exact h

theorem val_updateValue {v : Sparse m} (h : SVec.WF v) (d : ℚ) (i j : Fin m) :
    SVec.val (updateValue d i v) j = SVec.val v j - if j = i then d else 0 := by
  unfold updateValue
  split
  · have := LU.val_insertOrShift h i d j
    unfold LU.insertOrShift at this
    simp only [eq_comm (a := j)]
    rw [← this]
    cases SVec.get? v i <;> rfl
  · rename_i hd
    have hd : d = 0 := by simpa using hd
    simp [hd]

/-- An eta file whose values are right of the pivot. -/
structure Ok (eta : EtaFile m) : Prop where
  wf : SVec.WF eta.values
  lt : ∀ p ∈ eta.values, eta.pivot < p.1

theorem foldl_updateValue (l : Sparse m) (x : ℚ) (v : Sparse m) (hv : SVec.WF v) :
    SVec.WF (l.foldl (fun vector p => updateValue (p.2 * x) p.1 vector) v) ∧
    ∀ j, SVec.val (l.foldl (fun vector p => updateValue (p.2 * x) p.1 vector) v) j
      = SVec.val v j - SVec.val l j * x := by
  induction l generalizing v with
  | nil => exact ⟨hv, fun j => by simp⟩
  | cons q l ih =>
    obtain ⟨h1, h2⟩ := ih _ (wf_updateValue hv (q.2 * x) q.1)
    refine ⟨h1, fun j => ?_⟩
    rw [List.foldl_cons, h2, val_updateValue hv, SVec.val_cons]
    by_cases h : j = q.1
    · simp [h]; ring
    · simp [h, Ne.symm h]

theorem applyLeft_spec {eta : EtaFile m} {v : Sparse m} (hv : SVec.WF v) :
    SVec.WF (eta.applyLeft v) ∧
    ∀ j, SVec.val (eta.applyLeft v) j
      = SVec.val v j - SVec.val v eta.pivot * SVec.val eta.values j := by
  unfold applyLeft
  have hg := SVec.get?_eq hv eta.pivot
  split
  · rename_i h
    rw [h] at hg
    have h0 : SVec.val v eta.pivot = 0 := by
      by_contra hne
      rw [if_neg hne] at hg; simp at hg
    exact ⟨hv, fun j => by simp [h0]⟩
  · rename_i x h
    rw [h] at hg
    have h0 : SVec.val v eta.pivot = x := by
      by_cases hne : SVec.val v eta.pivot = 0
      · rw [if_pos hne] at hg; simp at hg
      · rw [if_neg hne] at hg; simpa using hg.symm
    obtain ⟨h1, h2⟩ := foldl_updateValue eta.values x v hv
    exact ⟨h1, fun j => by rw [h2, h0]; ring⟩

theorem dot_cons_left (p : Fin m × ℚ) (v : Sparse m) (w : Fin m → ℚ) :
    SVec.val (p :: v) ⬝ᵥ w = p.2 * w p.1 + SVec.val v ⬝ᵥ w := by
  have := LU.vecMul_cons (Matrix.of fun i _ => w i) p v p.1
  simpa [vecMul] using this

theorem mergeProduct_eq (v w : Sparse m) (hv : SVec.WF v) (hw : SVec.WF w) :
    mergeProduct v w = SVec.val v ⬝ᵥ SVec.val w := by
  fun_induction mergeProduct v w with
  | case1 => simp [LU.val_nil_eq]
  | case2 => simp [LU.val_nil_eq]
  | case3 i x v j y w hij ih =>
    obtain ⟨h1, _, h3⟩ := SVec.wf_cons.1 hv
    rw [ih h3 hw, dot_cons_left]
    have hw1 := (SVec.wf_cons.1 hw).1
    rw [SVec.val_eq_zero_of_lt (v := (j, y) :: w) (i := i)]
    · simp
    · intro p hp
      rcases List.mem_cons.1 hp with rfl | hp
      · exact hij
      · exact hij.trans (hw1 p hp)
  | case4 x v i y w hij ih =>
    obtain ⟨h1, _, h3⟩ := SVec.wf_cons.1 hv
    obtain ⟨g1, _, g3⟩ := SVec.wf_cons.1 hw
    rw [ih h3 g3, dot_cons_left, SVec.val_cons]
    simp only [if_true]
    rw [SVec.val_eq_zero_of_lt (v := w) (i := i) g1, dotProduct_comm (SVec.val v),
      dotProduct_comm (SVec.val v), dot_cons_left, SVec.val_eq_zero_of_lt (v := v) (i := i) h1]
    ring
  | case5 i x v j y w hij hne ih =>
    obtain ⟨g1, _, g3⟩ := SVec.wf_cons.1 hw
    have hv1 := (SVec.wf_cons.1 hv).1
    have h0 := dot_cons_left (j, y) w (SVec.val ((i, x) :: v))
    rw [SVec.val_eq_zero_of_lt (v := (i, x) :: v) (i := j)] at h0
    · rw [ih hv g3, dotProduct_comm _ (SVec.val ((j, y) :: w)), h0, dotProduct_comm]; simp
    · have hji : j < i := lt_of_le_of_ne (not_lt.1 hij) (Ne.symm hne)
      intro p hp
      rcases List.mem_cons.1 hp with rfl | hp
      · exact hji
      · exact hji.trans (hv1 p hp)

theorem wf_dropWhile {v : Sparse m} (hv : SVec.WF v) (c : Fin m × ℚ → Bool) :
    SVec.WF (v.dropWhile c) := by
  have hs : (v.dropWhile c).Sublist v := List.dropWhile_sublist c
  exact ⟨hv.sorted.sublist hs, fun p hp => hv.nonzero p (hs.mem hp)⟩

theorem val_dropWhile_lt {v : Sparse m} {k j : Fin m} (hj : k ≤ j) :
    SVec.val (v.dropWhile fun x => decide (x.1 < k)) j = SVec.val v j := by
  conv_rhs => rw [← List.takeWhile_append_dropWhile (p := fun x : Fin m × ℚ => decide (x.1 < k)) (l := v)]
  rw [SVec.val_append, SVec.val_eq_zero_of_notMem (v := v.takeWhile _), zero_add]
  intro p hp he
  have := takeWhile_lt p hp
  rw [he] at this
  exact absurd hj (not_le.2 this)

theorem val_dropWhile_le {v : Sparse m} {k j : Fin m} (hj : k < j) :
    SVec.val (v.dropWhile fun x => decide (x.1 ≤ k)) j = SVec.val v j := by
  induction v with
  | nil => rfl
  | cons p v ih =>
    rw [List.dropWhile_cons]
    split
    · rename_i h
      rw [ih, SVec.val_cons, if_neg, zero_add]
      rintro rfl
      exact absurd hj (not_lt.2 (by simpa using h))
    · rfl

theorem Ok.dot_congr {eta : EtaFile m} (h : eta.Ok) {x y : Fin m → ℚ}
    (hxy : ∀ j, eta.pivot < j → x j = y j) : SVec.val eta.values ⬝ᵥ x = SVec.val eta.values ⬝ᵥ y := by
  unfold dotProduct
  refine Finset.sum_congr rfl fun j _ => ?_
  by_cases hj : eta.pivot < j
  · rw [hxy j hj]
  · rw [SVec.val_eq_zero_of_notMem (v := eta.values)]
    · simp
    · intro p hp he
      exact hj (he ▸ h.lt p hp)

theorem applyRight_spec {eta : EtaFile m} (he : eta.Ok) {v : Sparse m} (hv : SVec.WF v) :
    SVec.WF (eta.applyRight v) ∧
    ∀ j, SVec.val (eta.applyRight v) j
      = SVec.val v j - if j = eta.pivot then SVec.val eta.values ⬝ᵥ SVec.val v else 0 := by
  unfold applyRight
  refine ⟨wf_updateValue hv _ _, fun j => ?_⟩
  rw [val_updateValue hv, mergeProduct_eq _ _ he.wf (wf_dropWhile hv _),
    he.dot_congr (y := SVec.val v) fun j hj => val_dropWhile_lt hj.le]

theorem updateSpike_spec {eta : EtaFile m} (he : eta.Ok) {v : Sparse m} (hv : SVec.WF v) :
    SVec.WF (eta.updateSpikePivotValue v) ∧
    ∀ j, SVec.val (eta.updateSpikePivotValue v) j
      = SVec.val v j - if j = eta.pivot then SVec.val eta.values ⬝ᵥ SVec.val v else 0 := by
  unfold updateSpikePivotValue
  refine ⟨wf_updateValue hv _ _, fun j => ?_⟩
  rw [val_updateValue hv]
  congr 2
  rw [← he.dot_congr (x := SVec.val (v.dropWhile fun x => decide (x.1 ≤ eta.pivot)))
    fun j hj => val_dropWhile_le hj]
  have hw := wf_dropWhile hv (fun x => decide (x.1 ≤ eta.pivot))
  generalize v.dropWhile (fun x => decide (x.1 ≤ eta.pivot)) = w at hw
  rw [dotProduct_comm]
  unfold dotProduct
  rw [← SVec.sum_map_eq]
  congr 1
  apply List.map_congr_left
  intro p _
  rw [← SVec.get?_getD hw]
  cases SVec.get? w p.1 <;> simp [mul_comm]

end EtaFile

namespace LU

/-- Matrix of one update: the eta matrix followed by the rotation. -/
def updateMatrix (u : EtaFile m × RotateToBack m) : Matrix (Fin m) (Fin m) ℚ := Matrix.of fun a b =>
  (if u.2.backward a = b then 1 else 0) -
    if u.2.backward a = u.1.pivot then SVec.val u.1.values b else 0

/-- Matrix of all updates. -/
def updatesMatrix : List (EtaFile m × RotateToBack m) → Matrix (Fin m) (Fin m) ℚ
  | [] => 1
  | u :: us => updatesMatrix us * updateMatrix u

theorem updatesMatrix_concat (us : List (EtaFile m × RotateToBack m)) (u) :
    updatesMatrix (us ++ [u]) = updateMatrix u * updatesMatrix us := by
  induction us with
  | nil => simp [updatesMatrix]
  | cons a us ih => rw [List.cons_append, updatesMatrix, ih, updatesMatrix, Matrix.mul_assoc]

theorem updateMatrix_mulVec (u : EtaFile m × RotateToBack m) (x : Fin m → ℚ) (a : Fin m) :
    (updateMatrix u *ᵥ x) a = x (u.2.backward a) -
      if u.2.backward a = u.1.pivot then SVec.val u.1.values ⬝ᵥ x else 0 := by
  simp only [updateMatrix, mulVec, dotProduct, of_apply, sub_mul, Finset.sum_sub_distrib, ite_mul,
    one_mul, zero_mul]
  congr 1
  · simp
  · split <;> simp

theorem vecMul_updateMatrix (u : EtaFile m × RotateToBack m) (y : Fin m → ℚ) (b : Fin m) :
    (y ᵥ* updateMatrix u) b = y (u.2.forward b) -
      y (u.2.forward u.1.pivot) * SVec.val u.1.values b := by
  have hiff : ∀ a c, u.2.backward a = c ↔ a = u.2.forward c := fun a c =>
    ⟨fun h => by rw [← h, u.2.forward_backward], fun h => by rw [h, u.2.backward_forward]⟩
  simp only [updateMatrix, vecMul, dotProduct, of_apply, mul_sub, Finset.sum_sub_distrib, mul_ite,
    mul_one, mul_zero, hiff]
  congr 1
  · simp
  · simp

theorem foldl_updates (us : List (EtaFile m × RotateToBack m)) (h : ∀ u ∈ us, u.1.Ok)
    (w : Sparse m) (hw : SVec.WF w) :
    SVec.WF (us.foldl (fun w u => forwardSorted u.2 (u.1.applyRight w)) w) ∧
    SVec.val (us.foldl (fun w u => forwardSorted u.2 (u.1.applyRight w)) w)
      = updatesMatrix us *ᵥ SVec.val w := by
  induction us generalizing w with
  | nil => exact ⟨hw, by simp [updatesMatrix]⟩
  | cons u us ih =>
    obtain ⟨h1, h2⟩ := EtaFile.applyRight_spec (h u (by simp)) hw
    have h3 : SVec.WF (forwardSorted u.2 (u.1.applyRight w)) := u.2.wf_forwardSorted h1
    have h4 : SVec.val (forwardSorted u.2 (u.1.applyRight w)) = updateMatrix u *ᵥ SVec.val w := by
      ext a
      rw [updateMatrix_mulVec, ← h2]
      exact u.2.val_forwardSorted h1 a
    obtain ⟨g1, g2⟩ := ih (fun v hv => h v (by simp [hv])) _ h3
    rw [List.foldl_cons]
    exact ⟨g1, by rw [g2, h4, updatesMatrix, mulVec_mulVec]⟩

theorem foldr_updates (us : List (EtaFile m × RotateToBack m)) (w : Sparse m) (hw : SVec.WF w) :
    SVec.WF (us.foldr (fun u lhs => u.1.applyLeft (backwardSorted u.2 lhs)) w) ∧
    SVec.val (us.foldr (fun u lhs => u.1.applyLeft (backwardSorted u.2 lhs)) w)
      = SVec.val w ᵥ* updatesMatrix us := by
  induction us with
  | nil => exact ⟨hw, by simp [updatesMatrix]⟩
  | cons u us ih =>
    obtain ⟨h1, h2⟩ := ih
    rw [List.foldr_cons]
    generalize us.foldr (fun u lhs => u.1.applyLeft (backwardSorted u.2 lhs)) w = z at h1 h2
    have h3 : SVec.WF (backwardSorted u.2 z) := u.2.wf_backwardSorted h1
    obtain ⟨h4, h5⟩ := EtaFile.applyLeft_spec (eta := u.1) h3
    refine ⟨h4, ?_⟩
    ext b
    rw [h5, updatesMatrix, ← vecMul_vecMul, ← h2, vecMul_updateMatrix]
    have e : ∀ i, SVec.val (backwardSorted u.2 z) i = SVec.val z (u.2.forward i) :=
      fun i => u.2.val_backwardSorted h1 i
    rw [e, e]

/-- Where a position of the triangle belongs: inverse of `pivotPosition`. -/
def rowOfPosition (lu : LU m) (k : Fin m) : Fin m :=
  lu.columnPermutation.bwd (lu.updates.foldr (fun u i => u.2.backward i) k)

theorem foldr_foldl (us : List (EtaFile m × RotateToBack m)) (i : Fin m) :
    us.foldr (fun u i => u.2.backward i) (us.foldl (fun i u => u.2.forward i) i) = i := by
  induction us generalizing i with
  | nil => rfl
  | cons u us ih => rw [List.foldl_cons, List.foldr_cons, ih, u.2.backward_forward]

theorem foldl_foldr (us : List (EtaFile m × RotateToBack m)) (i : Fin m) :
    us.foldl (fun i u => u.2.forward i) (us.foldr (fun u i => u.2.backward i) i) = i := by
  induction us with
  | nil => rfl
  | cons u us ih => rw [List.foldr_cons, List.foldl_cons, u.2.forward_backward, ih]

theorem rowOfPosition_pivotPosition {lu : LU m} (h : lu.columnPermutation.Valid) (i : Fin m) :
    lu.rowOfPosition (lu.pivotPosition i) = i := by
  unfold rowOfPosition pivotPosition
  erw [foldr_foldl]
  exact h.bwd_fwd i

theorem pivotPosition_rowOfPosition {lu : LU m} (h : lu.columnPermutation.Valid) (i : Fin m) :
    lu.pivotPosition (lu.rowOfPosition i) = i := by
  unfold rowOfPosition pivotPosition
  have : (forward lu.columnPermutation
      (lu.columnPermutation.bwd (lu.updates.foldr (fun u i => u.2.backward i) i)))
      = lu.updates.foldr (fun u i => u.2.backward i) i := h.fwd_bwd _
  rw [this]
  exact foldl_foldr _ _

theorem map_backward (lu : LU m) (column : Sparse m) :
    backwardUnsorted lu.columnPermutation
      (lu.updates.foldr (fun u column => backwardUnsorted u.2 column) column)
    = column.map fun p => (lu.rowOfPosition p.1, p.2) := by
  have : lu.updates.foldr (fun u column => backwardUnsorted u.2 column) column
      = column.map fun p => (lu.updates.foldr (fun u i => u.2.backward i) p.1, p.2) := by
    induction lu.updates with
    | nil => simp
    | cons u us ih =>
      rw [List.foldr_cons, ih]
      change List.map _ _ = _
      rw [List.map_map]; rfl
  rw [this]
  change List.map _ _ = _
  rw [List.map_map]; rfl

theorem map_forward (lu : LU m) (row : Sparse m) :
    lu.updates.foldl (fun lhs u => forwardUnsorted u.2 lhs)
      (row.map fun p => (forward lu.columnPermutation p.1, p.2))
    = row.map fun p => (lu.pivotPosition p.1, p.2) := by
  have : ∀ (us : List (EtaFile m × RotateToBack m)) (v : Sparse m),
      us.foldl (fun lhs u => forwardUnsorted u.2 lhs) v
        = v.map fun p => (us.foldl (fun i u => forward u.2 i) p.1, p.2) := by
    intro us
    induction us with
    | nil => simp
    | cons u us ih =>
      intro v
      rw [List.foldl_cons, ih]
      change List.map _ (List.map _ _) = _
      rw [List.map_map]; rfl
  rw [this, List.map_map]; rfl

/-- The decomposition represents multiplication with `M`. -/
structure Rep (lu : LU m) (M : Matrix (Fin m) (Fin m) ℚ) : Prop where
  rowPermutation : lu.rowPermutation.Valid
  columnPermutation : lu.columnPermutation.Valid
  lower : LowerOk lu
  upper : UpperOk lu
  etas : ∀ u ∈ lu.updates, u.1.Ok
  product : ∃ Z : Matrix (Fin m) (Fin m) ℚ,
    lu.lowerMatrix * Z = (1 : Matrix (Fin m) (Fin m) ℚ).submatrix lu.rowPermutation.bwd id ∧
    lu.upperMatrix * M.submatrix lu.rowOfPosition id = updatesMatrix lu.updates * Z

theorem lower_injective {lu : LU m} (h : LowerOk lu) {x y : Fin m → ℚ}
    (hxy : lu.lowerMatrix *ᵥ x = lu.lowerMatrix *ᵥ y) : x = y := by
  have hex : ∀ j : Fin m, ∃ z : Fin m → ℚ, lu.lowerMatrix *ᵥ z = Pi.single j 1 := by
    intro j
    obtain ⟨z, _, _, _, hz⟩ := leftLower_spec h m 0 (by omega) (SVec.standardBasis j)
      (SVec.wf_standardBasis j) (by simp)
    exact ⟨_, by rw [hz, SVec.val_standardBasis_eq]⟩
  choose z hz using hex
  have : lu.lowerMatrix * (Matrix.of z)ᵀ = 1 := by
    ext i j
    have := congrFun (hz j) i
    rw [Matrix.mul_apply]
    simp only [transpose_apply, of_apply]
    change (lu.lowerMatrix *ᵥ z j) i = _
    rw [this, Matrix.one_apply, Pi.single_apply]
  have h2 := mul_eq_one_comm.1 this
  have h3 := congrArg (fun w => (Matrix.of z)ᵀ *ᵥ w) hxy
  simpa [mulVec_mulVec, h2] using h3

theorem upper_injective {lu : LU m} (h : UpperOk lu) {x y : Fin m → ℚ}
    (hxy : lu.upperMatrix *ᵥ x = lu.upperMatrix *ᵥ y) : x = y := by
  have hex : ∀ j : Fin m, ∃ z : Fin m → ℚ, lu.upperMatrix *ᵥ z = Pi.single j 1 := by
    intro j
    obtain ⟨z, _, _, _, hz⟩ := leftUpper_spec h m m (by omega) (SVec.standardBasis j)
      (SVec.wf_standardBasis j) (fun p _ => p.1.2)
    exact ⟨_, by rw [hz, SVec.val_standardBasis_eq]⟩
  choose z hz using hex
  have : lu.upperMatrix * (Matrix.of z)ᵀ = 1 := by
    ext i j
    have := congrFun (hz j) i
    rw [Matrix.mul_apply]
    simp only [transpose_apply, of_apply]
    change (lu.upperMatrix *ᵥ z j) i = _
    rw [this, Matrix.one_apply, Pi.single_apply]
  have h2 := mul_eq_one_comm.1 this
  have h3 := congrArg (fun w => (Matrix.of z)ᵀ *ᵥ w) hxy
  simpa [mulVec_mulVec, h2] using h3

theorem Rep.left {lu : LU m} {M : Matrix (Fin m) (Fin m) ℚ} (h : Rep lu M) {column : Sparse m}
    (hc : SVec.WF column) :
    ∃ info, lu.leftMultiply column = .ok info ∧ SVec.WF info.column ∧ SVec.WF info.spike ∧
      SVec.val info.column = M *ᵥ SVec.val column ∧
      SVec.val info.spike = lu.upperMatrix *ᵥ fun k => (M *ᵥ SVec.val column) (lu.rowOfPosition k) := by
  obtain ⟨Z, hZ, hM⟩ := h.product
  have hrp := h.rowPermutation
  set rhs := sortByIndex (column.map fun p => (forward lu.rowPermutation p.1, p.2)) with hrhs
  have hr1 : SVec.WF rhs := wf_sortByIndex_map hrp.fwd_injective hc
  have hr2 : SVec.val rhs = (1 : Matrix (Fin m) (Fin m) ℚ).submatrix lu.rowPermutation.bwd id
      *ᵥ SVec.val column := by
    ext k
    rw [hrhs, val_sortByIndex]
    have := val_map_inverse hrp.bwd_fwd hrp.fwd_bwd column k
    refine Eq.trans this ?_
    simp [mulVec, dotProduct, Matrix.one_apply]
  obtain ⟨w, w1, w2, _, w4⟩ := leftLower_spec h.lower m 0 (by omega) rhs hr1 (by simp)
  have hw : SVec.val w = Z *ᵥ SVec.val column :=
    lower_injective h.lower (by rw [w4, hr2, ← hZ, mulVec_mulVec])
  obtain ⟨s1, s2⟩ := foldl_updates lu.updates h.etas w w2
  obtain ⟨c, c1, c2, _, c4⟩ := leftUpper_spec h.upper m m (by omega) _ s1 (fun p _ => p.1.2)
  have hMc : (M.submatrix lu.rowOfPosition id) *ᵥ SVec.val column
      = fun k => (M *ᵥ SVec.val column) (lu.rowOfPosition k) := rfl
  have hspike : SVec.val (lu.updates.foldl (fun w u => forwardSorted u.2 (u.1.applyRight w)) w)
      = lu.upperMatrix *ᵥ fun k => (M *ᵥ SVec.val column) (lu.rowOfPosition k) := by
    rw [s2, hw, mulVec_mulVec, ← hM, ← hMc, mulVec_mulVec]
  have hcol : SVec.val c = fun k => (M *ᵥ SVec.val column) (lu.rowOfPosition k) :=
    upper_injective h.upper (by rw [c4, hspike])
  have hinj : Function.Injective lu.rowOfPosition :=
    Function.LeftInverse.injective (pivotPosition_rowOfPosition h.columnPermutation)
  refine ⟨⟨sortByIndex (c.map fun p => (lu.rowOfPosition p.1, p.2)),
    lu.updates.foldl (fun w u => forwardSorted u.2 (u.1.applyRight w)) w⟩, ?_, ?_, s1, ?_, hspike⟩
  · unfold leftMultiply
    simp only [← hrhs, w1, bind, Except.bind, c1, pure, Except.pure, map_backward]
  · exact wf_sortByIndex_map hinj c2
  · ext i
    rw [val_sortByIndex, val_map_inverse (pivotPosition_rowOfPosition h.columnPermutation)
      (rowOfPosition_pivotPosition h.columnPermutation), hcol]
    simp only [rowOfPosition_pivotPosition h.columnPermutation]

theorem Rep.rightSolve {lu : LU m} {M : Matrix (Fin m) (Fin m) ℚ} (h : Rep lu M) {lhs : Sparse m}
    (hl : SVec.WF (sortByIndex lhs)) :
    ∃ r, lu.rightSolve lhs = .ok r ∧ SVec.WF r ∧
      SVec.val r = SVec.val lhs ᵥ* M.submatrix lu.rowOfPosition id := by
  obtain ⟨Z, hZ, hM⟩ := h.product
  have hrp := h.rowPermutation
  obtain ⟨x, x1, x2, _, x4⟩ := rightUpper_spec h.upper m 0 (by omega) _ hl (by simp)
  obtain ⟨y1, y2⟩ := foldr_updates lu.updates x x2
  obtain ⟨z, z1, z2, _, z4⟩ := rightLower_spec h.lower m m (by omega) _ y1 (fun p _ => p.1.2)
  refine ⟨sortByIndex (z.map fun p => (lu.rowPermutation.bwd p.1, p.2)), ?_,
    wf_sortByIndex_map hrp.bwd_injective z2, ?_⟩
  · unfold LU.rightSolve
    simp only [x1, bind, Except.bind, z1, pure, Except.pure]
    rfl
  · have hres : SVec.val (sortByIndex (z.map fun p => (lu.rowPermutation.bwd p.1, p.2)))
        = SVec.val z ᵥ* (1 : Matrix (Fin m) (Fin m) ℚ).submatrix lu.rowPermutation.bwd id := by
      ext k
      rw [val_sortByIndex, val_map_inverse hrp.fwd_bwd hrp.bwd_fwd]
      have hiff : ∀ a c, lu.rowPermutation.bwd a = c ↔ a = lu.rowPermutation.fwd c := fun a c =>
        ⟨fun e => by rw [← e, hrp.fwd_bwd], fun e => by rw [e, hrp.bwd_fwd]⟩
      simp [vecMul, dotProduct, Matrix.one_apply, hiff]
    rw [hres, ← hZ, ← vecMul_vecMul, z4, y2, vecMul_vecMul, ← hM, ← vecMul_vecMul, x4]
    congr 1
    ext i; exact val_sortByIndex lhs i

theorem vecMul_reindex {f g : Fin m → Fin m} (hgf : ∀ i, g (f i) = i) (hfg : ∀ i, f (g i) = i)
    (M : Matrix (Fin m) (Fin m) ℚ) (x : Fin m → ℚ) :
    (fun k => x (f k)) ᵥ* M.submatrix f id = x ᵥ* M := by
  ext b
  simp only [vecMul, dotProduct, submatrix_apply, id]
  exact Fintype.sum_equiv ⟨f, g, hgf, hfg⟩ _ _ fun i => rfl

theorem Rep.right {lu : LU m} {M : Matrix (Fin m) (Fin m) ℚ} (h : Rep lu M) {row : Sparse m}
    (hr : SVec.WF row) :
    ∃ r, lu.rightMultiply row = .ok r ∧ SVec.WF r ∧ SVec.val r = SVec.val row ᵥ* M := by
  have hinj : Function.Injective lu.pivotPosition :=
    Function.LeftInverse.injective (rowOfPosition_pivotPosition h.columnPermutation)
  unfold rightMultiply
  rw [map_forward]
  obtain ⟨r, r1, r2, r3⟩ := h.rightSolve (wf_sortByIndex_map hinj hr)
  refine ⟨r, r1, r2, ?_⟩
  rw [r3, ← vecMul_reindex (pivotPosition_rowOfPosition h.columnPermutation)
    (rowOfPosition_pivotPosition h.columnPermutation) M (SVec.val row)]
  congr 1
  ext k
  exact val_map_inverse (rowOfPosition_pivotPosition h.columnPermutation)
    (pivotPosition_rowOfPosition h.columnPermutation) row k

theorem Rep.row {lu : LU m} {M : Matrix (Fin m) (Fin m) ℚ} (h : Rep lu M) (i : Fin m) :
    ∃ r, lu.basisInverseRow i = .ok r ∧ SVec.WF r ∧ SVec.val r = M i := by
  obtain ⟨r, r1, r2, r3⟩ := h.rightSolve (lhs := [(lu.pivotPosition i, 1)])
    (SVec.wf_standardBasis _)
  refine ⟨r, r1, r2, ?_⟩
  have : SVec.val [(lu.pivotPosition i, (1 : ℚ))] = Pi.single (lu.pivotPosition i) 1 :=
    SVec.val_standardBasis_eq _
  rw [r3, this, single_vecMul]
  ext k
  simp [Matrix.row, rowOfPosition_pivotPosition h.columnPermutation]

theorem Rep.element {lu : LU m} {M : Matrix (Fin m) (Fin m) ℚ} (h : Rep lu M) {column : Sparse m}
    (hc : SVec.WF column) (i : Fin m) : lu.generateElement i column = .ok (
      if (M *ᵥ SVec.val column) i = 0 then none else some ((M *ᵥ SVec.val column) i)) := by
  obtain ⟨info, h1, h2, _, h4, _⟩ := h.left hc
  unfold generateElement
  simp only [h1, bind, Except.bind, pure, Except.pure, SVec.get?_eq h2, h4]

theorem identity_rep (hm : m ≠ 0) : ∃ lu : LU m, identity m = .ok lu ∧ Rep lu 1 := by
  refine ⟨_, by unfold identity; rw [if_neg hm], ?_⟩
  refine ⟨Full.identity_valid, Full.identity_valid, ⟨fun _ => SVec.WF.nil, by simp⟩,
    ⟨fun _ => SVec.WF.nil, by simp, by simp⟩, by simp, 1, ?_, ?_⟩
  · ext i j
    simp [lowerMatrix, lowerColumn, Matrix.one_apply, Full.identity]
  · ext i j
    simp [upperMatrix, upperColumn, Matrix.mul_apply, updatesMatrix, Matrix.one_apply,
      rowOfPosition, Full.identity]
    congr

end LU

end Relp
