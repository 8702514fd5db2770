import Verif.Proof.LUInvert
import Verif.Proof.Rows
import Verif.Proof.SimSolve

/-!
# A factorisation that succeeds is one of an invertible matrix
-/

namespace Relp.LU

open Matrix Permutation

variable {m : ℕ}

theorem minByKey_mem {α : Type} {key : α → Res ℕ} {l : List α} {a : α} {n : ℕ}
    (h : minByKey key l = .ok (some (a, n))) : a ∈ l := by
  induction l generalizing a n with
  | nil => simp [minByKey] at h
  | cons b l ih =>
    unfold minByKey at h
    cases hb : key b with
    | error e => rw [hb] at h; cases h
    | ok kb =>
      rw [hb] at h
      cases hl : minByKey key l with
      | error e => rw [hl] at h; cases h
      | ok best =>
        rw [hl] at h
        simp only [bind, Except.bind, pure, Except.pure] at h
        cases best with
        | none =>
          simp only [Except.ok.injEq, Option.some.injEq, Prod.mk.injEq] at h
          simp [h.1]
        | some q =>
          obtain ⟨c, kc⟩ := q
          simp only [] at h
          split at h
          · simp only [Except.ok.injEq, Option.some.injEq, Prod.mk.injEq] at h
            obtain ⟨rfl, rfl⟩ := h
            exact List.mem_cons_of_mem _ (ih hl)
          · simp only [Except.ok.injEq, Option.some.injEq, Prod.mk.injEq] at h
            simp [h.1]

/-- A pivot that is chosen is a nonzero in the part that is not yet factorised. -/
theorem Inv.chosen {B : Matrix (Fin m) (Fin m) ℚ} {s : Elimination m} {k r c : Fin m}
    (h : Inv B s k) (hc : choosePivot s k = .ok (r, c)) :
    k ≤ r ∧ k ≤ c ∧ SVec.val (s.rows r) c ≠ 0 := by
  unfold choosePivot at hc
  simp only [] at hc
  obtain ⟨best, hbest, hc⟩ := bind_eq_ok hc
  cases best with
  | none => cases hc
  | some q =>
    obtain ⟨p, n⟩ := q
    obtain rfl : p = (r, c) := by cases hc; rfl
    have hp := (List.perm_insertionSort _ _).mem_iff.1 (minByKey_mem hbest)
    obtain ⟨i, hi, hp⟩ := List.mem_flatMap.1 hp
    obtain ⟨x, hx, he⟩ := List.mem_map.1 hp
    obtain ⟨rfl, rfl⟩ : i = r ∧ x.1 = c := by simpa using he
    have hxm := (List.dropWhile_sublist _).mem hx
    refine ⟨by simpa using (List.mem_filter.1 hi).2, dropWhile_le (h.wf i).sorted x hx, ?_⟩
    rw [SVec.val_of_mem (h.wf i) (show (x.1, x.2) ∈ s.rows i from hxm)]
    exact (h.wf i).nonzero _ hxm

theorem collectRatios_ne {k : Fin m} {pv : ℚ} {l : List (Fin m)} {s : Elimination m}
    {x : Elimination m × List (Fin m × ℚ)} (hl : l.Nodup)
    (h : collectRatios k pv l s = .ok x) : ∀ i ∈ l, s.rows i ≠ [] := by
  induction l generalizing s x with
  | nil => simp
  | cons i l ih =>
    rw [List.nodup_cons] at hl
    unfold collectRatios at h
    cases hi : s.rows i with
    | nil => rw [hi] at h; cases h
    | cons q tail =>
      obtain ⟨j, value⟩ := q
      rw [hi] at h
      simp only [] at h
      intro a ha
      rcases List.mem_cons.1 ha with rfl | ha
      · rw [hi]; simp
      split at h
      · split at h
        · cases h
        · obtain ⟨nr, -, h⟩ := bind_eq_ok h
          obtain ⟨nc, -, h⟩ := bind_eq_ok h
          obtain ⟨y, hy, -⟩ := bind_eq_ok h
          have := ih hl.2 hy a ha
          have hai : a ≠ i := fun e => hl.1 (e ▸ ha)
          simp only [Function.update_of_ne hai] at this
          exact this
      · exact ih hl.2 h a ha

theorem removeCounts_rows (k : Fin m) (l : Sparse m) {s s' : Elimination m}
    (h : l.foldlM (fun (s : Elimination m) p => do
      let nnzRow ← decrement s.nnzRow k
      let nnzColumn ← decrement s.nnzColumn p.1
      pure { s with nnzRow, nnzColumn }) s = .ok s') : s'.rows = s.rows := by
  induction l generalizing s with
  | nil => cases h; rfl
  | cons p l ih =>
    rw [List.foldlM_cons] at h
    obtain ⟨s1, h1, h⟩ := bind_eq_ok h
    obtain ⟨nr, -, h1⟩ := bind_eq_ok h1
    obtain ⟨nc, -, h1⟩ := bind_eq_ok h1
    cases h1
    exact (ih h).trans rfl

/-- An iteration that succeeds keeps the invariant, whether or not the matrix is invertible. -/
theorem Inv.stepOf {B : Matrix (Fin m) (Fin m) ℚ} {s s' : Elimination m} {k : Fin m}
    (h : Inv B s k) (e : eliminationStep s k = .ok s') : Inv B s' (k + 1) := by
  have e0 := e
  unfold eliminationStep at e
  obtain ⟨⟨r, c⟩, hch, e⟩ := bind_eq_ok e
  obtain ⟨hkr, hkc, hval⟩ := h.chosen hch
  obtain ⟨s3, h3, e⟩ := bind_eq_ok e
  have hrows := removeCounts_rows _ _ h3
  have hne : ∀ i, k < i → (LU.swapColumns (LU.swapRows s r k) c k).rows i ≠ [] := by
    cases hk : s3.rows k with
    | nil => rw [hk] at e; cases e
    | cons q rest =>
      obtain ⟨j, pv⟩ := q
      rw [hk] at e
      obtain ⟨y, hy, -⟩ := bind_eq_ok e
      intro i hi
      rw [← hrows]
      exact collectRatios_ne ((List.nodup_finRange m).filter _) hy i (by simp [hi])
  obtain ⟨s1, e1, h1, -⟩ := h.stepAt hch hkr hkc hval hne
  rw [e0] at e1
  cases e1
  exact h1

theorem Inv.runOf {B : Matrix (Fin m) (Fin m) ℚ} {s s' : Elimination m}
    (h : Inv B s 0) (e : (List.finRange m).foldlM eliminationStep s = .ok s') : Inv B s' m := by
  have key : ∀ n, n ≤ m → ∀ s, Inv B s (m - n) →
      ((List.finRange m).drop (m - n)).foldlM eliminationStep s = .ok s' → Inv B s' m := by
    intro n
    induction n with
    | zero =>
      intro _ s hs e
      rw [List.drop_of_length_le (by simp)] at e
      cases e
      simpa using hs
    | succ n ih =>
      intro hn s hs e
      have hlt : m - (n + 1) < m := by omega
      have hd : (List.finRange m).drop (m - (n + 1))
          = ⟨m - (n + 1), hlt⟩ :: (List.finRange m).drop (m - n) := by
        rw [List.drop_eq_getElem_cons (by simpa using hlt)]
        congr 1
        · simp
        · congr 1; omega
      rw [hd, List.foldlM_cons] at e
      obtain ⟨s1, e1, e⟩ := bind_eq_ok e
      have h1 := Inv.stepOf (k := ⟨m - (n + 1), hlt⟩) hs e1
      have : (m - (n + 1)) + 1 = m - n := by omega
      simp only [this] at h1
      exact ih (by omega) s1 h1 e
  exact key m (le_refl _) s (by simpa using h) (by simpa using e)

theorem lowerMatrix_det {lu : LU m} (h : LowerOk lu) : lu.lowerMatrix.det = 1 := by
  have hz : ∀ i j : Fin m, i ≤ j →
      (if h : (j : ℕ) < m - 1 then SVec.val (lu.lowerColumn j h) i else 0) = 0 := by
    intro i j hij
    split
    · rename_i hj
      apply SVec.val_eq_zero_of_notMem
      rintro p hp rfl
      have := h.lt ⟨j, hj⟩ p hp
      rw [Fin.le_def] at hij
      simp only [] at this
      omega
    · rfl
  rw [Matrix.det_of_isLowerTriangular]
  · refine Finset.prod_eq_one fun i _ => ?_
    simp only [lowerMatrix, of_apply, hz i i (le_refl _)]
    simp
  · intro i j hij
    have hij : i < j := hij
    simp only [lowerMatrix, of_apply, hz i j hij.le, if_neg hij.ne, add_zero]

theorem upperMatrix_det {lu : LU m} (h : UpperOk lu) : lu.upperMatrix.det ≠ 0 := by
  have hz : ∀ i j : Fin m, j ≤ i →
      (if h : 0 < (j : ℕ) then SVec.val (lu.upperColumn j h) i else 0) = 0 := by
    intro i j hij
    split
    · rename_i hj
      apply SVec.val_eq_zero_of_notMem
      rintro p hp rfl
      have := h.lt _ p hp
      rw [Fin.le_def] at hij
      simp only [] at this
      omega
    · rfl
  rw [Matrix.det_of_isUpperTriangular]
  · refine Finset.prod_ne_zero_iff.2 fun i _ => ?_
    simp only [upperMatrix, of_apply, hz i i (le_refl _)]
    simpa using h.diagonal i
  · intro i j hij
    have hij : j < i := hij
    simp only [upperMatrix, of_apply, hz i j hij.le, if_neg hij.ne', add_zero]

/-- A factorisation that succeeds is one of an invertible matrix. -/
theorem ofRows_invertible {rows : Fin m → Sparse m} (hwf : ∀ i, SVec.WF (rows i)) {lu : LU m}
    (e : ofRows rows = .ok lu) :
    ∃ M, M * (Matrix.of fun i j => SVec.val (rows i) j) = 1 := by
  have hm : m ≠ 0 := by
    rintro rfl
    cases e
  have e0 := e
  unfold ofRows at e
  rw [if_neg hm] at e
  obtain ⟨s, hs, -⟩ := bind_eq_ok e
  obtain ⟨lu', e', h1, h2, h3, h4, -, h6⟩ := ofRows_run hm hs ((inv_start hwf).runOf hs)
  set B := Matrix.of fun i j => SVec.val (rows i) j with hB
  have hdet : (B.submatrix lu'.rowPermutation.bwd lu'.columnPermutation.bwd).det ≠ 0 := by
    rw [← h6, det_mul, lowerMatrix_det h3, one_mul]
    exact upperMatrix_det h4
  have hsub : IsUnit (B.submatrix
      (⟨lu'.rowPermutation.bwd, lu'.rowPermutation.fwd, h1.fwd_bwd, h1.bwd_fwd⟩ : Fin m ≃ Fin m)
      (⟨lu'.columnPermutation.bwd, lu'.columnPermutation.fwd, h2.fwd_bwd, h2.bwd_fwd⟩ :
        Fin m ≃ Fin m)) := by
    rw [isUnit_iff_isUnit_det]
    exact isUnit_iff_ne_zero.2 hdet
  obtain ⟨u, hu⟩ := (isUnit_submatrix_equiv _ _).1 hsub
  exact ⟨(u⁻¹ : _), by rw [← hu]; simp⟩

theorem invert_invertible {columns : Fin m → Sparse m} (hc : ∀ i, SVec.WF (columns i)) {lu : LU m}
    (e : invert columns = .ok lu) : ∃ M, M * columnsMatrix columns = 1 := by
  have hB : (Matrix.of fun i j => SVec.val (Carry.transposeColumns columns i) j)
      = columnsMatrix columns := by
    ext i j
    simp only [of_apply, Carry.transposeColumns_val, columnsMatrix]
  obtain ⟨M, hM⟩ := ofRows_invertible (fun i => Carry.transposeColumns_wf hc i) e
  exact ⟨M, by rw [← hB]; exact hM⟩

end Relp.LU

namespace Relp

open Matrix

variable {m : ℕ}

theorem BasisInverseRows.invert_invertible {columns : Fin m → Sparse m}
    (hc : ∀ i, SVec.WF (columns i)) {bi : BasisInverseRows m}
    (e : BasisInverseRows.invert columns = .ok bi) : ∃ M, M * columnsMatrix columns = 1 := by
  unfold BasisInverseRows.invert at e
  obtain ⟨lu, hlu, -⟩ := bind_eq_ok e
  exact LU.invert_invertible hc hlu

/-- Inverting succeeds for invertible matrices only. -/
class StrictInverse (BI : ℕ → Type) [BasisInverse BI] : Prop where
  invertible : ∀ {m : ℕ} {columns : Fin m → Sparse m}, (∀ i, SVec.WF (columns i)) → ∀ {bi : BI m},
    BasisInverse.invert columns = .ok bi → ∃ M : Matrix (Fin m) (Fin m) ℚ, M * columnsMatrix columns = 1

instance : StrictInverse LU := ⟨fun hc _ e => LU.invert_invertible hc e⟩

instance : StrictInverse BasisInverseRows := ⟨fun hc _ e => BasisInverseRows.invert_invertible hc e⟩

end Relp

/-! ### Every failure is an abort -/

namespace Relp

/-- A computation that does not depend on the number of iterations. -/
def Aborts {α : Type} (x : Res α) : Prop := x ≠ .error .outOfFuel

namespace Aborts

theorem ok {α : Type} (a : α) : Aborts (.ok a : Res α) := by intro h; cases h

theorem panic {α : Type} (p : Panic) : Aborts (Relp.panic p : Res α) := by intro h; cases h

theorem bind {α β : Type} {x : Res α} {f : α → Res β} (hx : Aborts x) (hf : ∀ a, Aborts (f a)) :
    Aborts (x >>= f) := by
  cases x with
  | error e => exact fun h => hx (by cases h; rfl)
  | ok a => exact hf a

theorem foldlM {α β : Type} {f : β → α → Res β} (hf : ∀ b a, Aborts (f b a)) (l : List α) (b : β) :
    Aborts (l.foldlM f b) := by
  induction l generalizing b with
  | nil => exact ok b
  | cons a l ih =>
    rw [List.foldlM_cons]
    exact (hf b a).bind fun b => ih b

theorem tabulateM {α : Type} : {m : ℕ} → {f : Fin m → Res α} → (∀ i, Aborts (f i)) →
    Aborts (Relp.tabulateM f)
  | 0, _, _ => by unfold Relp.tabulateM; exact ok _
  | m + 1, f, h => by
    unfold Relp.tabulateM
    have h0 := h 0
    have h1 := tabulateM fun i => h i.succ
    cases e0 : f 0 with
    | error e => exact fun he => h0 (by rw [e0]; cases he; rfl)
    | ok a =>
      cases e1 : Relp.tabulateM fun i => f i.succ with
      | error e => exact fun he => h1 (by rw [e1]; cases he; rfl)
      | ok g => exact ok _

end Aborts

namespace LU

variable {m : ℕ}

theorem checkedSub_aborts (a b : ℕ) : Aborts (checkedSub a b) := by
  unfold checkedSub
  split
  · exact Aborts.ok _
  · exact Aborts.panic _

theorem decrement_aborts (counts : Fin m → ℕ) (i : Fin m) : Aborts (decrement counts i) := by
  unfold decrement
  exact (checkedSub_aborts _ _).bind fun _ => Aborts.ok _

theorem minByKey_aborts {α : Type} {key : α → Res ℕ} (h : ∀ a, Aborts (key a)) (l : List α) :
    Aborts (minByKey key l) := by
  induction l with
  | nil => exact Aborts.ok _
  | cons a l ih =>
    unfold minByKey
    refine (h a).bind fun k => ih.bind fun best => ?_
    split
    · exact Aborts.ok _
    · split
      · exact Aborts.ok _
      · exact Aborts.ok _

theorem choosePivot_aborts (s : Elimination m) (k : Fin m) : Aborts (choosePivot s k) := by
  unfold choosePivot
  simp only []
  refine (minByKey_aborts (fun p => ?_) _).bind fun best => ?_
  · exact (checkedSub_aborts _ _).bind fun _ => (checkedSub_aborts _ _).bind fun _ => Aborts.ok _
  · split
    · exact Aborts.panic _
    · exact Aborts.ok _

theorem collectRatios_aborts (k : Fin m) (pv : ℚ) (l : List (Fin m)) (s : Elimination m) :
    Aborts (collectRatios k pv l s) := by
  induction l generalizing s with
  | nil => exact Aborts.ok _
  | cons i l ih =>
    unfold collectRatios
    split
    · exact Aborts.panic _
    · split
      · split
        · exact Aborts.panic _
        · exact (decrement_aborts _ _).bind fun _ => (decrement_aborts _ _).bind fun _ =>
            (ih _).bind fun _ => Aborts.ok _
      · exact ih s

theorem eliminateRow_aborts (k : Fin m) (rest : Sparse m) (s : Elimination m) (p : Fin m × ℚ) :
    Aborts (eliminateRow k rest s p) := by
  unfold eliminateRow
  simp only []
  refine (checkedSub_aborts _ _).bind fun _ => (Aborts.foldlM (fun _ _ => decrement_aborts _ _) _ _).bind fun _ => ?_
  split
  · exact Aborts.ok _
  · exact Aborts.panic _

theorem eliminationStep_aborts (s : Elimination m) (k : Fin m) : Aborts (eliminationStep s k) := by
  unfold eliminationStep
  refine (choosePivot_aborts s k).bind fun rc => ?_
  simp only []
  refine Aborts.bind ?_ fun s => ?_
  · unfold removePivotRowCounts
    exact Aborts.foldlM (fun _ _ => (decrement_aborts _ _).bind fun _ =>
      (decrement_aborts _ _).bind fun _ => Aborts.ok _) _ _
  · split
    · exact Aborts.panic _
    · exact (collectRatios_aborts _ _ _ _).bind fun _ => Aborts.foldlM (eliminateRow_aborts _ _) _ _

theorem ofRows_aborts (rows : Fin m → Sparse m) : Aborts (ofRows rows) := by
  unfold ofRows
  split
  · exact Aborts.panic _
  · refine (Aborts.foldlM eliminationStep_aborts _ _).bind fun s => ?_
    refine Aborts.bind ?_ fun u => Aborts.bind ?_ fun _ => Aborts.ok _
    · unfold collectUpper
      refine (Aborts.tabulateM fun i => ?_).bind fun _ => (Aborts.foldlM (fun _ _ =>
        Aborts.foldlM (fun _ _ => ?_) _ _) _ _).bind fun _ => Aborts.ok _
      · split
        · exact Aborts.panic _
        · exact Aborts.ok _
      · split
        · exact Aborts.ok _
        · exact Aborts.panic _
    · unfold collectLower
      refine Aborts.foldlM (fun _ _ => Aborts.foldlM (fun _ _ => ?_) _ _) _ _
      split
      · exact Aborts.ok _
      · exact Aborts.panic _

end LU

/-- A matrix that is not invertible makes inverting abort. -/
theorem invert_singular {m : ℕ} {columns : Fin m → Sparse m} (hc : ∀ i, SVec.WF (columns i))
    (h : ¬ ∃ M : Matrix (Fin m) (Fin m) ℚ, M * columnsMatrix columns = 1) :
    ∃ p, LU.invert columns = .error (.panic p) := by
  cases e : LU.invert columns with
  | ok lu => exact absurd (LU.invert_invertible hc e) h
  | error f =>
    cases f with
    | panic p => exact ⟨p, rfl⟩
    | outOfFuel => exact absurd e (LU.ofRows_aborts _)

end Relp
