import Verif.Proof.LU
import Verif.Proof.DebugCheck
import Verif.Proof.Carry

/-!
# Basis changes of the LU decomposition (Forrest–Tomlin updates)
-/

namespace Relp.LU

open Matrix Permutation

variable {m : ℕ}

/-- Values above the diagonal of the upper factor. -/
def offDiagonal (lu : LU m) (c i : Fin m) : ℚ :=
  if h : 0 < (c : ℕ) then SVec.val (lu.upperColumn c h) i else 0

theorem upperMatrix_apply (lu : LU m) (i c : Fin m) :
    lu.upperMatrix i c = (if i = c then lu.upperDiagonal c else 0) + lu.offDiagonal c i := rfl

theorem getLast?_of_val {v : Sparse m} (hv : SVec.WF v) {l : Fin m} (hl : ∀ i : Fin m, i ≤ l)
    (h : SVec.val v l ≠ 0) : v.getLast? = some (l, SVec.val v l) := by
  rcases List.eq_nil_or_concat v with rfl | ⟨w, p, rfl⟩
  · simp at h
  · rw [List.concat_eq_append] at *
    obtain ⟨q, hq, rfl⟩ := SVec.exists_mem_of_val_ne_zero h
    obtain ⟨_, _, hlt⟩ := of_wf_concat hv
    have hqp : q = p := by
      rcases List.mem_append.1 hq with hq' | hq'
      · exact absurd (hl p.1) (not_le.2 (hlt q hq'))
      · simpa using hq'
    subst hqp
    rw [SVec.val_of_mem hv hq]
    simp

theorem backward_of_lt (q : RotateToBack m) {i : Fin m} (h : i < q.index) : q.backward i = i := by
  unfold RotateToBack.backward; rw [if_pos h]

theorem backward_of_ge (q : RotateToBack m) {i : Fin m} (h : ¬ i < q.index) (h2 : (i : ℕ) < m - 1) :
    (q.backward i : ℕ) = i + 1 := by
  unfold RotateToBack.backward; rw [if_neg h, dif_pos h2]

theorem backward_last (q : RotateToBack m) {i : Fin m} (h2 : (i : ℕ) = m - 1) :
    q.backward i = q.index := by
  unfold RotateToBack.backward
  split
  · rename_i h
    have := q.index.2
    rw [Fin.lt_def] at h
    omega
  · rw [dif_neg (by omega)]

theorem backward_ge (q : RotateToBack m) {i : Fin m} (h : ¬ i < q.index) :
    ¬ q.backward i < q.index := by
  by_cases h2 : (i : ℕ) < m - 1
  · have := backward_of_ge q h h2
    rw [Fin.lt_def] at *
    omega
  · rw [backward_last q (by omega)]; exact lt_irrefl _

/-- The column from which the new columns are taken: the pivot row is zeroed. -/
def clearedColumn (lu : LU m) (t : Fin m) (j : Fin (m - 1)) : Sparse m :=
  if (t : ℕ) ≤ j then SVec.setZero (lu.upperTriangular j) t else lu.upperTriangular j

theorem clearedColumn_spec {lu : LU m} (hu : UpperOk lu) (t : Fin m) (j : Fin (m - 1)) :
    SVec.WF (lu.clearedColumn t j) ∧
    (∀ i, SVec.val (lu.clearedColumn t j) i = if i = t then 0 else SVec.val (lu.upperTriangular j) i) ∧
    ∀ p ∈ lu.clearedColumn t j, (p.1 : ℕ) < j + 1 ∧ p.1 ≠ t := by
  have hw : SVec.WF (lu.clearedColumn t j) := by
    unfold clearedColumn
    split
    · exact SVec.wf_setZero (hu.wf j) t
    · exact hu.wf j
  have hval : ∀ i, SVec.val (lu.clearedColumn t j) i
      = if i = t then 0 else SVec.val (lu.upperTriangular j) i := by
    intro i
    unfold clearedColumn
    split
    · rw [SVec.val_setZero (hu.wf j)]
    · rename_i h
      by_cases hi : i = t
      · rw [if_pos hi, SVec.val_eq_zero_of_notMem]
        intro p hp he
        have := hu.lt j p hp
        rw [he, hi] at this
        omega
      · rw [if_neg hi]
  refine ⟨hw, hval, fun p hp => ⟨?_, ?_⟩⟩
  · unfold clearedColumn at hp
    split at hp
    · exact hu.lt j p (SVec.mem_of_setZero hp)
    · exact hu.lt j p hp
  · rintro rfl
    have h1 := SVec.val_of_mem hw hp
    rw [hval, if_pos rfl] at h1
    exact hw.nonzero p hp h1.symm

/-- The columns of the new upper factor, before the corner value is moved to the diagonal. -/
def changedColumns (lu : LU m) (t : Fin m) (spike : Sparse m) (d : Fin (m - 1)) (j : Fin (m - 1)) :
    Sparse m :=
  if max (t : ℕ) 1 ≤ j + 1 then
    forwardSorted (⟨t⟩ : RotateToBack m)
      (rotateLeftFrom d (Function.update (lu.clearedColumn t) d spike) j)
  else rotateLeftFrom d (Function.update (lu.clearedColumn t) d spike) j

theorem changedColumns_left {lu : LU m} {t : Fin m} {spike : Sparse m} {d : Fin (m - 1)}
    (hd : (d : ℕ) = t - 1) {j : Fin (m - 1)} (hj : (j : ℕ) + 1 < t) :
    lu.changedColumns t spike d j = lu.clearedColumn t j := by
  unfold changedColumns
  rw [if_neg (by omega)]
  unfold rotateLeftFrom
  have hlt : j < d := by rw [Fin.lt_def]; omega
  rw [if_pos hlt, Function.update_of_ne hlt.ne]

theorem changedColumns_right {lu : LU m} {t : Fin m} {spike : Sparse m} {d : Fin (m - 1)}
    (hd : (d : ℕ) = t - 1) {j : Fin (m - 1)} (hj : (t : ℕ) ≤ j + 1) (hl : (j : ℕ) + 1 < m - 1) :
    lu.changedColumns t spike d j
      = forwardSorted (⟨t⟩ : RotateToBack m) (lu.clearedColumn t ⟨j + 1, hl⟩) := by
  unfold changedColumns
  rw [if_pos (by omega)]
  unfold rotateLeftFrom
  have hlt : ¬ j < d := by rw [Fin.lt_def]; omega
  rw [if_neg hlt, dif_pos hl, Function.update_of_ne]
  intro h
  have := congrArg Fin.val h
  simp only at this
  omega

theorem changedColumns_last {lu : LU m} {t : Fin m} {spike : Sparse m} {d : Fin (m - 1)}
    (hd : (d : ℕ) = t - 1) {j : Fin (m - 1)} (hl : (j : ℕ) + 1 = m - 1) :
    lu.changedColumns t spike d j = forwardSorted (⟨t⟩ : RotateToBack m) spike := by
  unfold changedColumns
  have := t.2
  rw [if_pos (by omega)]
  unfold rotateLeftFrom
  have hlt : ¬ j < d := by rw [Fin.lt_def]; omega
  rw [if_neg hlt, dif_neg (by omega), Function.update_self]

/-- The changed decomposition. -/
def changed (lu : LU m) (t : Fin m) (spike : Sparse m) (d last : Fin (m - 1)) (corner : ℚ)
    (r : Sparse m) (l : Fin m) : LU m :=
  { lu with
    upperTriangular := Function.update (lu.changedColumns t spike d) last
      (lu.changedColumns t spike d last).dropLast
    upperDiagonal := Function.update (rotateLeftFrom t lu.upperDiagonal) l corner
    updates := lu.updates ++ [(⟨r, t⟩, ⟨t⟩)] }

theorem changed_upper {lu : LU m} (hu : UpperOk lu) {t : Fin m} {spike : Sparse m}
    (hs : SVec.WF spike) {d last : Fin (m - 1)} (hd : (d : ℕ) = t - 1)
    (hlast : (last : ℕ) + 1 = m - 1) {l : Fin m} (hl : (l : ℕ) = m - 1)
    (hcorner : SVec.val spike t ≠ 0) (r : Sparse m) :
    UpperOk (lu.changed t spike d last (SVec.val spike t) r l) ∧
    (∀ a b, (lu.changed t spike d last (SVec.val spike t) r l).upperMatrix a b =
      (fun i c => if c = t then SVec.val spike i else
        (if i = c then lu.upperDiagonal c else 0) + if i = t then 0 else lu.offDiagonal c i)
        ((⟨t⟩ : RotateToBack m).backward a) ((⟨t⟩ : RotateToBack m).backward b)) ∧
    (lu.changedColumns t spike d last).getLast? = some (l, SVec.val spike t) := by
  set q : RotateToBack m := ⟨t⟩ with hq
  have hqi : q.index = t := rfl
  have ht := t.2
  have hm : 2 ≤ m := by have := last.2; omega
  have hlmax : ∀ i : Fin m, i ≤ l := fun i => by rw [Fin.le_def]; omega
  have hql : q.backward l = t := by rw [backward_last q hl]
  have hlc : lu.changedColumns t spike d last = q.forwardSorted spike :=
    changedColumns_last hd hlast
  have hw2 := q.wf_forwardSorted hs
  have hv2 := q.val_forwardSorted hs
  have hgl : (q.forwardSorted spike).getLast? = some (l, SVec.val spike t) := by
    rw [getLast?_of_val hw2 hlmax (by rw [hv2, hql]; exact hcorner), hv2, hql]
  -- the last column is split in the rest and the corner
  have hsplit : q.forwardSorted spike = (q.forwardSorted spike).dropLast ++ [(l, SVec.val spike t)] :=
    (List.dropLast_append_getLast? _ (by simp [hgl])).symm
  have hwsplit := hw2
  rw [hsplit] at hwsplit
  obtain ⟨hwdrop, _, hltdrop⟩ := of_wf_concat hwsplit
  have hvdrop : ∀ a, SVec.val (q.forwardSorted spike).dropLast a
      = if a = l then 0 else SVec.val spike (q.backward a) := by
    intro a
    by_cases ha : a = l
    · rw [if_pos ha, SVec.val_eq_zero_of_notMem]
      intro p hp he
      have := hltdrop p hp
      rw [he, ha] at this
      exact absurd this (lt_irrefl _)
    · have h1 := hv2 a
      rw [hsplit, SVec.val_append] at h1
      rw [if_neg ha, ← h1]
      simp [SVec.val_cons, Ne.symm ha]
  refine ⟨⟨?_, ?_, ?_⟩, ?_, ?_⟩
  · intro j
    by_cases hj : j = last
    · subst hj
      simp only [changed, Function.update_self, hlc]
      exact hwdrop
    · simp only [changed, Function.update_of_ne hj]
      by_cases hjt : (j : ℕ) + 1 < t
      · rw [changedColumns_left hd hjt]
        exact (clearedColumn_spec hu t j).1
      · have hjl : (j : ℕ) + 1 < m - 1 := by
          have h1 := j.2
          have h2 : (j : ℕ) ≠ last := fun e => hj (Fin.ext e)
          omega
        rw [changedColumns_right hd (by omega) hjl]
        exact q.wf_forwardSorted (clearedColumn_spec hu t _).1
  · intro j p hp
    by_cases hj : j = last
    · subst hj
      simp only [changed, Function.update_self, hlc] at hp
      have := hltdrop p hp
      rw [Fin.lt_def] at this
      simp only at this
      omega
    · simp only [changed, Function.update_of_ne hj] at hp
      by_cases hjt : (j : ℕ) + 1 < t
      · rw [changedColumns_left hd hjt] at hp
        exact ((clearedColumn_spec hu t j).2.2 p hp).1
      · have hjl : (j : ℕ) + 1 < m - 1 := by
          have h1 := j.2
          have h2 : (j : ℕ) ≠ last := fun e => hj (Fin.ext e)
          omega
        rw [changedColumns_right hd (by omega) hjl] at hp
        obtain ⟨c1, _, c3⟩ := clearedColumn_spec hu t ⟨j + 1, hjl⟩
        have hp' : p ∈ sortByIndex ((lu.clearedColumn t ⟨j + 1, hjl⟩).map
            fun p => (q.forward p.1, p.2)) := by
          rw [← q.forwardSorted_eq c1]; exact hp
        rw [(sortByIndex_perm _).mem_iff] at hp'
        obtain ⟨x, hx, rfl⟩ := List.mem_map.1 hp'
        obtain ⟨x1, x2⟩ := c3 x hx
        simp only at x1 ⊢
        unfold RotateToBack.forward
        split
        · rename_i h
          have h' : (x.1 : ℕ) < t := h
          omega
        · rename_i h
          have h' : ¬ (x.1 : ℕ) < t := h
          have h3 : (x.1 : ℕ) ≠ t := fun e => x2 (Fin.ext e)
          simp only [RotateToBack.pred]
          omega
  · intro i
    by_cases hi : i = l
    · subst hi; simp only [changed, Function.update_self]; exact hcorner
    · simp only [changed, Function.update_of_ne hi, rotateLeftFrom]
      split
      · exact hu.diagonal _
      · split <;> exact hu.diagonal _
  · intro a b
    rw [upperMatrix_apply]
    simp only
    have hab : a = b ↔ q.backward a = q.backward b :=
      ⟨fun h => by rw [h], fun h => q.backward_injective h⟩
    by_cases hb : b = l
    · subst hb
      rw [hql, if_pos rfl]
      have hb0 : 0 < (b : ℕ) := by omega
      have hoff : (lu.changed t spike d last (SVec.val spike t) r b).offDiagonal b a
          = if a = b then 0 else SVec.val spike (q.backward a) := by
        have hidx : (⟨(b : ℕ) - 1, by omega⟩ : Fin (m - 1)) = last := Fin.ext (by simp only; omega)
        simp only [offDiagonal, dif_pos hb0, upperColumn, changed, hidx, Function.update_self, hlc]
        exact hvdrop a
      rw [hoff]
      by_cases hab' : a = b
      · subst hab'
        simp [changed, hql]
      · simp [hab']
    · have hbl : (b : ℕ) < m - 1 := by
        have h1 := b.2
        have h2 : (b : ℕ) ≠ l := fun e => hb (Fin.ext e)
        omega
      have hct : q.backward b ≠ t := by
        rw [← hql]; exact fun h => hb (q.backward_injective h)
      rw [if_neg hct]
      congr 1
      · have hdiag : (lu.changed t spike d last (SVec.val spike t) r l).upperDiagonal b
            = lu.upperDiagonal (q.backward b) := by
          simp only [changed, Function.update_of_ne hb, rotateLeftFrom]
          by_cases hbt : b < t
          · rw [if_pos hbt, backward_of_lt q hbt]
          · rw [if_neg hbt, dif_pos (by omega)]
            congr 1
            exact Fin.ext (backward_of_ge q hbt hbl).symm
        rw [hdiag]
        simp only [hab]
      · by_cases hb0 : 0 < (b : ℕ)
        · have hjne : (⟨(b : ℕ) - 1, by omega⟩ : Fin (m - 1)) ≠ last := by
            intro e
            have := congrArg Fin.val e
            simp only at this
            omega
          simp only [offDiagonal, dif_pos hb0, upperColumn, changed, Function.update_of_ne hjne]
          by_cases hbt : b < t
          · have hbt' : (b : ℕ) < t := hbt
            rw [changedColumns_left hd (by simp only; omega), (clearedColumn_spec hu t _).2.1]
            have hqb := backward_of_lt q hbt
            simp only [hqb, dif_pos hb0]
            by_cases hat : a < t
            · rw [backward_of_lt q hat]
            · have h0 : ∀ i : Fin m, ¬ i < t → SVec.val (lu.upperTriangular ⟨(b : ℕ) - 1, by omega⟩) i = 0 := by
                intro i hi
                apply SVec.val_eq_zero_of_notMem
                intro p hp he
                have h1 := hu.lt _ p hp
                rw [he] at h1
                simp only at h1
                have h2 : ¬ (i : ℕ) < t := hi
                omega
              rw [h0 a hat, h0 _ (backward_ge q hat)]
              simp
          · have hbt' : ¬ (b : ℕ) < t := hbt
            have hlt : (b : ℕ) - 1 + 1 < m - 1 := by omega
            rw [changedColumns_right hd (by simp only; omega) hlt]
            have e := q.val_forwardSorted (clearedColumn_spec hu t ⟨(b : ℕ) - 1 + 1, hlt⟩).1 a
            refine Eq.trans e ?_
            rw [(clearedColumn_spec hu t _).2.1]
            have hqb := backward_of_ge q hbt hbl
            have hqb0 : 0 < (q.backward b : ℕ) := by omega
            simp only [dif_pos hqb0]
            congr 3
            exact Fin.ext (by simp only; omega)
        · simp only [offDiagonal, dif_neg hb0]
          by_cases hbt : b < t
          · simp only [backward_of_lt q hbt, dif_neg hb0]; simp
          · have hbt' : ¬ (b : ℕ) < t := hbt
            have ht0 : (t : ℕ) = 0 := by omega
            have hqb := backward_of_ge q hbt hbl
            have hqb0 : 0 < (q.backward b : ℕ) := by omega
            rw [dif_pos hqb0]
            by_cases hat : q.backward a = t
            · rw [if_pos hat]
            · rw [if_neg hat, SVec.val_eq_zero_of_notMem]
              intro p hp he
              have h1 := hu.lt _ p hp
              rw [he] at h1
              simp only at h1
              apply hat
              exact Fin.ext (by omega)
  · rw [hlc]; exact hgl

theorem Rep.change (hm : 2 ≤ m) {lu : LU m} {M : Matrix (Fin m) (Fin m) ℚ} (h : Rep lu M)
    {column : Sparse m} (hc : SVec.WF column) {info : ColumnAndSpike m}
    (hi : lu.leftMultiply column = .ok info) {p : Fin m} (hp : (M *ᵥ SVec.val column) p ≠ 0) :
    ∃ lu', lu.changeBasis p info = .ok (lu', info.column) ∧
      lu.changeBasisDebug p info = .ok (lu', info.column) ∧
      Rep lu' (pivotUpdate M (M *ᵥ SVec.val column) p) ∧
      lu'.updates.length = lu.updates.length + 1 := by
  obtain ⟨info', e1, hcw, hsw, _, hspike⟩ := h.left hc
  obtain rfl : info' = info := by rw [hi] at e1; exact (Except.ok.inj e1).symm
  set α := M *ᵥ SVec.val column with hα
  set t := lu.pivotPosition p with ht
  have htp : lu.rowOfPosition t = p := rowOfPosition_pivotPosition h.columnPermutation p
  obtain ⟨r, r1, r2, r3, r4⟩ := rightUpper_spec h.upper m (t + 1) (by omega) (lu.uBar t)
    (wf_uBar h.upper t) (fun x hx => key_uBar hx)
  have heta : EtaFile.Ok (⟨r, t⟩ : EtaFile m) := ⟨r2, fun x hx => r3 x hx⟩
  obtain ⟨s1, s2⟩ := EtaFile.updateSpike_spec heta hsw
  set spike := (⟨r, t⟩ : EtaFile m).updateSpikePivotValue info'.spike with hspk
  simp only at s2
  -- the row reduced upper factor
  let K : Fin m → Fin m → ℚ := fun i c =>
    (if i = c then lu.upperDiagonal c else 0) + if i = t then 0 else lu.offDiagonal c i
  have hK : ∀ i c, K i c = lu.upperMatrix i c - if i = t then SVec.val (lu.uBar t) c else 0 := by
    intro i c
    simp only [K]
    by_cases hit : i = t
    · subst hit
      rw [val_uBar h.upper]; simp
    · rw [upperMatrix_apply]; simp [hit]
  have hKdot : ∀ i (x : Fin m → ℚ), ∑ c, K i c * x c
      = (lu.upperMatrix *ᵥ x) i - if i = t then SVec.val r ⬝ᵥ (lu.upperMatrix *ᵥ x) else 0 := by
    intro i x
    simp only [hK, sub_mul, Finset.sum_sub_distrib]
    congr 1
    by_cases hit : i = t
    · simp only [hit, if_true]
      rw [dotProduct_mulVec, r4]; rfl
    · simp [hit]
  have hspikeK : ∀ i, SVec.val spike i = ∑ c, K i c * α (lu.rowOfPosition c) := by
    intro i; rw [hKdot i fun c => α (lu.rowOfPosition c), s2, hspike]
  have hcorner : SVec.val spike t ≠ 0 := by
    rw [hspikeK]
    have : ∑ c, K t c * α (lu.rowOfPosition c) = lu.upperDiagonal t * α p := by
      rw [Finset.sum_eq_single t]
      · simp [K, htp]
      · intro c _ hct
        simp [K, Ne.symm hct]
      · simp
    rw [this]
    exact mul_ne_zero (h.upper.diagonal t) hp
  have ht2 := t.2
  let d : Fin (m - 1) := ⟨(t : ℕ) - 1, by omega⟩
  let last : Fin (m - 1) := ⟨m - 1 - 1, by omega⟩
  let l : Fin m := ⟨m - 1, by omega⟩
  obtain ⟨n1, n2, n3⟩ := changed_upper h.upper s1 (d := d) (last := last) rfl
    (by simp only [last]; omega) (l := l) rfl hcorner r
  set lu' := lu.changed t spike d last (SVec.val spike t) r l with hlu'
  refine ⟨lu', ?_, ?_, ⟨h.rowPermutation, h.columnPermutation, ⟨h.lower.wf, h.lower.lt⟩, n1, ?_, ?_⟩, ?_⟩
  · unfold changeBasis
    have hd : (if (t : ℕ) = 0 then 0 else (t : ℕ) - 1) = (t : ℕ) - 1 := by split <;> omega
    simp only [← ht, r1, bind, Except.bind, pure, Except.pure, hd, ← hspk]
    rw [dif_pos (by omega)]
    have hcl : (fun j : Fin (m - 1) => if (t : ℕ) ≤ j then SVec.setZero (lu.upperTriangular j) t
        else lu.upperTriangular j) = lu.clearedColumn t := rfl
    rw [hcl]
    have hcc : (fun j : Fin (m - 1) => if max (t : ℕ) 1 ≤ j + 1 then
          forwardSorted (⟨t⟩ : RotateToBack m)
            (rotateLeftFrom d (Function.update (lu.clearedColumn t) d spike) j)
        else rotateLeftFrom d (Function.update (lu.clearedColumn t) d spike) j)
        = lu.changedColumns t spike d := rfl
    have n3' : (if max (t : ℕ) 1 ≤ (last : ℕ) + 1 then
          forwardSorted (⟨t⟩ : RotateToBack m)
            (rotateLeftFrom d (Function.update (lu.clearedColumn t) d spike) last)
        else rotateLeftFrom d (Function.update (lu.clearedColumn t) d spike) last).getLast?
        = some (l, SVec.val spike t) := n3
    simp only [last, d] at n3'
    rw [n3']
    rfl
  · have hd : (if (t : ℕ) = 0 then 0 else (t : ℕ) - 1) = (t : ℕ) - 1 := by split <;> omega
    have hne : info'.spike ≠ [] := by
      intro h0
      apply hcorner
      rw [s2, h0]
      simp [val_nil_eq]
    unfold changeBasisDebug rightUpperDebug EtaFile.newDebug EtaFile.updateSpikePivotValueDebug
    simp only [← ht]
    rw [r1, bindOk, okBind (strictlySortedCheck_ok r2)]
    simp only [pure, Except.pure, bindOk]
    rw [okBind (strictlySortedCheck_ok r2), debugAssert_bind (by
      refine decide_eq_true fun x hx => ?_
      exact r3 x (List.mem_of_mem_head? hx))]
    simp only [bindOk]
    rw [okBind (strictlySortedCheck_ok hsw), okBind (strictlySortedCheck_ok hsw),
      debugAssert_bind (by simpa using hne)]
    simp only [bindOk, ← hspk]
    rw [debugAssert_bind (by rw [SVec.get?_some s1 hcorner]; rfl)]
    simp only [hd]
    rw [dif_pos (by omega)]
    have htab : (tabulateM fun j : Fin (m - 1) =>
        if max (t : ℕ) 1 ≤ j + 1 then
          forwardSortedDebug (⟨t⟩ : RotateToBack m)
            (rotateLeftFrom d (Function.update (lu.clearedColumn t) d spike) j)
        else .ok (rotateLeftFrom d (Function.update (lu.clearedColumn t) d spike) j))
        = .ok (lu.changedColumns t spike d) := by
      refine tabulateM_ok fun j => ?_
      unfold changedColumns
      split
      · have hw : SVec.WF (rotateLeftFrom d (Function.update (lu.clearedColumn t) d spike) j) := by
          have hall : ∀ j, SVec.WF (Function.update (lu.clearedColumn t) d spike j) := by
            intro j
            by_cases hj : j = d
            · subst hj; rw [Function.update_self]; exact s1
            · rw [Function.update_of_ne hj]; exact (clearedColumn_spec h.upper t j).1
          unfold rotateLeftFrom
          split
          · exact hall _
          · split <;> exact hall _
        exact forwardSortedDebug_ok _ hw ((⟨t⟩ : RotateToBack m).wf_forwardSorted hw)
      · rfl
    have hcl : (fun j : Fin (m - 1) => if (t : ℕ) ≤ j then SVec.setZero (lu.upperTriangular j) t
        else lu.upperTriangular j) = lu.clearedColumn t := rfl
    rw [hcl]
    erw [htab]
    rw [bindOk]
    have n3' : (lu.changedColumns t spike d ⟨m - 1 - 1, by omega⟩).getLast?
        = some (l, SVec.val spike t) := n3
    rw [n3']
    simp only []
    rw [debugAssert_bind (decide_eq_true rfl),
      okBind (forEach_ok fun j _ => ?_), okBind (forEach_ok fun j _ => debugAssert_ok ?_)]
    · rfl
    · exact decide_eq_true fun x hx => n1.lt j x (List.mem_of_mem_getLast? hx)
    · exact strictlySortedCheck_ok (n1.wf j)
  · intro u hu
    rcases List.mem_append.1 hu with hu | hu
    · exact h.etas u hu
    · rw [List.mem_singleton.1 hu]; exact heta
  · obtain ⟨Z, hZ, hM⟩ := h.product
    refine ⟨Z, hZ, ?_⟩
    set q : RotateToBack m := ⟨t⟩ with hq
    have hrow : ∀ k, lu'.rowOfPosition k = lu.rowOfPosition (q.backward k) := by
      intro k
      simp only [rowOfPosition, hlu', changed, List.foldr_append, List.foldr_cons, List.foldr_nil]
      rfl
    have hupd : updatesMatrix lu'.updates = updateMatrix (⟨r, t⟩, q) * updatesMatrix lu.updates :=
      updatesMatrix_concat _ _
    rw [hupd, Matrix.mul_assoc, ← hM]
    ext a x
    set M' := pivotUpdate M α p with hM'
    have lhs : (lu'.upperMatrix * M'.submatrix lu'.rowOfPosition id) a x
        = ∑ c, (if c = t then SVec.val spike (q.backward a) else K (q.backward a) c)
            * M' (lu.rowOfPosition c) x := by
      rw [Matrix.mul_apply]
      refine Fintype.sum_equiv ⟨q.backward, q.forward, q.forward_backward, q.backward_forward⟩ _ _
        fun b => ?_
      rw [n2, submatrix_apply, hrow]
      rfl
    have rhs : (updateMatrix (⟨r, t⟩, q) * (lu.upperMatrix * M.submatrix lu.rowOfPosition id)) a x
        = ∑ c, K (q.backward a) c * M (lu.rowOfPosition c) x := by
      have := updateMatrix_mulVec (⟨r, t⟩, q)
        (fun i => (lu.upperMatrix * M.submatrix lu.rowOfPosition id) i x) a
      have e2 : (fun i => (lu.upperMatrix * M.submatrix lu.rowOfPosition id) i x)
          = lu.upperMatrix *ᵥ fun c => M (lu.rowOfPosition c) x := by
        ext i; rfl
      rw [hKdot, ← e2, Matrix.mul_apply]
      exact this
    rw [lhs, rhs]
    have hMrow : ∀ c, M (lu.rowOfPosition c) x = M' (lu.rowOfPosition c) x
        + α (lu.rowOfPosition c) * M' p x - if c = t then M' p x else 0 := by
      intro c
      have := pivotUpdate_row M α hp (lu.rowOfPosition c) x
      have hiff : lu.rowOfPosition c = p ↔ c = t :=
        ⟨fun e => by rw [← pivotPosition_rowOfPosition h.columnPermutation c, e],
          fun e => by rw [e, htp]⟩
      simp only [hiff] at this
      rw [hM', this]
      ring
    generalize q.backward a = i
    simp only [hMrow, mul_add, mul_sub, Finset.sum_add_distrib, Finset.sum_sub_distrib, mul_ite,
      mul_zero, Finset.sum_ite_eq', Finset.mem_univ, if_true]
    have e1 : ∑ c, K i c * (α (lu.rowOfPosition c) * M' p x) = SVec.val spike i * M' p x := by
      rw [hspikeK, Finset.sum_mul]
      exact Finset.sum_congr rfl fun c _ => by ring
    have e2 : ∑ c, (if c = t then SVec.val spike i else K i c) * M' (lu.rowOfPosition c) x
        = ∑ c, K i c * M' (lu.rowOfPosition c) x + (SVec.val spike i - K i t) * M' p x := by
      rw [← Finset.add_sum_erase _ _ (Finset.mem_univ t),
        ← Finset.add_sum_erase (f := fun c => K i c * M' (lu.rowOfPosition c) x) _ (Finset.mem_univ t)]
      rw [Finset.sum_congr rfl fun c hc => by rw [if_neg (Finset.ne_of_mem_erase hc)]]
      rw [if_pos rfl, htp]
      ring
    rw [e1, e2]
    ring
  · simp [hlu', changed]

end Relp.LU
