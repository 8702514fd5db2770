import Verif.Proof.Factorise

/-!
# Inverting with the LU decomposition, and the laws of the representation
-/

namespace Relp.LU

open Matrix Permutation

variable {m n : ℕ}

/-- Items of `t` that belong in bucket `c`, tagged with the row. -/
def bucket (idx : Fin m → Option (Fin n)) (t : Sparse m) (row : Fin m) (c : Fin n) : Sparse m :=
  (t.filter fun p => decide (idx p.1 = some c)).map fun p => (row, p.2)

theorem foldlM_push (idx : Fin m → Option (Fin n)) (row : Fin m)
    (f : (Fin n → Sparse m) → Fin m × ℚ → Res (Fin n → Sparse m)) (t : Sparse m)
    (hf : ∀ p ∈ t, ∃ c, idx p.1 = some c ∧ ∀ acc, f acc p
      = .ok (Function.update acc c (acc c ++ [(row, p.2)])))
    (acc : Fin n → Sparse m) :
    t.foldlM f acc = .ok fun c => acc c ++ bucket idx t row c := by
  induction t generalizing acc with
  | nil => simp [bucket, pure, Except.pure]
  | cons p t ih =>
    obtain ⟨c, hc, e⟩ := hf p (by simp)
    rw [List.foldlM_cons, e]
    simp only [bind, Except.bind]
    rw [ih fun q hq => hf q (by simp [hq])]
    congr 1
    funext d
    unfold bucket
    rw [List.filter_cons]
    by_cases hd : d = c
    · subst hd
      rw [Function.update_self, if_pos (by simp [hc])]
      simp
    · rw [Function.update_of_ne hd, if_neg (by simp [hc, Ne.symm hd])]

theorem foldlM_rows {N : ℕ} (idx : Fin m → Option (Fin n)) (rowOf : Fin N → Fin m)
    (t : Fin N → Sparse m)
    (f : Fin N → (Fin n → Sparse m) → Fin m × ℚ → Res (Fin n → Sparse m))
    (hf : ∀ i, ∀ p ∈ t i, ∃ c, idx p.1 = some c ∧ ∀ acc, f i acc p
      = .ok (Function.update acc c (acc c ++ [(rowOf i, p.2)])))
    (l : List (Fin N)) (acc : Fin n → Sparse m) :
    l.foldlM (fun acc i => (t i).foldlM (f i) acc) acc
      = .ok fun c => acc c ++ l.flatMap fun i => bucket idx (t i) (rowOf i) c := by
  induction l generalizing acc with
  | nil => simp [pure, Except.pure]
  | cons i l ih =>
    rw [List.foldlM_cons, foldlM_push idx (rowOf i) (f i) (t i) (hf i)]
    simp only [bind, Except.bind]
    rw [ih]
    simp

theorem bucket_eq {idx : Fin m → Option (Fin n)} {t : Sparse m} (ht : SVec.WF t) (row : Fin m)
    (c : Fin n) (j : Fin m) (hj : ∀ i, idx i = some c ↔ i = j) :
    bucket idx t row c = match (SVec.get? t j).map fun x => (row, x) with
      | some b => [b]
      | none => [] := by
  unfold bucket
  simp only [hj]
  induction t with
  | nil => simp [SVec.get?]
  | cons p t ih =>
    obtain ⟨h1, h2, h3⟩ := SVec.wf_cons.1 ht
    rw [List.filter_cons]
    by_cases hp : p.1 = j
    · rw [if_pos (by simp [hp])]
      have hnone : (t.filter fun p => decide (p.1 = j)) = [] := by
        rw [List.filter_eq_nil_iff]
        intro q hq
        have := h1 q hq
        simp only [decide_eq_true_eq]
        rintro rfl
        rw [hp] at this
        exact absurd this (lt_irrefl _)
      have hget : SVec.get? (p :: t) j = some p.2 := by
        have := SVec.get?_some ht (i := j) (by
          rw [← hp, SVec.val_of_mem ht (by simp)]; exact h2)
        rw [this, ← hp, SVec.val_of_mem ht (by simp)]
      rw [hnone, hget]
      simp
    · rw [if_neg (by simp [hp]), ih h3]
      have : SVec.get? (p :: t) j = SVec.get? t j := by
        rw [SVec.get?_eq ht, SVec.get?_eq h3, SVec.val_cons, if_neg hp, zero_add]
      rw [this]

theorem flatMap_bucket {N : ℕ} {idx : Fin m → Option (Fin n)} (rowOf : Fin N → Fin m)
    (t : Fin N → Sparse m) (ht : ∀ i, SVec.WF (t i)) (c : Fin n) (j : Fin m)
    (hj : ∀ i, idx i = some c ↔ i = j) (l : List (Fin N)) :
    (l.flatMap fun i => bucket idx (t i) (rowOf i) c) = l.filterMap fun i =>
      if True then (SVec.get? (t i) j).map fun x => (rowOf i, x) else none := by
  induction l with
  | nil => rfl
  | cons i l ih =>
    rw [List.flatMap_cons, ih, bucket_eq (ht i) (rowOf i) c j hj, List.filterMap_cons]
    simp only [if_true]
    cases (SVec.get? (t i) j) <;> simp

theorem collectUpper_ok {rows : Fin m → Sparse m} (hwf : ∀ i, SVec.WF (rows i))
    (hkey : ∀ i, ∀ p ∈ rows i, i ≤ p.1) (hdiag : ∀ i, SVec.val (rows i) i ≠ 0) :
    ∃ upper, collectUpper rows = .ok (upper, fun i => SVec.val (rows i) i) ∧
      (∀ j, SVec.WF (upper j)) ∧ (∀ j, ∀ p ∈ upper j, (p.1 : ℕ) < j + 1) ∧
      ∀ (j : Fin (m - 1)) (i : Fin m), SVec.val (upper j) i
        = if (i : ℕ) < j + 1 then SVec.val (rows i) ⟨j + 1, by omega⟩ else 0 := by
  have hrow : ∀ i, ∃ tail, rows i = (i, SVec.val (rows i) i) :: tail := by
    intro i
    obtain ⟨q, hq, hqi⟩ := SVec.exists_mem_of_val_ne_zero (hdiag i)
    cases hr : rows i with
    | nil => rw [hr] at hq; simp at hq
    | cons p tail =>
      have hw := hwf i
      rw [hr] at hw hq
      have hpi : p.1 = i := by
        rcases List.mem_cons.1 hq with rfl | hq
        · exact hqi
        · have h1 := (SVec.wf_cons.1 hw).1 q hq
          have h2 := hkey i p (by rw [hr]; simp)
          rw [hqi] at h1
          exact absurd h1 (not_lt.2 h2)
      refine ⟨tail, ?_⟩
      have := SVec.val_of_mem hw (p := p) (by simp)
      rw [hpi] at this
      rw [this, ← hpi]
  choose tail htail using hrow
  have htwf : ∀ i, SVec.WF (tail i) ∧ ∀ p ∈ tail i, i < p.1 := by
    intro i
    have hw := hwf i
    rw [htail i] at hw
    exact ⟨(SVec.wf_cons.1 hw).2.2, (SVec.wf_cons.1 hw).1⟩
  have htval : ∀ i j, i < j → SVec.val (tail i) j = SVec.val (rows i) j := by
    intro i j hij
    rw [htail i, SVec.val_cons, if_neg hij.ne, zero_add]
  let idx : Fin m → Option (Fin (m - 1)) := fun i =>
    if h : 0 < (i : ℕ) then some ⟨i - 1, by omega⟩ else none
  have hidx : ∀ (c : Fin (m - 1)) (i : Fin m), idx i = some c ↔ i = ⟨c + 1, by omega⟩ := by
    intro c i
    simp only [idx]
    split
    · rename_i h
      rw [Option.some_inj]
      constructor
      · intro e
        have := congrArg Fin.val e
        exact Fin.ext (by simp only at this ⊢; omega)
      · rintro rfl
        exact Fin.ext (by simp)
    · rename_i h
      constructor
      · intro e; simp at e
      · rintro rfl; simp at h
  have hdiagonal : tabulateM (fun i => match rows i with
      | [] => panic .indexOutOfBounds
      | (_, value) :: _ => .ok value) = .ok fun i => SVec.val (rows i) i :=
    tabulateM_ok fun i => by
      have := htail i
      split
      · rename_i h; rw [h] at this; simp at this
      · rename_i h
        rw [h] at this
        rw [h]
        simp only [List.cons.injEq, Prod.mk.injEq] at this
        rw [← this.1.2]
  have hfold := foldlM_rows idx (fun i : Fin m => i) (fun i => (rows i).tail)
    (fun i (upper : Fin (m - 1) → Sparse m) p =>
        if h : 0 < (p.1 : ℕ) then
          (.ok (Function.update upper ⟨p.1 - 1, by omega⟩
            (upper ⟨p.1 - 1, by omega⟩ ++ [(i, p.2)])) : Res _)
        else panic .underflow) (by
      intro i p hp
      have h0 : 0 < (p.1 : ℕ) := by
        rw [htail i] at hp
        have := (htwf i).2 p hp
        rw [Fin.lt_def] at this
        omega
      exact ⟨⟨p.1 - 1, by omega⟩, by simp [idx, h0], fun acc => by rw [dif_pos h0]⟩)
    (List.finRange m) (fun _ => [])
  have htl : ∀ i, (rows i).tail = tail i := fun i => by rw [htail i]; rfl
  let upper : Fin (m - 1) → Sparse m := fun c => (List.finRange m).filterMap fun i =>
      if True then (SVec.get? (tail i) ⟨c + 1, by omega⟩).map fun x => (i, x) else none
  have hupper : ∀ c, (([] : Sparse m) ++ (List.finRange m).flatMap fun i =>
      bucket idx ((rows i).tail) i c) = upper c := by
    intro c
    rw [List.nil_append]
    simp only [htl]
    exact flatMap_bucket (fun i : Fin m => i) tail (fun i => (htwf i).1) c ⟨c + 1, by omega⟩
      (hidx c) _
  refine ⟨upper, ?_, ?_, ?_, ?_⟩
  · unfold collectUpper
    erw [hdiagonal]
    simp only [bind, Except.bind]
    erw [hfold]
    simp only [pure, Except.pure, hupper]
  · intro j
    exact wf_collect (fun _ => True) tail (fun i => (htwf i).1) (fun i => i) (fun a b h => h) _
  · intro j p hp
    obtain ⟨i, hi, he⟩ := List.mem_filterMap.1 hp
    simp only [if_true, Option.map_eq_some_iff] at he
    obtain ⟨x, hx, rfl⟩ := he
    have hne : SVec.val (tail i) ⟨j + 1, by omega⟩ ≠ 0 := by
      intro h0
      rw [SVec.get?_eq (htwf i).1, if_pos h0] at hx
      simp at hx
    obtain ⟨q, hq, hqe⟩ := SVec.exists_mem_of_val_ne_zero hne
    have := (htwf i).2 q hq
    rw [hqe, Fin.lt_def] at this
    exact this
  · intro j i
    have := val_collect (fun _ => True) tail (fun i => (htwf i).1) (fun i => i) ⟨j + 1, by omega⟩ i
    refine Eq.trans this ?_
    simp only [true_and, Finset.sum_ite_eq', Finset.mem_univ, if_true]
    split
    · rename_i h
      exact htval i _ (by rw [Fin.lt_def]; exact h)
    · rename_i h
      apply SVec.val_eq_zero_of_notMem
      intro p hp he
      have := (htwf i).2 p hp
      rw [he, Fin.lt_def] at this
      exact h this

theorem collectLower_ok {s : Elimination m} (hwf : ∀ i, SVec.WF (lowerRowOf s i))
    (hkey : ∀ i, ∀ p ∈ lowerRowOf s i, p.1 < i) :
    ∃ lower, collectLower s.lowerRowMajor = .ok lower ∧
      (∀ j, SVec.WF (lower j)) ∧ (∀ j, ∀ p ∈ lower j, (j : ℕ) < p.1) ∧
      ∀ (j : Fin (m - 1)) (i : Fin m), SVec.val (lower j) i
        = SVec.val (lowerRowOf s i) ⟨j, by omega⟩ := by
  have hrow : ∀ i : Fin (m - 1), lowerRowOf s ⟨i + 1, by omega⟩ = s.lowerRowMajor i := by
    intro i
    unfold lowerRowOf
    rw [dif_pos (by simp)]
    rfl
  let t := s.lowerRowMajor
  have htwf : ∀ i : Fin (m - 1), SVec.WF (t i) ∧ ∀ p ∈ t i, (p.1 : ℕ) < i + 1 := by
    intro i
    have h1 := hwf ⟨i + 1, by omega⟩
    have h2 := hkey ⟨i + 1, by omega⟩
    rw [hrow] at h1 h2
    exact ⟨h1, fun p hp => h2 p hp⟩
  let idx : Fin m → Option (Fin (m - 1)) := fun i =>
    if h : (i : ℕ) < m - 1 then some ⟨i, h⟩ else none
  have hidx : ∀ (c : Fin (m - 1)) (i : Fin m), idx i = some c ↔ i = ⟨c, by omega⟩ := by
    intro c i
    simp only [idx]
    split
    · rename_i h
      rw [Option.some_inj]
      constructor
      · intro e
        have := congrArg Fin.val e
        exact Fin.ext (by simpa using this)
      · rintro rfl
        rfl
    · rename_i h
      constructor
      · intro e; simp at e
      · rintro rfl; exact absurd c.2 h
  have hfold := foldlM_rows idx (fun i : Fin (m - 1) => (⟨i + 1, by omega⟩ : Fin m)) t
    (fun i (lower : Fin (m - 1) → Sparse m) p =>
        if h : (p.1 : ℕ) < m - 1 then
          (.ok (Function.update lower ⟨p.1, h⟩ (lower ⟨p.1, h⟩ ++ [((⟨i + 1, by omega⟩ : Fin m), p.2)])) :
            Res _)
        else panic .indexOutOfBounds) (by
      intro i p hp
      have h0 : (p.1 : ℕ) < m - 1 := by
        have := (htwf i).2 p hp
        omega
      exact ⟨⟨p.1, h0⟩, by simp [idx, h0], fun acc => by rw [dif_pos h0]⟩)
    (List.finRange (m - 1)) (fun _ => [])
  let lower : Fin (m - 1) → Sparse m := fun c => (List.finRange (m - 1)).filterMap fun i =>
      if True then (SVec.get? (t i) ⟨c, by omega⟩).map fun x => ((⟨i + 1, by omega⟩ : Fin m), x)
      else none
  have hlower : ∀ c, (([] : Sparse m) ++ (List.finRange (m - 1)).flatMap fun i =>
      bucket idx (t i) ⟨i + 1, by omega⟩ c) = lower c := by
    intro c
    rw [List.nil_append]
    exact flatMap_bucket _ t (fun i => (htwf i).1) c ⟨c, by omega⟩ (hidx c) _
  refine ⟨lower, ?_, ?_, ?_, ?_⟩
  · unfold collectLower
    erw [hfold]
    simp only [hlower]
  · intro j
    exact wf_collect (fun _ => True) t (fun i => (htwf i).1) _
      (fun a b h => by simp only [Fin.lt_def] at *; omega) _
  · intro j p hp
    obtain ⟨i, hi, he⟩ := List.mem_filterMap.1 hp
    simp only [if_true, Option.map_eq_some_iff] at he
    obtain ⟨x, hx, rfl⟩ := he
    have hne : SVec.val (t i) ⟨j, by omega⟩ ≠ 0 := by
      intro h0
      rw [SVec.get?_eq (htwf i).1, if_pos h0] at hx
      simp at hx
    obtain ⟨q, hq, hqe⟩ := SVec.exists_mem_of_val_ne_zero hne
    have := (htwf i).2 q hq
    rw [hqe] at this
    exact this
  · intro j i
    have := val_collect (fun _ => True) t (fun i => (htwf i).1)
      (fun i => (⟨i + 1, by omega⟩ : Fin m)) ⟨j, by omega⟩ i
    refine Eq.trans this ?_
    simp only [true_and]
    by_cases hi : 0 < (i : ℕ)
    · rw [Finset.sum_eq_single (⟨(i : ℕ) - 1, by omega⟩ : Fin (m - 1))]
      · rw [if_pos (Fin.ext (by simp only; omega))]
        unfold lowerRowOf
        rw [dif_pos hi]
      · intro b _ hb
        rw [if_neg]
        intro e
        have := congrArg Fin.val e
        simp only at this
        exact hb (Fin.ext (by simp only; omega))
      · simp
    · have h0 : lowerRowOf s i = [] := by unfold lowerRowOf; rw [dif_neg hi]
      rw [h0, SVec.val_nil]
      apply Finset.sum_eq_zero
      intro b _
      rw [if_neg]
      intro e
      have := congrArg Fin.val e
      simp only at this
      omega

theorem inv_start {rows : Fin m → Sparse m} (h : ∀ i, SVec.WF (rows i)) :
    Inv (Matrix.of fun i j => SVec.val (rows i) j) {
      rows
      rowPermutation := fun i => i
      columnPermutation := fun i => i
      lowerRowMajor := fun _ => []
      nnzRow := fun i => (rows i).length
      nnzColumn := countColumns rows } 0 := by
  have hl : ∀ (s : Elimination m), s.lowerRowMajor = (fun _ => []) → ∀ i, lowerRowOf s i = [] := by
    intro s hs i; unfold lowerRowOf; split
    · rw [hs]
    · rfl
  have hl' := hl {
      rows
      rowPermutation := fun i => i
      columnPermutation := fun i => i
      lowerRowMajor := fun _ => []
      nnzRow := fun i => (rows i).length
      nnzColumn := countColumns rows } rfl
  refine ⟨fun _ _ h => h, fun _ _ h => h, h, by simp, by simp, ?_, ?_, ?_, fun _ _ => rfl, ?_⟩
  · intro i; rw [hl _ rfl]; exact SVec.WF.nil
  · intro i p hp; rw [hl _ rfl] at hp; simp at hp
  · intro i j; simp [hl']
  · intro j _
    simp [countColumns_eq, columnCount]

/-- The factors that are computed, after a complete elimination. -/
theorem ofRows_run (hm : m ≠ 0) {rows : Fin m → Sparse m} {s : Elimination m}
    (e : (List.finRange m).foldlM eliminationStep {
      rows
      rowPermutation := fun i => i
      columnPermutation := fun i => i
      lowerRowMajor := fun _ => []
      nnzRow := fun i => (rows i).length
      nnzColumn := countColumns rows } = .ok s)
    (h : Inv (Matrix.of fun i j => SVec.val (rows i) j) s m) :
    ∃ lu : LU m, ofRows rows = .ok lu ∧ lu.rowPermutation.Valid ∧ lu.columnPermutation.Valid ∧
      LowerOk lu ∧ UpperOk lu ∧ lu.updates = [] ∧
      lu.lowerMatrix * lu.upperMatrix = (Matrix.of fun i j => SVec.val (rows i) j).submatrix
        lu.rowPermutation.bwd lu.columnPermutation.bwd := by
  obtain ⟨upper, u1, u2, u3, u4⟩ := collectUpper_ok h.wf
    (fun i p hp => by
      have := h.key i p hp
      rw [Fin.le_def]; omega)
    (fun i => h.diagonal i i.2)
  obtain ⟨lower, l1, l2, l3, l4⟩ := collectLower_ok h.lower_wf
    (fun i p hp => by
      have := h.lower_key i p hp
      rw [Fin.lt_def]; omega)
  refine ⟨{ rowPermutation := (Full.new s.rowPermutation).invert
            columnPermutation := (Full.new s.columnPermutation).invert
            lowerTriangular := lower, upperTriangular := upper
            upperDiagonal := fun i => SVec.val (s.rows i) i, updates := [] },
    ?_, (Full.new_valid h.row_injective).invert, (Full.new_valid h.column_injective).invert,
    ⟨l2, l3⟩, ⟨u2, u3, fun i => h.diagonal i i.2⟩, rfl, ?_⟩
  · unfold ofRows
    rw [if_neg hm]
    simp only [bind, Except.bind, e, u1, l1, pure, Except.pure]
  · ext i j
    rw [submatrix_apply]
    refine Eq.trans ?_ (h.product i j).symm
    rw [mul_apply]
    simp only [upperMatrix_apply, lowerMatrix, of_apply]
    have hU : ∀ l : Fin m, ((if l = j then SVec.val (s.rows j) j else 0) +
        offDiagonal { rowPermutation := (Full.new s.rowPermutation).invert
                      columnPermutation := (Full.new s.columnPermutation).invert
                      lowerTriangular := lower, upperTriangular := upper
                      upperDiagonal := fun i => SVec.val (s.rows i) i, updates := [] } j l)
        = SVec.val (s.rows l) j := by
      intro l
      have hlow : ¬ (l : ℕ) ≤ j → SVec.val (s.rows l) j = 0 := by
        intro hlj
        apply SVec.val_eq_zero_of_notMem
        intro p hp he
        have h1 := h.key l p hp
        rw [he] at h1
        omega
      unfold offDiagonal
      by_cases hj : 0 < (j : ℕ)
      · rw [dif_pos hj]
        simp only [upperColumn, u4]
        have hjj : (⟨(j : ℕ) - 1 + 1, by omega⟩ : Fin m) = j := Fin.ext (by simp only; omega)
        simp only [hjj]
        by_cases hl : l = j
        · subst hl
          rw [if_pos rfl, if_neg (by omega), add_zero]
        · have hne : (l : ℕ) ≠ j := fun e => hl (Fin.ext e)
          rw [if_neg hl, zero_add]
          split
          · rfl
          · rw [hlow (by omega)]
      · rw [dif_neg hj, add_zero]
        by_cases hl : l = j
        · subst hl; simp
        · have hne : (l : ℕ) ≠ j := fun e => hl (Fin.ext e)
          rw [if_neg hl, hlow (by omega)]
    have hL : ∀ l : Fin m, (if h : (l : ℕ) < m - 1 then
        SVec.val (lower ⟨l, h⟩) i else 0) = SVec.val (lowerRowOf s i) l := by
      intro l
      split
      · rw [l4]
      · rename_i hl
        symm
        apply SVec.val_eq_zero_of_notMem
        rintro p hp rfl
        have h1 := h.lower_key i p hp
        omega
    simp only [hU, lowerColumn, hL, add_mul, Finset.sum_add_distrib]
    congr 1
    simp

/-- The factors that are computed for an invertible matrix. -/
theorem ofRows_ok (hm : m ≠ 0) {rows : Fin m → Sparse m} (hwf : ∀ i, SVec.WF (rows i))
    {Y : Matrix (Fin m) (Fin m) ℚ} (hY : (Matrix.of fun i j => SVec.val (rows i) j) * Y = 1) :
    ∃ lu : LU m, ofRows rows = .ok lu ∧ lu.rowPermutation.Valid ∧ lu.columnPermutation.Valid ∧
      LowerOk lu ∧ UpperOk lu ∧ lu.updates = [] ∧
      lu.lowerMatrix * lu.upperMatrix = (Matrix.of fun i j => SVec.val (rows i) j).submatrix
        lu.rowPermutation.bwd lu.columnPermutation.bwd := by
  obtain ⟨s, e, -, h⟩ := (inv_start hwf).run hY
  exact ofRows_run hm e h

theorem invert_rep (hm : m ≠ 0) {columns : Fin m → Sparse m} (hc : ∀ i, SVec.WF (columns i))
    {M : Matrix (Fin m) (Fin m) ℚ} (hM : M * columnsMatrix columns = 1) :
    ∃ lu : LU m, invert columns = .ok lu ∧ Rep lu M ∧ lu.updates = [] := by
  have hB : (Matrix.of fun i j => SVec.val (Carry.transposeColumns columns i) j)
      = columnsMatrix columns := by
    ext i j
    simp only [of_apply, Carry.transposeColumns_val, columnsMatrix]
  obtain ⟨lu, e, h1, h2, h3, h4, h5, h6⟩ := ofRows_ok hm
    (fun i => Carry.transposeColumns_wf hc i) (Y := M) (by rw [hB]; exact mul_eq_one_comm.1 hM)
  rw [hB] at h6
  refine ⟨lu, e, ⟨h1, h2, h3, h4, by simp [h5], ?_⟩, h5⟩
  have hrow : lu.rowOfPosition = lu.columnPermutation.bwd := by
    funext k; simp [rowOfPosition, h5]
  refine ⟨lu.upperMatrix * M.submatrix lu.rowOfPosition id, ?_, by simp [h5, updatesMatrix]⟩
  rw [← Matrix.mul_assoc, h6, hrow]
  have := Matrix.submatrix_mul_equiv (columnsMatrix columns) M lu.rowPermutation.bwd
    (⟨lu.columnPermutation.bwd, lu.columnPermutation.fwd, h2.fwd_bwd, h2.bwd_fwd⟩ : Fin m ≃ Fin m)
    (id : Fin m → Fin m)
  rw [mul_eq_one_comm.1 hM] at this
  exact this

end Relp.LU

namespace Relp

/-- The LU decomposition satisfies the laws for two or more rows. -/
instance : LawfulBasisInverse LU where
  OkDim m := 2 ≤ m
  OkInvert m := m ≠ 0
  Rep := LU.Rep
  identity_ok hm := LU.identity_rep (by omega)
  invert_ok hm _ hc _ hM := by
    obtain ⟨lu, h1, h2, _⟩ := LU.invert_rep hm hc hM
    exact ⟨lu, h1, h2⟩
  refactor_ok hm _ _ _ _ := by omega
  left_ok _ _ _ h _ hc := by
    obtain ⟨info, h1, h2, _, h4, _⟩ := h.left hc
    exact ⟨info, h1, h2, h4⟩
  change_ok hm _ _ h _ hc _ hi _ _ hp := by
    obtain ⟨lu', h1, _, h2, _⟩ := h.change hm hc hi hp
    exact ⟨lu', h1, h2⟩
  right_ok _ _ _ h _ hr _ := h.right hr
  element_ok _ _ _ h _ hc i := h.element hc i
  row_ok _ _ _ h i := h.row i
  remove_ok _ _ _ _ _ _ hk _ hc hM := by
    obtain ⟨lu, h1, h2, _⟩ := LU.invert_rep (by omega) hc hM
    exact ⟨lu, h1, h2⟩

end Relp
