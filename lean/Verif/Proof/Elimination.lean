import Verif.Proof.LUChange
import Verif.Proof.Carry
import Mathlib.LinearAlgebra.Matrix.Block

/-!
# Correctness of the elimination that computes the LU decomposition
-/

namespace Relp.LU

open Matrix Permutation

variable {m : ℕ}

/-- The columns in which a sparse row has an item. -/
abbrev keys (v : Sparse m) : List (Fin m) := v.map Prod.fst

theorem nodup_keys {v : Sparse m} (hv : SVec.WF v) : (keys v).Nodup := by
  rw [List.Nodup, List.pairwise_map]
  exact hv.sorted.imp fun h => h.ne

theorem count_keys_le {v : Sparse m} (hv : SVec.WF v) (j : Fin m) : (keys v).count j ≤ 1 :=
  (List.nodup_iff_count_le_one.1 (nodup_keys hv)) j

theorem count_keys_pos {v : Sparse m} {p : Fin m × ℚ} (hp : p ∈ v) : 1 ≤ (keys v).count p.1 :=
  List.count_pos_iff.2 (List.mem_map.2 ⟨p, hp, rfl⟩)

/-! ### Counters -/

theorem decrement_ok {counts : Fin m → ℕ} {i : Fin m} (h : 1 ≤ counts i) :
    decrement counts i = .ok (Function.update counts i (counts i - 1)) := by
  simp [decrement, checkedSub, h, bind, Except.bind, pure, Except.pure]

theorem foldlM_decrement (l : List (Fin m)) (counts : Fin m → ℕ) (h : ∀ j, l.count j ≤ counts j) :
    l.foldlM decrement counts = .ok fun j => counts j - l.count j := by
  induction l generalizing counts with
  | nil => simp [pure, Except.pure]
  | cons a l ih =>
    have ha : 1 ≤ counts a := by
      have := h a
      rw [List.count_cons_self] at this
      omega
    rw [List.foldlM_cons, decrement_ok ha]
    simp only [bind, Except.bind]
    rw [ih]
    · congr 1
      funext j
      by_cases hj : j = a
      · subst hj; rw [Function.update_self, List.count_cons_self]; omega
      · rw [Function.update_of_ne hj, List.count_cons_of_ne (Ne.symm hj)]
    · intro j
      have := h j
      by_cases hj : j = a
      · subst hj; rw [Function.update_self]; rw [List.count_cons_self] at this; omega
      · rw [Function.update_of_ne hj]; rwa [List.count_cons_of_ne (Ne.symm hj)] at this

theorem foldl_increment (l : List (Fin m)) (counts : Fin m → ℕ) :
    l.foldl (fun counts j => Function.update counts j (counts j + 1)) counts
      = fun j => counts j + l.count j := by
  induction l generalizing counts with
  | nil => simp
  | cons a l ih =>
    rw [List.foldl_cons, ih]
    funext j
    by_cases hj : j = a
    · subst hj; rw [Function.update_self, List.count_cons_self]; omega
    · rw [Function.update_of_ne hj, List.count_cons_of_ne (Ne.symm hj)]

theorem countColumns_eq (rows : Fin m → Sparse m) :
    countColumns rows = fun j => ∑ i, (keys (rows i)).count j := by
  have h1 : ∀ (v : Sparse m) (counts : Fin m → ℕ),
      v.foldl (fun counts p => Function.update counts p.1 (counts p.1 + 1)) counts
        = fun j => counts j + (keys v).count j := by
    intro v counts
    rw [← foldl_increment, keys, List.foldl_map]
  have h2 : ∀ (l : List (Fin m)) (counts : Fin m → ℕ),
      l.foldl (fun counts i => (rows i).foldl
        (fun counts p => Function.update counts p.1 (counts p.1 + 1)) counts) counts
        = fun j => counts j + (l.map fun i => (keys (rows i)).count j).sum := by
    intro l
    induction l with
    | nil => intro counts; simp
    | cons a l ih =>
      intro counts
      rw [List.foldl_cons, ih, h1]
      funext j
      simp; ring
  unfold countColumns
  rw [h2]
  funext j
  rw [zero_add, ← List.ofFn_eq_map, List.sum_ofFn]

/-! ### Subtracting rows -/

theorem subtractMultiple_fst (ratio : ℚ) (v w : Sparse m) :
    (subtractMultiple ratio v w).1 = SVec.addMultiple (-ratio) v w := by
  fun_induction subtractMultiple ratio v w with
  | case1 => simp [SVec.addMultiple]
  | case2 i y w new removed added h ih =>
    simp_all [SVec.addMultiple]; ring
  | case3 j x v new removed added h ih => simp_all [SVec.addMultiple]
  | case4 j x v i y w hij new removed added h ih =>
    simp_all [SVec.addMultiple]; ring
  | case5 x v i y w product new removed added h hne hij ih =>
    have hp : x + y * -ratio = x - product := by simp only [product]; ring
    have hne' : x - product ≠ 0 := fun e => hne (by linarith)
    simp only [h] at ih
    rw [SVec.addMultiple, if_neg (lt_irrefl _), if_pos rfl, hp, if_pos hne', ih]
  | case6 x v i y w product new removed added h hne hij ih =>
    have hp : x + y * -ratio = x - product := by simp only [product]; ring
    have hne' : x - product = 0 := by simp only [ne_eq, not_not] at hne; linarith
    simp only [h] at ih
    rw [SVec.addMultiple, if_neg (lt_irrefl _), if_pos rfl, hp, if_neg (by simp [hne']), ih]
  | case7 j x v i y w hij hne new removed added h ih =>
    simp only [h] at ih
    rw [SVec.addMultiple, if_neg hij, if_neg (Ne.symm hne), ih]

theorem subtractMultiple_count (ratio : ℚ) (v w : Sparse m) (j : Fin m) :
    (keys (subtractMultiple ratio v w).1).count j + (subtractMultiple ratio v w).2.1.count j
      = (keys v).count j + (subtractMultiple ratio v w).2.2.count j ∧
    (subtractMultiple ratio v w).2.1.count j ≤ (keys v).count j := by
  fun_induction subtractMultiple ratio v w <;> simp_all [List.count_cons]
  all_goals
    simp only [keys] at *
    omega

/-! ### Choosing a pivot -/

theorem minByKey_ok {α : Type} (key : α → Res ℕ) (l : List α) (hne : l ≠ [])
    (h : ∀ a ∈ l, ∃ n, key a = .ok n) : ∃ a ∈ l, ∃ n, minByKey key l = .ok (some (a, n)) := by
  induction l with
  | nil => exact absurd rfl hne
  | cons a l ih =>
    obtain ⟨n, hn⟩ := h a (by simp)
    by_cases hl : l = []
    · subst hl
      exact ⟨a, by simp, n, by simp [minByKey, hn, bind, Except.bind, pure, Except.pure]⟩
    · obtain ⟨b, hb, k, hk⟩ := ih hl fun c hc => h c (by simp [hc])
      by_cases hlt : k < n
      · exact ⟨b, by simp [hb], k, by
          simp [minByKey, hn, hk, bind, Except.bind, pure, Except.pure, hlt]⟩
      · exact ⟨a, by simp, n, by
          simp [minByKey, hn, hk, bind, Except.bind, pure, Except.pure, hlt]⟩

/-! ### The invariant -/

/-- Row of the lower factor that is stored so far. -/
def lowerRowOf (s : Elimination m) (i : Fin m) : Sparse m :=
  if h : 0 < (i : ℕ) then s.lowerRowMajor ⟨i - 1, by omega⟩ else []

/-- Number of items in column `j` of the rows from `k`. -/
def columnCount (rows : Fin m → Sparse m) (k : ℕ) (j : Fin m) : ℕ :=
  ∑ i : Fin m, if k ≤ (i : ℕ) then (keys (rows i)).count j else 0

/-- The invariant before the step with number `k`. -/
structure Inv (B : Matrix (Fin m) (Fin m) ℚ) (s : Elimination m) (k : ℕ) : Prop where
  row_injective : Function.Injective s.rowPermutation
  column_injective : Function.Injective s.columnPermutation
  wf : ∀ i, SVec.WF (s.rows i)
  key : ∀ i, ∀ p ∈ s.rows i, min k (i : ℕ) ≤ p.1
  diagonal : ∀ i : Fin m, (i : ℕ) < k → SVec.val (s.rows i) i ≠ 0
  lower_wf : ∀ i, SVec.WF (lowerRowOf s i)
  lower_key : ∀ i, ∀ p ∈ lowerRowOf s i, (p.1 : ℕ) < min k (i : ℕ)
  product : ∀ i j, B (s.rowPermutation i) (s.columnPermutation j)
    = SVec.val (s.rows i) j + ∑ l, SVec.val (lowerRowOf s i) l * SVec.val (s.rows l) j
  nnzRow : ∀ i : Fin m, k ≤ (i : ℕ) → s.nnzRow i = (s.rows i).length
  nnzColumn : ∀ j : Fin m, k ≤ (j : ℕ) → s.nnzColumn j = columnCount s.rows k j

/-- The remaining rows form an invertible matrix. -/
theorem Inv.rows_inverse {B Y : Matrix (Fin m) (Fin m) ℚ} (hB : B * Y = 1) {s : Elimination m} {k : ℕ}
    (h : Inv B s k) : ∃ Z, (Matrix.of fun i j => SVec.val (s.rows i) j) * Z = 1 := by
  let R : Matrix (Fin m) (Fin m) ℚ := Matrix.of fun i j => SVec.val (s.rows i) j
  let N : Matrix (Fin m) (Fin m) ℚ := Matrix.of fun i j => SVec.val (lowerRowOf s i) j
  have h1 : (1 + N) * R = B.submatrix s.rowPermutation s.columnPermutation := by
    ext a b
    rw [add_mul, one_mul, Matrix.add_apply, mul_apply, submatrix_apply, h.product]
    rfl
  have hbc : Function.Bijective s.columnPermutation :=
    Finite.injective_iff_bijective.1 h.column_injective
  have h2 : B.submatrix s.rowPermutation s.columnPermutation *
      Y.submatrix s.columnPermutation s.rowPermutation = 1 := by
    have := Matrix.submatrix_mul_equiv B Y s.rowPermutation (Equiv.ofBijective _ hbc) s.rowPermutation
    rw [hB, Matrix.submatrix_one _ h.row_injective] at this
    exact this
  rw [← h1, Matrix.mul_assoc] at h2
  have h3 := mul_eq_one_comm.1 h2
  rw [Matrix.mul_assoc] at h3
  exact ⟨_, h3⟩

/-- Rows stay non-empty because the matrix is invertible. -/
theorem Inv.row_ne_nil {B Y : Matrix (Fin m) (Fin m) ℚ} (hB : B * Y = 1) {s : Elimination m} {k : ℕ}
    (h : Inv B s k) (i : Fin m) : s.rows i ≠ [] := by
  intro hnil
  obtain ⟨Z, h3⟩ := h.rows_inverse hB
  have h4 := congrFun (congrFun h3 i) i
  rw [mul_apply] at h4
  have h5 : ∀ j, (Matrix.of fun i j => SVec.val (s.rows i) j) i j = 0 := by intro j; simp [hnil]
  simp [h5] at h4

/-- The columns that were not chosen keep an item below the triangle. -/
theorem Inv.columnCount_pos {B Y : Matrix (Fin m) (Fin m) ℚ} (hB : B * Y = 1) {s : Elimination m} {k : ℕ}
    (h : Inv B s k) {j : Fin m} (hj : k ≤ (j : ℕ)) : 0 < columnCount s.rows k j := by
  by_contra hc
  have hc0 : columnCount s.rows k j = 0 := by omega
  unfold columnCount at hc0
  rw [Finset.sum_eq_zero_iff] at hc0
  have hval : ∀ i : Fin m, k ≤ (i : ℕ) → SVec.val (s.rows i) j = 0 := by
    intro i hi
    have := hc0 i (Finset.mem_univ i)
    rw [if_pos hi] at this
    by_contra hne
    obtain ⟨q, hq, rfl⟩ := SVec.exists_mem_of_val_ne_zero hne
    have := count_keys_pos hq
    omega
  obtain ⟨Z, h3⟩ := h.rows_inverse hB
  set R : Matrix (Fin m) (Fin m) ℚ := Matrix.of fun i j => SVec.val (s.rows i) j with hR
  have hdet : IsUnit R.det := by
    rw [← Matrix.isUnit_iff_isUnit_det]
    exact IsUnit.of_mul_eq_one _ h3
  have htri := Matrix.twoBlockTriangular_det R (fun c : Fin m => (c : ℕ) < k) (by
    intro i hi c hc
    rw [hR, Matrix.of_apply]
    apply SVec.val_eq_zero_of_notMem
    intro p hp he
    have := h.key i p hp
    rw [he] at this
    omega)
  have hz : (R.toSquareBlockProp fun c : Fin m => ¬ (c : ℕ) < k).det = 0 := by
    apply Matrix.det_eq_zero_of_column_eq_zero ⟨j, by omega⟩
    rintro ⟨i, hi⟩
    exact hval i (by omega)
  rw [htri, hz, mul_zero] at hdet
  exact not_isUnit_zero hdet

theorem Inv.choose {B Y : Matrix (Fin m) (Fin m) ℚ} (hB : B * Y = 1) {s : Elimination m} {k : Fin m}
    (h : Inv B s k) : ∃ i j, choosePivot s k = .ok (i, j) ∧ k ≤ i ∧ k ≤ j ∧
      SVec.val (s.rows i) j ≠ 0 := by
  set pairs := (((List.finRange m).filter fun i => decide (k ≤ i)).flatMap fun i =>
    ((s.rows i).dropWhile fun p => decide (p.1 < k)).map fun p => (i, p.1)).insertionSort
      (fun p q => p.2 ≤ q.2) with hpairs
  have hmem : ∀ p, p ∈ pairs ↔ p ∈ ((List.finRange m).filter fun i => decide (k ≤ i)).flatMap fun i =>
      ((s.rows i).dropWhile fun p => decide (p.1 < k)).map fun p => (i, p.1) :=
    fun p => (List.perm_insertionSort _ _).mem_iff
  have hprop : ∀ p ∈ pairs, k ≤ p.1 ∧ ∃ x, (p.2, x) ∈ s.rows p.1 ∧ k ≤ p.2 := by
    intro p hp
    rw [hmem] at hp
    obtain ⟨i, hi, hp⟩ := List.mem_flatMap.1 hp
    obtain ⟨x, hx, rfl⟩ := List.mem_map.1 hp
    have hki : k ≤ i := by simpa using (List.mem_filter.1 hi).2
    exact ⟨hki, x.2, (List.dropWhile_sublist _).mem hx, dropWhile_le (h.wf i).sorted x hx⟩
  have hne : pairs ≠ [] := by
    have hk := h.row_ne_nil hB k
    obtain ⟨p, hp⟩ := List.exists_mem_of_ne_nil _ hk
    have hdw : (s.rows k).dropWhile (fun p => decide (p.1 < k)) = s.rows k := by
      cases hs : s.rows k with
      | nil => rfl
      | cons x v =>
        have := h.key k x (by rw [hs]; simp)
        simp only [min_self] at this
        rw [List.dropWhile_cons, if_neg (by simpa using Fin.le_def.2 this)]
    intro he
    have : (k, p.1) ∈ pairs := by
      rw [hmem]
      refine List.mem_flatMap.2 ⟨k, by simp, ?_⟩
      rw [hdw]
      exact List.mem_map.2 ⟨p, hp, rfl⟩
    rw [he] at this
    simp at this
  have hkeys : ∀ p ∈ pairs, ∃ n, (do
      let a ← checkedSub (s.nnzRow p.1) 1
      let b ← checkedSub (s.nnzColumn p.2) 1
      pure (a * b) : Res ℕ) = .ok n := by
    intro p hp
    obtain ⟨h1, x, h2, h3⟩ := hprop p hp
    have hr : 1 ≤ s.nnzRow p.1 := by
      rw [h.nnzRow _ h1]
      exact List.length_pos_of_mem h2
    have hc : 1 ≤ s.nnzColumn p.2 := by
      rw [h.nnzColumn _ h3, columnCount]
      refine le_trans ?_ (Finset.single_le_sum (fun _ _ => Nat.zero_le _) (Finset.mem_univ p.1))
      rw [if_pos (show (k : ℕ) ≤ p.1 from h1)]
      exact count_keys_pos h2
    simp [checkedSub, hr, hc, bind, Except.bind, pure, Except.pure]
  obtain ⟨p, hp, n, hn⟩ := minByKey_ok _ pairs hne hkeys
  obtain ⟨h1, x, h2, h3⟩ := hprop p hp
  refine ⟨p.1, p.2, ?_, h1, h3, ?_⟩
  · unfold choosePivot
    simp only [← hpairs]
    rw [hn]
    rfl
  · rw [SVec.val_of_mem (h.wf p.1) h2]
    exact (h.wf p.1).nonzero _ h2

/-! ### Swaps -/

theorem swapAt_eq {α : Type} (i j : Fin m) (f : Fin m → α) :
    swapAt i j f = f ∘ (⟨i, j⟩ : Swap m).forward := by
  funext k
  simp only [swapAt, Function.comp, Swap.forward]
  split
  · rfl
  · split <;> rfl

theorem swap_of_lt {s : Swap m} {k : ℕ} (h0 : k ≤ (s.index0 : ℕ)) (h1 : k ≤ (s.index1 : ℕ))
    {i : Fin m} (hi : (i : ℕ) < k) : s.forward i = i := by
  unfold Swap.forward
  rw [if_neg (by rintro rfl; omega), if_neg (by rintro rfl; omega)]

theorem swap_of_ge {s : Swap m} {k : ℕ} (h0 : k ≤ (s.index0 : ℕ)) (h1 : k ≤ (s.index1 : ℕ))
    {i : Fin m} (hi : k ≤ (i : ℕ)) : k ≤ (s.forward i : ℕ) := by
  unfold Swap.forward
  split
  · exact h1
  · split
    · exact h0
    · exact hi

theorem min_swap {s : Swap m} {k : ℕ} (h0 : k ≤ (s.index0 : ℕ)) (h1 : k ≤ (s.index1 : ℕ))
    (i : Fin m) : min k (s.forward i : ℕ) = min k (i : ℕ) := by
  by_cases hi : (i : ℕ) < k
  · rw [swap_of_lt h0 h1 hi]
  · have := swap_of_ge h0 h1 (not_lt.1 hi)
    omega

theorem le_swap {s : Swap m} {k : ℕ} (h0 : k ≤ (s.index0 : ℕ)) (h1 : k ≤ (s.index1 : ℕ))
    (i : Fin m) : k ≤ (s.forward i : ℕ) ↔ k ≤ (i : ℕ) := by
  have := min_swap h0 h1 i
  omega

/-- A swap as an equivalence. -/
def swapEquiv (s : Swap m) : Fin m ≃ Fin m :=
  ⟨s.forward, s.forward, s.forward_forward, s.forward_forward⟩

theorem Inv.swapRows {B : Matrix (Fin m) (Fin m) ℚ} {s : Elimination m} {k : Fin m} (h : Inv B s k)
    {r : Fin m} (hr : k ≤ r) : Inv B (swapRows s r k) k ∧
      (∀ i, (LU.swapRows s r k).rows i = s.rows ((⟨r, k⟩ : Swap m).forward i)) := by
  have hr' : (k : ℕ) ≤ r := hr
  by_cases hrk : r = k
  · have hσ : ∀ i, (⟨r, k⟩ : Swap m).forward i = i := by
      intro i; unfold Swap.forward; subst hrk
      split
      · rename_i e; exact e.symm
      · rfl
    have : LU.swapRows s r k = s := by simp [LU.swapRows, hrk]
    rw [this]
    exact ⟨h, fun i => by rw [hσ]⟩
  set σ : Swap m := ⟨r, k⟩ with hσ
  have h0 : (k : ℕ) ≤ (σ.index0 : ℕ) := hr
  have h1 : (k : ℕ) ≤ (σ.index1 : ℕ) := le_refl _
  have hrows : (LU.swapRows s r k).rows = s.rows ∘ σ.forward := by
    simp only [LU.swapRows, ne_eq, hrk, not_false_eq_true, if_true, swapAt_eq]
    rfl
  have hrp : (LU.swapRows s r k).rowPermutation = s.rowPermutation ∘ σ.forward := by
    simp only [LU.swapRows, ne_eq, hrk, not_false_eq_true, if_true, swapAt_eq]
    rfl
  have hcp : (LU.swapRows s r k).columnPermutation = s.columnPermutation := by
    simp only [LU.swapRows, ne_eq, hrk, not_false_eq_true, if_true]
  have hnr : (LU.swapRows s r k).nnzRow = s.nnzRow ∘ σ.forward := by
    simp only [LU.swapRows, ne_eq, hrk, not_false_eq_true, if_true, swapAt_eq]
    rfl
  have hnc : (LU.swapRows s r k).nnzColumn = s.nnzColumn := by
    simp only [LU.swapRows, ne_eq, hrk, not_false_eq_true, if_true]
  have hlow : ∀ i, lowerRowOf (LU.swapRows s r k) i = lowerRowOf s (σ.forward i) := by
    intro i
    by_cases hk0 : 0 < (k : ℕ)
    · have hr0 : 0 < (r : ℕ) := by omega
      have hi0 : 0 < (σ.forward i : ℕ) ↔ 0 < (i : ℕ) := by
        have := le_swap (k := 1) (s := σ) hr0 hk0 i
        exact this
      unfold lowerRowOf
      by_cases hi : 0 < (i : ℕ)
      · rw [dif_pos hi, dif_pos (hi0.2 hi)]
        simp only [LU.swapRows, ne_eq, hrk, not_false_eq_true, if_true, hr0, hk0, and_self,
          dif_pos, swapAt]
        unfold Swap.forward
        by_cases e1 : i = r
        · subst e1; simp [hσ]
        · have e1' : ¬ (⟨(i : ℕ) - 1, by omega⟩ : Fin (m - 1)) = ⟨(r : ℕ) - 1, by omega⟩ := by
            intro e
            have := congrArg Fin.val e
            simp only at this
            exact e1 (Fin.ext (by omega))
          by_cases e2 : i = k
          · subst e2
            simp [hσ, e1', e1]
          · have e2' : ¬ (⟨(i : ℕ) - 1, by omega⟩ : Fin (m - 1)) = ⟨(k : ℕ) - 1, by omega⟩ := by
              intro e
              have := congrArg Fin.val e
              simp only at this
              exact e2 (Fin.ext (by omega))
            simp only [hσ, e1, e2, e1', e2', if_false]
      · rw [dif_neg hi, dif_neg (fun e => hi (hi0.1 e))]
    · have hemp : ∀ i, lowerRowOf s i = [] := by
        intro i
        cases hl : lowerRowOf s i with
        | nil => rfl
        | cons p v =>
          have := h.lower_key i p (by rw [hl]; simp)
          omega
      rw [hemp]
      have hsame : (LU.swapRows s r k).lowerRowMajor = s.lowerRowMajor := by
        simp only [LU.swapRows, ne_eq, hrk, not_false_eq_true, if_true, hk0, and_false,
          dif_neg]
      have := hemp i
      unfold lowerRowOf at *
      rw [hsame]; exact this
  refine ⟨⟨?_, ?_, ?_, ?_, ?_, ?_, ?_, ?_, ?_, ?_⟩, fun i => by rw [hrows]; rfl⟩
  · rw [hrp]; exact h.row_injective.comp σ.forward_injective
  · rw [hcp]; exact h.column_injective
  · intro i; rw [hrows]; exact h.wf _
  · intro i p hp
    rw [hrows] at hp
    have := h.key _ p hp
    rwa [min_swap h0 h1] at this
  · intro i hi
    rw [hrows, Function.comp, swap_of_lt h0 h1 hi]
    exact h.diagonal i hi
  · intro i; rw [hlow]; exact h.lower_wf _
  · intro i p hp
    rw [hlow] at hp
    have := h.lower_key _ p hp
    rwa [min_swap h0 h1] at this
  · intro i j
    rw [hrp, hcp, hrows]
    simp only [Function.comp, h.product, hlow]
    congr 1
    refine Finset.sum_congr rfl fun l _ => ?_
    by_cases hl : (l : ℕ) < k
    · rw [swap_of_lt h0 h1 hl]
    · rw [SVec.val_eq_zero_of_notMem (v := lowerRowOf s (σ.forward i)) (i := l)]
      · simp
      · rintro p hp rfl
        have := h.lower_key _ p hp
        omega
  · intro i hi
    rw [hnr, hrows]
    exact h.nnzRow _ ((le_swap h0 h1 i).2 hi)
  · intro j hj
    rw [hnc, h.nnzColumn j hj, columnCount, columnCount, hrows]
    refine (Fintype.sum_equiv (swapEquiv σ) _ _ fun i => ?_).symm
    simp only [swapEquiv, Equiv.coe_fn_mk, le_swap h0 h1, Function.comp]

theorem keys_swap (σ : Swap m) {v : Sparse m} (hv : SVec.WF v) :
    (keys (σ.forwardSorted v)).Perm ((keys v).map σ.forward) := by
  rw [σ.forwardSorted_eq hv]
  have := (sortByIndex_perm (v.map fun p => (σ.forward p.1, p.2))).map Prod.fst
  rw [List.map_map] at this
  rw [keys, keys, List.map_map]
  exact this

theorem val_swap (σ : Swap m) {v : Sparse m} (hv : SVec.WF v) (j : Fin m) :
    SVec.val (σ.forwardSorted v) j = SVec.val v (σ.forward j) := by
  rw [σ.forwardSorted_eq hv, val_sortByIndex, val_map_inverse σ.forward_forward σ.forward_forward]

theorem wf_swap (σ : Swap m) {v : Sparse m} (hv : SVec.WF v) : SVec.WF (σ.forwardSorted v) := by
  rw [σ.forwardSorted_eq hv]; exact wf_sortByIndex_map σ.forward_injective hv

theorem count_map_swap (σ : Swap m) (l : List (Fin m)) (j : Fin m) :
    (l.map σ.forward).count j = l.count (σ.forward j) := by
  conv_lhs => rw [← σ.forward_forward j]
  exact List.count_map_of_injective l σ.forward σ.forward_injective _

theorem Inv.swapColumns {B : Matrix (Fin m) (Fin m) ℚ} {s : Elimination m} {k : Fin m}
    (h : Inv B s k) {c : Fin m} (hc : k ≤ c) : Inv B (swapColumns s c k) k ∧
      (∀ i j, SVec.val ((LU.swapColumns s c k).rows i) j
        = SVec.val (s.rows i) ((⟨c, k⟩ : Swap m).forward j)) := by
  have hc' : (k : ℕ) ≤ c := hc
  by_cases hck : c = k
  · have hσ : ∀ i, (⟨c, k⟩ : Swap m).forward i = i := by
      intro i; unfold Swap.forward; subst hck
      split
      · rename_i e; exact e.symm
      · rfl
    have : LU.swapColumns s c k = s := by simp [LU.swapColumns, hck]
    rw [this]
    exact ⟨h, fun i j => by rw [hσ]⟩
  set σ : Swap m := ⟨c, k⟩ with hσ
  have h0 : (k : ℕ) ≤ (σ.index0 : ℕ) := hc
  have h1 : (k : ℕ) ≤ (σ.index1 : ℕ) := le_refl _
  have hrows : ∀ i, (LU.swapColumns s c k).rows i = σ.forwardSorted (s.rows i) := by
    intro i
    simp only [LU.swapColumns, ne_eq, hck, not_false_eq_true, if_true]
    rfl
  have hrp : (LU.swapColumns s c k).rowPermutation = s.rowPermutation := by
    simp only [LU.swapColumns, ne_eq, hck, not_false_eq_true, if_true]
  have hcp : (LU.swapColumns s c k).columnPermutation = s.columnPermutation ∘ σ.forward := by
    simp only [LU.swapColumns, ne_eq, hck, not_false_eq_true, if_true, swapAt_eq]
    rfl
  have hnr : (LU.swapColumns s c k).nnzRow = s.nnzRow := by
    simp only [LU.swapColumns, ne_eq, hck, not_false_eq_true, if_true]
  have hnc : (LU.swapColumns s c k).nnzColumn = s.nnzColumn ∘ σ.forward := by
    simp only [LU.swapColumns, ne_eq, hck, not_false_eq_true, if_true, swapAt_eq]
    rfl
  have hlow : ∀ i, lowerRowOf (LU.swapColumns s c k) i = lowerRowOf s i := by
    intro i
    have : (LU.swapColumns s c k).lowerRowMajor = s.lowerRowMajor := by
      simp only [LU.swapColumns, ne_eq, hck, not_false_eq_true, if_true]
    unfold lowerRowOf
    rw [this]
  have hval : ∀ i j, SVec.val ((LU.swapColumns s c k).rows i) j
      = SVec.val (s.rows i) (σ.forward j) := fun i j => by rw [hrows, val_swap σ (h.wf i)]
  refine ⟨⟨?_, ?_, ?_, ?_, ?_, ?_, ?_, ?_, ?_, ?_⟩, hval⟩
  · rw [hrp]; exact h.row_injective
  · rw [hcp]; exact h.column_injective.comp σ.forward_injective
  · intro i; rw [hrows]; exact wf_swap σ (h.wf i)
  · intro i p hp
    have hk : p.1 ∈ keys ((LU.swapColumns s c k).rows i) := List.mem_map.2 ⟨p, hp, rfl⟩
    rw [hrows, (keys_swap σ (h.wf i)).mem_iff] at hk
    obtain ⟨j, hj, he⟩ := List.mem_map.1 hk
    obtain ⟨x, hx, rfl⟩ := List.mem_map.1 hj
    have h2 := h.key i x hx
    rw [← he]
    have h3 := min_swap h0 h1 x.1
    omega
  · intro i hi
    rw [hval, swap_of_lt h0 h1 hi]
    exact h.diagonal i hi
  · intro i; rw [hlow]; exact h.lower_wf i
  · intro i; rw [hlow]; exact h.lower_key i
  · intro i j
    rw [hrp, hcp, Function.comp, h.product]
    simp only [hval, hlow]
  · intro i hi
    rw [hnr, hrows, h.nnzRow i hi]
    have := (keys_swap σ (h.wf i)).length_eq
    simpa using this.symm
  · intro j hj
    rw [hnc, Function.comp, h.nnzColumn _ ((le_swap h0 h1 j).2 hj), columnCount, columnCount]
    refine Finset.sum_congr rfl fun i _ => ?_
    rw [hrows, (keys_swap σ (h.wf i)).count_eq, count_map_swap]

end Relp.LU
