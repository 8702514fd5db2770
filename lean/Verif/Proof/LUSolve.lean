import Verif.Model.LU
import Verif.Proof.Lawful
import Verif.Proof.Permutation

/-!
# Triangular solves of the LU decomposition
-/

namespace Relp.LU

open Matrix

variable {m : ℕ}

/-! ### Inserting values -/

theorem wf_insertOrShift {rhs : Sparse m} (h : SVec.WF rhs) (i : Fin m) {c : ℚ} (hc : c ≠ 0) :
    SVec.WF (insertOrShift i c rhs) := by
  unfold insertOrShift
  split
  · exact SVec.wf_set h i (neg_ne_zero.2 hc)
  · split
    · exact SVec.wf_setZero h i
    · rename_i hne; exact SVec.wf_set h i hne

theorem val_insertOrShift {rhs : Sparse m} (h : SVec.WF rhs) (i : Fin m) (c : ℚ) (j : Fin m) :
    SVec.val (insertOrShift i c rhs) j = SVec.val rhs j - if i = j then c else 0 := by
  unfold insertOrShift
  have hg := SVec.get?_eq h i
  split
  · rename_i hn
    rw [hn] at hg
    have h0 : SVec.val rhs i = 0 := by
      by_contra hne
      rw [if_neg hne] at hg; simp at hg
    rw [SVec.val_set h]
    by_cases hij : i = j
    · subst hij; simp [h0]
    · simp [hij, Ne.symm hij]
  · rename_i x hx
    rw [hx] at hg
    have h0 : SVec.val rhs i = x := by
      by_cases hne : SVec.val rhs i = 0
      · rw [if_pos hne] at hg; simp at hg
      · rw [if_neg hne] at hg; simpa using hg.symm
    split
    · rename_i hz
      rw [SVec.val_setZero h]
      by_cases hij : i = j
      · subst hij; simp [h0, hz]
      · simp [hij, Ne.symm hij]
    · rw [SVec.val_set h]
      by_cases hij : i = j
      · subst hij; simp [h0]
      · simp [hij, Ne.symm hij]

theorem key_insertOrShift {rhs : Sparse m} {i : Fin m} {c : ℚ} {K : Fin m → Prop}
    (h : ∀ p ∈ rhs, K p.1) (hi : K i) : ∀ p ∈ insertOrShift i c rhs, K p.1 := by
  intro p hp
  unfold insertOrShift at hp
  split at hp
  · rcases SVec.mem_set hp with rfl | hp
    · exact hi
    · exact h p hp
  · split at hp
    · exact h p (SVec.mem_of_setZero hp)
    · rcases SVec.mem_set hp with rfl | hp
      · exact hi
      · exact h p hp

/-- The loop that introduces new non-zeros. -/
theorem foldl_insertOrShift (l : Sparse m) (v : ℚ) (hv : v ≠ 0) (hl : ∀ p ∈ l, p.2 ≠ 0)
    {K : Fin m → Prop} (hK : ∀ p ∈ l, K p.1) (rhs : Sparse m) (hr : SVec.WF rhs)
    (hrK : ∀ p ∈ rhs, K p.1) :
    SVec.WF (l.foldl (fun rhs p => insertOrShift p.1 (v * p.2) rhs) rhs) ∧
    (∀ j, SVec.val (l.foldl (fun rhs p => insertOrShift p.1 (v * p.2) rhs) rhs) j
      = SVec.val rhs j - v * SVec.val l j) ∧
    ∀ p ∈ l.foldl (fun rhs p => insertOrShift p.1 (v * p.2) rhs) rhs, K p.1 := by
  induction l generalizing rhs with
  | nil => exact ⟨hr, fun j => by simp, hrK⟩
  | cons q l ih =>
    rw [List.foldl_cons]
    have hq : v * q.2 ≠ 0 := mul_ne_zero hv (hl q (by simp))
    obtain ⟨h1, h2, h3⟩ := ih (fun p hp => hl p (by simp [hp])) (fun p hp => hK p (by simp [hp]))
      _ (wf_insertOrShift hr q.1 hq) (key_insertOrShift hrK (hK q (by simp)))
    refine ⟨h1, fun j => ?_, h3⟩
    rw [h2, val_insertOrShift hr, SVec.val_cons]
    split <;> ring

/-! ### The factors -/

/-- The lower factor, with ones on the diagonal. -/
def lowerMatrix (lu : LU m) : Matrix (Fin m) (Fin m) ℚ := Matrix.of fun i j =>
  (if i = j then 1 else 0) + if h : (j : ℕ) < m - 1 then SVec.val (lu.lowerColumn j h) i else 0

/-- The upper factor. -/
def upperMatrix (lu : LU m) : Matrix (Fin m) (Fin m) ℚ := Matrix.of fun i j =>
  (if i = j then lu.upperDiagonal j else 0) +
    if h : 0 < (j : ℕ) then SVec.val (lu.upperColumn j h) i else 0

/-- The lower factor is strictly lower triangular (its diagonal is implied). -/
structure LowerOk (lu : LU m) : Prop where
  wf : ∀ j, SVec.WF (lu.lowerTriangular j)
  lt : ∀ j, ∀ p ∈ lu.lowerTriangular j, (j : ℕ) < p.1

/-- The upper factor is upper triangular with non-zero diagonal. -/
structure UpperOk (lu : LU m) : Prop where
  wf : ∀ j, SVec.WF (lu.upperTriangular j)
  lt : ∀ j, ∀ p ∈ lu.upperTriangular j, (p.1 : ℕ) < j + 1
  diagonal : ∀ i, lu.upperDiagonal i ≠ 0

theorem mulVec_cons (A : Matrix (Fin m) (Fin m) ℚ) (p : Fin m × ℚ) (v : Sparse m) (i : Fin m) :
    (A *ᵥ SVec.val (p :: v)) i = A i p.1 * p.2 + (A *ᵥ SVec.val v) i := by
  have : SVec.val (p :: v) = Pi.single p.1 p.2 + SVec.val v := by
    ext k; rw [SVec.val_cons, Pi.add_apply, Pi.single_apply]; simp [eq_comm]
  rw [this, mulVec_add, Pi.add_apply, mulVec_single]
  simp

theorem vecMul_cons (A : Matrix (Fin m) (Fin m) ℚ) (p : Fin m × ℚ) (v : Sparse m) (i : Fin m) :
    (SVec.val (p :: v) ᵥ* A) i = p.2 * A p.1 i + (SVec.val v ᵥ* A) i := by
  have : SVec.val (p :: v) = Pi.single p.1 p.2 + SVec.val v := by
    ext k; rw [SVec.val_cons, Pi.add_apply, Pi.single_apply]; simp [eq_comm]
  rw [this, add_vecMul, Pi.add_apply, single_vecMul]
  simp

theorem val_concat (v : Sparse m) (p : Fin m × ℚ) : SVec.val (v ++ [p]) = SVec.val (p :: v) := by
  ext i
  exact SVec.val_perm (List.perm_append_singleton p v) i

theorem val_nil_eq : SVec.val ([] : Sparse m) = 0 := by ext; simp

theorem wf_concat {v : Sparse m} {p : Fin m × ℚ} (hv : SVec.WF v) (hp : p.2 ≠ 0)
    (h : ∀ q ∈ v, q.1 < p.1) : SVec.WF (v ++ [p]) := by
  constructor
  · rw [List.pairwise_append]
    refine ⟨hv.sorted, by simp, ?_⟩
    intro a ha b hb
    rw [List.mem_singleton.1 hb]
    exact h a ha
  · intro q hq
    rcases List.mem_append.1 hq with hq | hq
    · exact hv.nonzero q hq
    · rw [List.mem_singleton.1 hq]; exact hp

theorem of_wf_concat {v : Sparse m} {p : Fin m × ℚ} (h : SVec.WF (v ++ [p])) :
    SVec.WF v ∧ p.2 ≠ 0 ∧ ∀ q ∈ v, q.1 < p.1 := by
  obtain ⟨h1, _, h3⟩ := List.pairwise_append.1 h.sorted
  exact ⟨⟨h1, fun q hq => h.nonzero q (by simp [hq])⟩, h.nonzero p (by simp),
    fun q hq => h3 q hq p (by simp)⟩

theorem leftLower_spec {lu : LU m} (hl : LowerOk lu) (fuel k : ℕ) (hf : m - k ≤ fuel)
    (rhs : Sparse m) (hr : SVec.WF rhs) (hk : ∀ p ∈ rhs, k ≤ (p.1 : ℕ)) :
    ∃ x, lu.leftLower fuel rhs = .ok x ∧ SVec.WF x ∧ (∀ p ∈ x, k ≤ (p.1 : ℕ)) ∧
      lu.lowerMatrix *ᵥ SVec.val x = SVec.val rhs := by
  induction fuel generalizing k rhs with
  | zero =>
    cases rhs with
    | nil => exact ⟨[], by simp [leftLower], SVec.WF.nil, by simp, by simp [val_nil_eq]⟩
    | cons p rhs =>
      have := hk p (by simp)
      have := p.1.2
      omega
  | succ fuel ih =>
    cases rhs with
    | nil => exact ⟨[], by simp [leftLower], SVec.WF.nil, by simp, by simp [val_nil_eq]⟩
    | cons p rhs =>
      obtain ⟨row, value⟩ := p
      obtain ⟨hlt, hv, hr'⟩ := SVec.wf_cons.1 hr
      have hkrow : k ≤ (row : ℕ) := hk (row, value) (by simp)
      have hrow := row.2
      unfold leftLower
      -- the new right-hand side
      have hnew : ∃ new : Sparse m, (if h : (row : ℕ) < m - 1 then
            (lu.lowerColumn row h).foldl (fun rhs p => insertOrShift p.1 (value * p.2) rhs) rhs
          else rhs) = new ∧ SVec.WF new ∧ (∀ p ∈ new, (row : ℕ) + 1 ≤ p.1) ∧
          ∀ i, SVec.val new i = SVec.val rhs i - value *
            if h : (row : ℕ) < m - 1 then SVec.val (lu.lowerColumn row h) i else 0 := by
        by_cases h : (row : ℕ) < m - 1
        · obtain ⟨h1, h2, h3⟩ := foldl_insertOrShift (lu.lowerColumn row h) value hv
            (fun p hp => (hl.wf _).nonzero p hp) (K := fun i => (row : ℕ) + 1 ≤ i)
            (fun p hp => hl.lt _ p hp) rhs hr' (fun p hp => hlt p hp)
          exact ⟨_, rfl, by rw [dif_pos h]; exact h1, by rw [dif_pos h]; exact h3, by
            intro i; rw [dif_pos h, h2, dif_pos h]⟩
        · exact ⟨_, rfl, by rw [dif_neg h]; exact hr', by
            rw [dif_neg h]; exact fun p hp => hlt p hp, by intro i; rw [dif_neg h, dif_neg h]; ring⟩
      obtain ⟨new, e, h1, h2, h3⟩ := hnew
      rw [e]
      obtain ⟨x, g1, g2, g3, g4⟩ := ih (row + 1) (by omega) new h1 h2
      simp only [g1]
      refine ⟨_, rfl, SVec.wf_cons.2 ⟨fun p hp => g3 p hp, hv, g2⟩, ?_, ?_⟩
      · intro p hp
        rcases List.mem_cons.1 hp with rfl | hp
        · exact hkrow
        · have := g3 p hp; omega
      · ext i
        rw [mulVec_cons, g4, h3, SVec.val_cons]
        simp only [lowerMatrix, of_apply]
        generalize (if h : (row : ℕ) < m - 1 then SVec.val (lu.lowerColumn row h) i else 0) = z
        by_cases hi : i = row
        · subst hi; simp only [if_true]; ring
        · simp only [hi, Ne.symm hi, if_false]; ring

theorem leftUpper_spec {lu : LU m} (hu : UpperOk lu) (fuel k : ℕ) (hf : k ≤ fuel)
    (rhs : Sparse m) (hr : SVec.WF rhs) (hk : ∀ p ∈ rhs, (p.1 : ℕ) < k) :
    ∃ x, lu.leftUpper fuel rhs = .ok x ∧ SVec.WF x ∧ (∀ p ∈ x, (p.1 : ℕ) < k) ∧
      lu.upperMatrix *ᵥ SVec.val x = SVec.val rhs := by
  induction fuel generalizing k rhs with
  | zero =>
    cases rhs with
    | nil => exact ⟨[], by unfold leftUpper; simp, SVec.WF.nil, by simp, by simp [val_nil_eq]⟩
    | cons p rhs =>
      have := hk p (by simp)
      omega
  | succ fuel ih =>
    rcases List.eq_nil_or_concat rhs with rfl | ⟨rhs', p, rfl⟩
    · exact ⟨[], by unfold leftUpper; simp, SVec.WF.nil, by simp, by simp [val_nil_eq]⟩
    · rw [List.concat_eq_append] at *
      obtain ⟨row, value⟩ := p
      obtain ⟨hr', hv, hlt⟩ := of_wf_concat hr
      simp only at hv
      have hkrow : (row : ℕ) < k := hk (row, value) (by simp)
      have hd := hu.diagonal row
      have hres : value / lu.upperDiagonal row ≠ 0 := div_ne_zero hv hd
      have hnew : ∃ new : Sparse m,
          lu.updateRhs row (value / lu.upperDiagonal row) rhs' = new ∧ SVec.WF new ∧
          (∀ p ∈ new, (p.1 : ℕ) < row) ∧
          ∀ i, SVec.val new i = SVec.val rhs' i - value / lu.upperDiagonal row *
            if h : 0 < (row : ℕ) then SVec.val (lu.upperColumn row h) i else 0 := by
        unfold updateRhs
        by_cases h : 0 < (row : ℕ)
        · obtain ⟨h1, h2, h3⟩ := foldl_insertOrShift (lu.upperColumn row h) _ hres
            (fun p hp => (hu.wf _).nonzero p hp) (K := fun i => (i : ℕ) < row)
            (fun p hp => by
              have := hu.lt _ p hp
              simp only at this; omega) rhs' hr' (fun p hp => hlt p hp)
          exact ⟨_, rfl, by rw [dif_pos h]; exact h1, by rw [dif_pos h]; exact h3, by
            intro i; rw [dif_pos h, h2, dif_pos h]⟩
        · exact ⟨_, rfl, by rw [dif_neg h]; exact hr', by
            rw [dif_neg h]; exact fun p hp => hlt p hp, by intro i; rw [dif_neg h, dif_neg h]; ring⟩
      obtain ⟨new, e, h1, h2, h3⟩ := hnew
      obtain ⟨x, g1, g2, g3, g4⟩ := ih row (by omega) new h1 h2
      unfold leftUpper
      simp only [List.getLast?_append, List.getLast?_singleton, Option.some_or,
        List.dropLast_concat, if_neg hd, e, g1]
      refine ⟨_, rfl, wf_concat g2 hres (fun p hp => g3 p hp), ?_, ?_⟩
      · intro p hp
        rcases List.mem_append.1 hp with hp | hp
        · have := g3 p hp; omega
        · rw [List.mem_singleton.1 hp]; exact hkrow
      · ext i
        rw [val_concat, mulVec_cons, g4, h3, val_concat, SVec.val_cons]
        simp only [upperMatrix, of_apply]
        generalize (if h : 0 < (row : ℕ) then SVec.val (lu.upperColumn row h) i else 0) = z
        by_cases hi : i = row
        · subst hi
          simp only [if_true, add_mul]
          have : lu.upperDiagonal i * (value / lu.upperDiagonal i) = value := by field_simp
          rw [this]; ring
        · simp only [hi, Ne.symm hi, if_false]; ring

/-! ### Rows of the factors -/

/-- Row of the lower factor left of the diagonal. -/
def lowerRow (lu : LU m) (i : Fin m) : Sparse m :=
  (List.finRange (m - 1)).filterMap fun j : Fin (m - 1) =>
    if (j : ℕ) < i then
      (SVec.get? (lu.lowerTriangular j) i).map fun x => (⟨j, by omega⟩, x)
    else none

theorem foldl_filterMap {κ : Type} (l : List κ) (c : κ → Bool) (g : κ → Option ℚ)
    (idx : κ → Fin m) (v : ℚ) (rhs : Sparse m) :
    ((l.filter c).foldl (fun rhs j => match g j with
      | some x => insertOrShift (idx j) (v * x) rhs
      | none => rhs) rhs)
    = (l.filterMap fun j => if c j then (g j).map fun x => (idx j, x) else none).foldl
        (fun rhs p => insertOrShift p.1 (v * p.2) rhs) rhs := by
  induction l generalizing rhs with
  | nil => rfl
  | cons a l ih =>
    rw [List.filter_cons, List.filterMap_cons]
    by_cases ha : c a
    · rw [if_pos ha, List.foldl_cons, if_pos ha]
      cases hg : g a with
      | none => simp only [Option.map_none]; exact ih rhs
      | some x => simp only [Option.map_some, List.foldl_cons]; exact ih _
    · rw [if_neg ha, if_neg ha]
      exact ih rhs

/-- Value of a row that is collected from columns. -/
theorem val_collect {n : ℕ} (c : Fin n → Prop) [DecidablePred c] (columns : Fin n → Sparse m)
    (hwf : ∀ j, SVec.WF (columns j)) (idx : Fin n → Fin m) (i k : Fin m) :
    SVec.val ((List.finRange n).filterMap fun j =>
      if c j then (SVec.get? (columns j) i).map fun x => (idx j, x) else none) k
    = ∑ j, if c j ∧ idx j = k then SVec.val (columns j) i else 0 := by
  rw [← List.sum_ofFn, List.ofFn_eq_map]
  generalize List.finRange n = l
  induction l with
  | nil => rfl
  | cons a l ih =>
    rw [List.filterMap_cons, List.map_cons, List.sum_cons, ← ih]
    by_cases ha : c a
    · rw [if_pos ha, SVec.get?_eq (hwf a)]
      by_cases hz : SVec.val (columns a) i = 0
      · simp [hz]
      · simp only [if_neg hz, Option.map_some, SVec.val_cons]
        simp [ha]
    · simp [ha]

theorem wf_collect {n : ℕ} (c : Fin n → Prop) [DecidablePred c] (columns : Fin n → Sparse m)
    (hwf : ∀ j, SVec.WF (columns j)) (idx : Fin n → Fin m) (hidx : StrictMono idx) (i : Fin m) :
    SVec.WF ((List.finRange n).filterMap fun j =>
      if c j then (SVec.get? (columns j) i).map fun x => (idx j, x) else none) := by
  constructor
  · rw [List.pairwise_filterMap]
    refine (List.pairwise_lt_finRange n).imp ?_
    intro a b hab x hx y hy
    split at hx <;> simp at hx
    split at hy <;> simp at hy
    obtain ⟨_, _, rfl⟩ := hx
    obtain ⟨_, _, rfl⟩ := hy
    exact hidx hab
  · intro p hp
    obtain ⟨j, _, hj⟩ := List.mem_filterMap.1 hp
    split at hj <;> simp at hj
    obtain ⟨x, hx, rfl⟩ := hj
    rw [SVec.get?_eq (hwf j)] at hx
    split at hx
    · simp at hx
    · rename_i h; simp at hx; rw [← hx]; exact h

theorem key_collect {n : ℕ} (c : Fin n → Prop) [DecidablePred c] (columns : Fin n → Sparse m)
    (idx : Fin n → Fin m) (i : Fin m) {p : Fin m × ℚ}
    (hp : p ∈ (List.finRange n).filterMap fun j =>
      if c j then (SVec.get? (columns j) i).map fun x => (idx j, x) else none) :
    ∃ j, c j ∧ p.1 = idx j := by
  obtain ⟨j, _, hj⟩ := List.mem_filterMap.1 hp
  split at hj <;> simp at hj
  obtain ⟨x, hx, rfl⟩ := hj
  exact ⟨j, by assumption, rfl⟩

theorem wf_lowerRow {lu : LU m} (hl : LowerOk lu) (i : Fin m) : SVec.WF (lu.lowerRow i) :=
  wf_collect (fun j : Fin (m - 1) => (j : ℕ) < i) _ hl.wf (fun j => ⟨j, by omega⟩)
    (fun a b h => h) i

theorem key_lowerRow {lu : LU m} {i : Fin m} {p : Fin m × ℚ} (hp : p ∈ lu.lowerRow i) :
    (p.1 : ℕ) < i := by
  obtain ⟨j, h1, h2⟩ := key_collect (fun j : Fin (m - 1) => (j : ℕ) < i) _ _ i hp
  rw [h2]; exact h1

theorem val_lowerRow {lu : LU m} (hl : LowerOk lu) (i k : Fin m) :
    lu.lowerMatrix i k = (if i = k then 1 else 0) + SVec.val (lu.lowerRow i) k := by
  rw [lowerMatrix, of_apply]
  congr 1
  rw [lowerRow, val_collect (fun j : Fin (m - 1) => (j : ℕ) < i) _ hl.wf]
  by_cases hk : (k : ℕ) < m - 1
  · rw [dif_pos hk, Finset.sum_eq_single (⟨k, hk⟩ : Fin (m - 1))]
    · by_cases hki : (k : ℕ) < i
      · simp [hki]; rfl
      · rw [if_neg (by simp [hki])]
        apply SVec.val_eq_zero_of_notMem
        intro p hp he
        have := hl.lt _ p hp
        rw [he] at this
        exact hki this
    · intro j _ hj
      rw [if_neg]
      rintro ⟨_, h⟩
      exact hj (Fin.ext (by have := congrArg Fin.val h; simpa using this))
    · simp
  · rw [dif_neg hk]
    symm
    apply Finset.sum_eq_zero
    intro j _
    rw [if_neg]
    rintro ⟨_, h⟩
    have := congrArg Fin.val h
    simp only at this
    omega

theorem wf_uBar {lu : LU m} (hu : UpperOk lu) (i : Fin m) : SVec.WF (lu.uBar i) :=
  wf_collect (fun j : Fin (m - 1) => (i : ℕ) ≤ j) _ hu.wf (fun j => ⟨j + 1, by omega⟩)
    (fun a b h => by simp only [Fin.lt_def] at *; omega) i

theorem key_uBar {lu : LU m} {i : Fin m} {p : Fin m × ℚ} (hp : p ∈ lu.uBar i) :
    (i : ℕ) < p.1 := by
  obtain ⟨j, h1, h2⟩ := key_collect (fun j : Fin (m - 1) => (i : ℕ) ≤ j) _ _ i hp
  rw [h2]; simp only; omega

theorem val_uBar {lu : LU m} (hu : UpperOk lu) (i k : Fin m) :
    lu.upperMatrix i k = (if i = k then lu.upperDiagonal k else 0) + SVec.val (lu.uBar i) k := by
  rw [upperMatrix, of_apply]
  congr 1
  rw [uBar, val_collect (fun j : Fin (m - 1) => (i : ℕ) ≤ j) _ hu.wf]
  by_cases hk : 0 < (k : ℕ)
  · have hk2 := k.2
    rw [dif_pos hk, Finset.sum_eq_single (⟨k - 1, by omega⟩ : Fin (m - 1))]
    · by_cases hki : (i : ℕ) ≤ k - 1
      · rw [if_pos]
        · rfl
        · exact ⟨hki, Fin.ext (by simp only; omega)⟩
      · rw [if_neg (by simp [hki])]
        apply SVec.val_eq_zero_of_notMem
        intro p hp he
        have := hu.lt _ p hp
        rw [he] at this
        simp only at this
        omega
    · intro j _ hj
      rw [if_neg]
      rintro ⟨_, h⟩
      exact hj (Fin.ext (by have := congrArg Fin.val h; simp only at this; simp only; omega))
    · simp
  · rw [dif_neg hk]
    symm
    apply Finset.sum_eq_zero
    intro j _
    rw [if_neg]
    rintro ⟨_, h⟩
    have := congrArg Fin.val h
    simp only at this
    omega

theorem rightLower_spec {lu : LU m} (hl : LowerOk lu) (fuel k : ℕ) (hf : k ≤ fuel)
    (rhs : Sparse m) (hr : SVec.WF rhs) (hk : ∀ p ∈ rhs, (p.1 : ℕ) < k) :
    ∃ x, lu.rightLower fuel rhs = .ok x ∧ SVec.WF x ∧ (∀ p ∈ x, (p.1 : ℕ) < k) ∧
      SVec.val x ᵥ* lu.lowerMatrix = SVec.val rhs := by
  induction fuel generalizing k rhs with
  | zero =>
    cases rhs with
    | nil => exact ⟨[], by unfold rightLower; simp, SVec.WF.nil, by simp, by simp [val_nil_eq]⟩
    | cons p rhs =>
      have := hk p (by simp)
      omega
  | succ fuel ih =>
    rcases List.eq_nil_or_concat rhs with rfl | ⟨rhs', p, rfl⟩
    · exact ⟨[], by unfold rightLower; simp, SVec.WF.nil, by simp, by simp [val_nil_eq]⟩
    · rw [List.concat_eq_append] at *
      obtain ⟨column, value⟩ := p
      obtain ⟨hr', hv, hlt⟩ := of_wf_concat hr
      simp only at hv
      have hkrow : (column : ℕ) < k := hk (column, value) (by simp)
      have hfold := foldl_filterMap (List.finRange (m - 1))
        (fun j : Fin (m - 1) => decide ((j : ℕ) < column))
        (fun j => SVec.get? (lu.lowerTriangular j) column)
        (fun j => (⟨j, by omega⟩ : Fin m)) value rhs'
      have hrow : ((List.finRange (m - 1)).filterMap fun j : Fin (m - 1) =>
          if decide ((j : ℕ) < column) = true then
            (SVec.get? (lu.lowerTriangular j) column).map fun x => ((⟨j, by omega⟩ : Fin m), x)
          else none) = lu.lowerRow column := by
        simp only [decide_eq_true_eq]; rfl
      rw [hrow] at hfold
      obtain ⟨h1, h3, h2⟩ := foldl_insertOrShift (lu.lowerRow column) value hv
        (fun p hp => (wf_lowerRow hl column).nonzero p hp) (K := fun i => (i : ℕ) < column)
        (fun p hp => key_lowerRow hp) rhs' hr' (fun p hp => hlt p hp)
      obtain ⟨x, g1, g2, g3, g4⟩ := ih column (by omega) _ h1 h2
      unfold rightLower
      simp only [List.getLast?_append, List.getLast?_singleton, Option.some_or,
        List.dropLast_concat]
      erw [hfold]
      simp only [g1]
      refine ⟨_, rfl, wf_concat g2 hv (fun p hp => g3 p hp), ?_, ?_⟩
      · intro p hp
        rcases List.mem_append.1 hp with hp | hp
        · have := g3 p hp; omega
        · rw [List.mem_singleton.1 hp]; exact hkrow
      · ext i
        rw [val_concat, vecMul_cons, g4, h3, val_concat, SVec.val_cons, val_lowerRow hl]
        simp only
        split <;> ring

theorem rightUpper_spec {lu : LU m} (hu : UpperOk lu) (fuel k : ℕ) (hf : m - k ≤ fuel)
    (rhs : Sparse m) (hr : SVec.WF rhs) (hk : ∀ p ∈ rhs, k ≤ (p.1 : ℕ)) :
    ∃ x, lu.rightUpper fuel rhs = .ok x ∧ SVec.WF x ∧ (∀ p ∈ x, k ≤ (p.1 : ℕ)) ∧
      SVec.val x ᵥ* lu.upperMatrix = SVec.val rhs := by
  induction fuel generalizing k rhs with
  | zero =>
    cases rhs with
    | nil => exact ⟨[], by simp [rightUpper], SVec.WF.nil, by simp, by simp [val_nil_eq]⟩
    | cons p rhs =>
      have := hk p (by simp)
      have := p.1.2
      omega
  | succ fuel ih =>
    cases rhs with
    | nil => exact ⟨[], by simp [rightUpper], SVec.WF.nil, by simp, by simp [val_nil_eq]⟩
    | cons p rhs =>
      obtain ⟨column, value⟩ := p
      obtain ⟨hlt, hv, hr'⟩ := SVec.wf_cons.1 hr
      simp only at hv
      have hkrow : k ≤ (column : ℕ) := hk (column, value) (by simp)
      have hrow := column.2
      have hd := hu.diagonal column
      have hres : value / lu.upperDiagonal column ≠ 0 := div_ne_zero hv hd
      have hfold := foldl_filterMap (List.finRange (m - 1))
        (fun j : Fin (m - 1) => decide ((column : ℕ) ≤ j))
        (fun j => SVec.get? (lu.upperTriangular j) column)
        (fun j => (⟨j + 1, by omega⟩ : Fin m)) (value / lu.upperDiagonal column) rhs
      have hrow : ((List.finRange (m - 1)).filterMap fun j : Fin (m - 1) =>
          if decide ((column : ℕ) ≤ j) = true then
            (SVec.get? (lu.upperTriangular j) column).map fun x => ((⟨j + 1, by omega⟩ : Fin m), x)
          else none) = lu.uBar column := by
        simp only [decide_eq_true_eq]; rfl
      rw [hrow] at hfold
      obtain ⟨h1, h3, h2⟩ := foldl_insertOrShift (lu.uBar column) _ hres
        (fun p hp => (wf_uBar hu column).nonzero p hp) (K := fun i => (column : ℕ) + 1 ≤ i)
        (fun p hp => key_uBar hp) rhs hr' (fun p hp => hlt p hp)
      obtain ⟨x, g1, g2, g3, g4⟩ := ih (column + 1) (by omega) _ h1 h2
      unfold rightUpper
      simp only [if_neg hd]
      erw [hfold]
      simp only [g1]
      refine ⟨_, rfl, SVec.wf_cons.2 ⟨fun p hp => g3 p hp, hres, g2⟩, ?_, ?_⟩
      · intro p hp
        rcases List.mem_cons.1 hp with rfl | hp
        · exact hkrow
        · have := g3 p hp; omega
      · ext i
        rw [vecMul_cons, g4, h3, SVec.val_cons, val_uBar hu]
        simp only
        by_cases hi : column = i
        · subst hi
          simp only [if_true, mul_add]
          have : value / lu.upperDiagonal column * lu.upperDiagonal column = value := by field_simp
          rw [this]; ring
        · simp [hi]

end Relp.LU
