import Verif.Proof.Lawful

/-! # Lemmas about the parts of `Carry` -/

namespace Relp

open Matrix BasisInverse

theorem tabulateM_ok {α : Type} {m : ℕ} {f : Fin m → Res α} {g : Fin m → α}
    (h : ∀ i, f i = .ok (g i)) : tabulateM f = .ok g := by
  induction m with
  | zero => simp only [tabulateM]; congr; ext i; exact i.elim0
  | succ m ih =>
    rw [tabulateM, h 0, ih (g := fun i => g i.succ) fun i => h i.succ]
    simp only
    congr
    ext i
    refine Fin.cases ?_ (fun i => ?_) i <;> simp

theorem tabulateM_exists {α : Type} {m : ℕ} {f : Fin m → Res α} {p : Fin m → α → Prop}
    (h : ∀ i, ∃ a, f i = .ok a ∧ p i a) : ∃ g, tabulateM f = .ok g ∧ ∀ i, f i = .ok (g i) ∧ p i (g i) := by
  choose g hg using h
  exact ⟨g, tabulateM_ok fun i => (hg i).1, hg⟩

namespace Carry

variable {m n N : ℕ}

theorem foldl_update_sub (v : Sparse m) (hv : SVec.WF v) (f : ℚ → ℚ) (hf : f 0 = 0) (b : Fin m → ℚ) (i : Fin m) :
    v.foldl (fun b p => Function.update b p.1 (b p.1 - f p.2)) b i = b i - f (SVec.val v i) := by
  induction v generalizing b with
  | nil => simp [hf]
  | cons p v ih =>
    have hv' := SVec.wf_cons.1 hv
    rw [List.foldl_cons, ih hv'.2.2, SVec.val_cons]
    by_cases h : p.1 = i
    · subst h
      rw [Function.update_self, SVec.val_eq_zero_of_lt hv'.1]; simp [hf]
    · rw [Function.update_of_ne (Ne.symm h)]; simp [h]

theorem foldl_updateB (v : Sparse m) (hv : SVec.WF v) (p : Fin m) (c : ℚ) (b : Fin m → ℚ)
    (i : Fin m) :
    v.foldl (fun b q => if q.1 = p then b else Function.update b q.1 (b q.1 - q.2 * c)) b i
      = if i = p then b i else b i - SVec.val v i * c := by
  induction v generalizing b with
  | nil => simp
  | cons q v ih =>
    have hv' := SVec.wf_cons.1 hv
    rw [List.foldl_cons, ih hv'.2.2, SVec.val_cons]
    by_cases hi : i = p
    · subst hi
      by_cases hq : q.1 = i
      · simp [hq]
      · simp [hq, Function.update_of_ne (Ne.symm hq)]
    · by_cases hq : q.1 = p
      · simp [hq, hi, Ne.symm hi]
      · by_cases hqi : q.1 = i
        · subst hqi
          simp [hq, SVec.val_eq_zero_of_lt hv'.1]
        · simp [hi, hq, hqi, Function.update_of_ne (Ne.symm hqi)]

theorem updateB_ok {b : Fin m → ℚ} {p : Fin m} {column : Sparse m} (hc : SVec.WF column)
    (hp : SVec.val column p ≠ 0) :
    updateB b p column = .ok fun i =>
      if i = p then b p / SVec.val column p
      else b i - SVec.val column i * (b p / SVec.val column p) := by
  rw [updateB, SVec.get?_some hc hp]
  simp only [if_neg hp]
  congr
  ext i
  rw [foldl_updateB column hc]
  by_cases h : i = p
  · subst h; simp
  · simp [h]

theorem updateMinusPi_eq (minusPi : Fin m → ℚ) (c : ℚ) {row : Sparse m} (hr : SVec.WF row)
    (k : Fin m) : updateMinusPi minusPi c row k = minusPi k - c * SVec.val row k := by
  unfold updateMinusPi
  rw [foldl_update_sub row hr (fun x => c * x) (by simp)]

theorem transposeColumns_val {columns : Fin m → Sparse m} (i j : Fin m) :
    SVec.val (transposeColumns columns i) j = SVec.val (columns j) i := by
  have h1 : ∀ (j' : Fin m) (v : Sparse m),
      SVec.val (v.filterMap fun p => if p.1 = i then some (j', p.2) else none) j
        = if j' = j then SVec.val v i else 0 := by
    intro j' v
    induction v with
    | nil => simp
    | cons p v ih =>
      rw [List.filterMap_cons]
      by_cases hp : p.1 = i
      · simp only [hp, if_true, SVec.val_cons, ih]
        split <;> simp
      · simp only [hp, if_false, SVec.val_cons, ih]
        simp
  have h2 : ∀ (l : List (Fin m)), l.Nodup →
      SVec.val (l.flatMap fun j =>
        (columns j).filterMap fun p => if p.1 = i then some (j, p.2) else none) j
        = if j ∈ l then SVec.val (columns j) i else 0 := by
    intro l hl
    induction l with
    | nil => simp
    | cons a l ih =>
      have hval : ∀ (u v : Sparse m), SVec.val (u ++ v) j = SVec.val u j + SVec.val v j := by
        intro u v; simp [SVec.val]
      rw [List.flatMap_cons, hval, h1, ih (List.nodup_cons.1 hl).2]
      by_cases ha : a = j
      · subst ha; simp [(List.nodup_cons.1 hl).1]
      · simp [ha, Ne.symm ha]
  unfold transposeColumns
  rw [h2 _ (List.nodup_finRange m)]
  simp

theorem transposeColumns_wf {columns : Fin m → Sparse m} (h : ∀ j, SVec.WF (columns j))
    (i : Fin m) : SVec.WF (transposeColumns columns i) := by
  constructor
  · unfold transposeColumns
    rw [List.pairwise_flatMap]
    constructor
    · intro j _
      -- at most one tuple of a column has row `i`
      have : ∀ v : Sparse m, SVec.WF v →
          (v.filterMap fun p => if p.1 = i then some (j, p.2) else none).length ≤ 1 := by
        intro v hv
        induction v with
        | nil => simp
        | cons p v ih =>
          have hv' := SVec.wf_cons.1 hv
          rw [List.filterMap_cons]
          by_cases hp : p.1 = i
          · have : (v.filterMap fun p => if p.1 = i then some (j, p.2) else none) = [] := by
              rw [List.filterMap_eq_nil_iff]
              intro q hq
              have := hv'.1 q hq
              rw [hp] at this
              simp [this.ne']
            simp [hp, this]
          · simp only [hp, if_false]
            exact ih hv'.2.2
      generalize hl : ((columns j).filterMap fun p => if p.1 = i then some (j, p.2) else none) = l
      have hlen := this (columns j) (h j)
      rw [hl] at hlen
      match l, hlen with
      | [], _ => exact List.Pairwise.nil
      | [a], _ => exact List.pairwise_singleton _ _
    · refine (List.pairwise_lt_finRange m).imp ?_
      intro a b hab x hx y hy
      simp only [List.mem_filterMap] at hx hy
      obtain ⟨p, _, hp⟩ := hx
      obtain ⟨q, _, hq⟩ := hy
      split at hp <;> simp at hp
      split at hq <;> simp at hq
      rw [← hp, ← hq]; exact hab
  · intro p hp
    simp only [transposeColumns, List.mem_flatMap, List.mem_filterMap] at hp
    obtain ⟨j, _, q, hq, hqp⟩ := hp
    split at hqp <;> simp at hqp
    rw [← hqp]
    exact (h j).nonzero q hq

theorem foldl_pi (row : Sparse m) (c : ℚ) (pi : Fin m → ℚ) (j : Fin m) :
    row.foldl (fun pi p => Function.update pi p.1 (pi p.1 + p.2 * c)) pi j
      = pi j + SVec.val row j * c := by
  induction row generalizing pi with
  | nil => simp
  | cons p v ih =>
    rw [List.foldl_cons, ih, SVec.val_cons]
    by_cases h : p.1 = j
    · subst h; simp; ring
    · simp [h, Function.update_of_ne (Ne.symm h)]

theorem foldl_pi_rows (rows : Fin m → Sparse m) (c : Fin m → ℚ) (l : List (Fin m))
    (pi : Fin m → ℚ) (j : Fin m) :
    l.foldl (fun pi i => (rows i).foldl
      (fun pi p => Function.update pi p.1 (pi p.1 + p.2 * c i)) pi) pi j
      = pi j + (l.map fun i => SVec.val (rows i) j * c i).sum := by
  induction l generalizing pi with
  | nil => simp
  | cons a l ih => rw [List.foldl_cons, ih, foldl_pi]; simp; ring

variable {BI : ℕ → Type} [BasisInverse BI] [LawfulBasisInverse BI]

open LawfulBasisInverse

theorem createMinusPi_of_left {BI : ℕ → Type} [BasisInverse BI] {bi : BI m}
    {M : Matrix (Fin m) (Fin m) ℚ}
    (h : ∀ {column : Sparse m}, SVec.WF column → ∃ info, leftMultiply bi column = .ok info ∧
      SVec.WF (infoColumn info) ∧ SVec.val (infoColumn info) = M *ᵥ SVec.val column)
    (cost : Fin n → ℚ) (basis : Fin m → Fin n) :
    createMinusPi bi cost basis = .ok (-((fun i => cost (basis i)) ᵥ* M)) := by
  obtain ⟨columns, hc, hcol⟩ := tabulateM_exists
    (fun j : Fin m => h (SVec.wf_standardBasis j))
  unfold createMinusPi
  simp only [hc, bind, Except.bind, pure, Except.pure]
  congr
  ext j
  rw [foldl_pi_rows]
  simp only [transposeColumns_val, zero_add]
  have : ∀ i, SVec.val (infoColumn (columns j)) i = M i j := by
    intro i
    rw [(hcol j).2.2, SVec.val_standardBasis_eq, Matrix.mulVec_single_one]
    rfl
  simp only [this, Pi.neg_apply, vecMul, dotProduct, ← List.ofFn_eq_map, List.sum_ofFn]
  congr 1
  exact Finset.sum_congr rfl fun i _ => mul_comm _ _

theorem createMinusPi_ok (hm : OkDim BI m) {bi : BI m} {M : Matrix (Fin m) (Fin m) ℚ}
    (h : Rep bi M) (cost : Fin n → ℚ) (basis : Fin m → Fin n) :
    createMinusPi bi cost basis = .ok (-((fun i => cost (basis i)) ᵥ* M)) :=
  createMinusPi_of_left (fun hc => left_ok hm h hc) cost basis

theorem foldl_add (f : Fin m → ℚ) (l : List (Fin m)) (s : ℚ) :
    l.foldl (fun s i => s + f i) s = s + (l.map f).sum := by
  induction l generalizing s with
  | nil => simp
  | cons a l ih => rw [List.foldl_cons, ih]; simp; ring

theorem foldl_add_finRange (f : Fin m → ℚ) :
    (List.finRange m).foldl (fun s i => s + f i) 0 = ∑ i, f i := by
  rw [foldl_add, zero_add, ← List.ofFn_eq_map, List.sum_ofFn]

theorem createMinusObj_eq (cost : Fin n → ℚ) (basis : Fin m → Fin n) (b : Fin m → ℚ) :
    createMinusObj cost basis b = -((fun i => cost (basis i)) ⬝ᵥ b) := by
  unfold createMinusObj
  rw [foldl_add_finRange (fun row => b row * cost (basis row))]
  congr 1
  exact Finset.sum_congr rfl fun i _ => mul_comm _ _

end Carry

end Relp
