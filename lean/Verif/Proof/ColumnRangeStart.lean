import Verif.Proof.ColumnRangeData
import Verif.Proof.WarmStart
import Verif.Proof.Filter
import Mathlib.Tactic.Linarith

/-!
# The initial basis of the column range example
-/

namespace Relp

namespace ColumnRange

open Matrix

/-! ### Matrices of a certain form

The rows are in classes; each class has one marked row `rep r`. The column of a marked row is one in all
rows of its class, the other columns are unit vectors, up to their sign. -/

section Form

variable {N : ℕ} {κ : Type} [DecidableEq κ] {B : Matrix (Fin N) (Fin N) ℚ} {cls : Fin N → κ}
  {sgn : κ → ℚ} {marked : Fin N → Prop} [DecidablePred marked] {rep : Fin N → Fin N}

theorem form_mulVec
    (hB : ∀ r k, B r k = if marked k then (if cls r = cls k then 1 else 0)
      else if r = k then sgn (cls r) else 0)
    (h1 : ∀ r, marked (rep r)) (h2 : ∀ r, cls (rep r) = cls r)
    (h3 : ∀ r k, marked k → cls k = cls r → k = rep r) (g : Fin N → ℚ) (r : Fin N) :
    (B *ᵥ g) r = g (rep r) + if marked r then 0 else sgn (cls r) * g r := by
  have key : ∀ k, B r k * g k = (if k = rep r then g k else 0) +
      (if k = r then (if marked r then 0 else sgn (cls r) * g r) else 0) := by
    intro k
    rw [hB]
    by_cases hk : marked k
    · rw [if_pos hk]
      by_cases hr : k = rep r
      · subst hr
        rw [if_pos (h2 r).symm, if_pos rfl]
        by_cases hrr : rep r = r
        · rw [if_pos hrr, if_pos (by rw [← hrr]; exact hk)]
          ring
        · rw [if_neg hrr]
          ring
      · rw [if_neg (fun h => hr (h3 r k hk h.symm)), if_neg hr]
        by_cases hkr : k = r
        · subst hkr
          rw [if_pos rfl, if_pos hk]
          ring
        · rw [if_neg hkr]
          ring
    · rw [if_neg hk, if_neg (fun h : k = rep r => hk (by rw [h]; exact h1 r))]
      by_cases hkr : k = r
      · subst hkr
        rw [if_pos rfl, if_pos rfl, if_neg hk]
        ring
      · rw [if_neg (Ne.symm hkr), if_neg hkr]
        ring
  rw [Matrix.mulVec, dotProduct, Finset.sum_congr rfl fun k _ => key k, Finset.sum_add_distrib,
    Finset.sum_ite_eq' Finset.univ (rep r), Finset.sum_ite_eq' Finset.univ r]
  simp

theorem form_injective
    (hB : ∀ r k, B r k = if marked k then (if cls r = cls k then 1 else 0)
      else if r = k then sgn (cls r) else 0)
    (h1 : ∀ r, marked (rep r)) (h2 : ∀ r, cls (rep r) = cls r)
    (h3 : ∀ r k, marked k → cls k = cls r → k = rep r) (hs : ∀ c, sgn c ≠ 0) (g : Fin N → ℚ)
    (hg : B *ᵥ g = 0) : g = 0 := by
  have h : ∀ r, g (rep r) + (if marked r then 0 else sgn (cls r) * g r) = 0 := fun r => by
    rw [← form_mulVec hB h1 h2 h3, hg]
    rfl
  have hrep : ∀ r, g (rep r) = 0 := fun r => by
    have := h (rep r)
    rw [if_pos (h1 r), add_zero, ← h3 (rep r) (rep r) (h1 r) rfl] at this
    exact this
  funext r
  have := h r
  by_cases hr : marked r
  · have h4 := h3 r r hr rfl
    rw [h4]
    exact hrep r
  · rw [if_neg hr, hrep, zero_add] at this
    exact (mul_eq_zero.1 this).resolve_left (hs _)

theorem form_solution
    (hB : ∀ r k, B r k = if marked k then (if cls r = cls k then 1 else 0)
      else if r = k then sgn (cls r) else 0)
    (h1 : ∀ r, marked (rep r)) (h2 : ∀ r, cls (rep r) = cls r)
    (h3 : ∀ r k, marked k → cls k = cls r → k = rep r) (hs : ∀ c, sgn c * sgn c = 1) (v : Fin N → ℚ) :
    B *ᵥ (fun r => if marked r then v r else sgn (cls r) * (v r - v (rep r))) = v := by
  funext r
  rw [form_mulVec hB h1 h2 h3]
  rw [if_pos (h1 r)]
  by_cases hr : marked r
  · rw [if_pos hr, ← h3 r r hr rfl, add_zero]
  · rw [if_neg hr, if_neg hr, ← mul_assoc, hs]
    ring

end Form

/-! ### The problem of a list of cells -/

variable {m n : ℕ}

/-- The problem that the program builds for the values `L`. -/
def problem (L : List (Cell m n)) : MatrixData :=
  matrix m n L.length L.length (L.map (rowOf m) ++ L.map (rowOf (m + n)))
    (L.map (fun c => (c.2.2 : ℚ)) ++ L.map fun c => (c.2.2 : ℚ))

/-- The basis columns that the program chooses. -/
def problemBasis (mn mx : Fin n → ℤ) (L : List (Cell m n)) : List ℕ :=
  L.mapIdx (basisOf m (m + 2 * n) mn L) ++ L.mapIdx (basisOf (m + n) (m + 2 * n + L.length) mx L)

section

variable (L : List (Cell m n))

theorem vars_length : (problem L).vars.length = m + 2 * n := by
  show (problemVars m n).length = _
  simp [problemVars]
  omega

theorem upperBound_none : ∀ v ∈ (problem L).vars, v.upperBound = none := by
  intro v hv
  change v ∈ problemVars m n at hv
  simp only [problemVars, List.mem_append, List.mem_replicate] at hv
  rcases hv with (⟨-, rfl⟩ | ⟨-, rfl⟩) | ⟨-, rfl⟩ <;> rfl

theorem boundToVariable_nil : (problem L).boundToVariable = [] := by
  rw [List.eq_nil_iff_forall_not_mem]
  intro j hj
  have h1 := (problem L).boundToVariable_lt hj
  obtain ⟨k, hk, hk'⟩ := List.mem_iff_getElem.1 hj
  have h2 := ((problem L).bound_isSome h1).2 ⟨k, by rw [List.getElem?_eq_getElem hk, hk']⟩
  rw [upperBound_none L _ (List.getElem_mem h1)] at h2
  cases h2

theorem nrBounds_zero : (problem L).nrBounds = 0 := by
  rw [MatrixData.nrBounds, boundToVariable_nil]
  rfl

theorem nrRows_eq : (problem L).nrRows = L.length + L.length := by
  have h := boundToVariable_nil L
  simp only [MatrixData.nrRows, MatrixData.nrConstraints, MatrixData.nrVariableBounds, h,
    MatrixData.lowerEnd, MatrixData.upperEnd, MatrixData.rangeEnd, MatrixData.equalityEnd]
  simp [problem, matrix]

theorem nrColumns_eq : (problem L).nrColumns = m + 2 * n + (L.length + L.length) := by
  have h := nrBounds_zero L
  have h2 := vars_length L
  simp only [MatrixData.nrColumns, MatrixData.slackBoundSlackEnd, MatrixData.variableBoundSlackEnd,
    MatrixData.lowerSlackEnd, MatrixData.upperSlackEnd, MatrixData.rangeSlackEnd,
    MatrixData.normalColumnEnd, h, h2]
  simp [problem, matrix]
  omega

theorem rowOf_nodup {offset : ℕ} (ho : m ≤ offset) (c : Cell m n) :
    ((rowOf offset c).map (·.1)).Nodup := by
  have := c.1.2
  simp [rowOf]
  omega

theorem problem_valid (hv : ∀ c ∈ L, 0 ≤ c.2.2) : (problem L).Valid := by
  have hwf := wf_transpose (nrColumns := m + 2 * n)
    (rows := L.map (rowOf m) ++ L.map (rowOf (m + n))) (by
      intro row hrow
      rcases List.mem_append.1 hrow with h | h <;> obtain ⟨c, -, rfl⟩ := List.mem_map.1 h
      · exact rowOf_nodup le_rfl c
      · exact rowOf_nodup (by omega) c) (by
      intro row hrow q hq
      rcases List.mem_append.1 hrow with h | h <;> obtain ⟨c, -, rfl⟩ := List.mem_map.1 h <;>
      · simp only [rowOf, List.mem_cons, List.not_mem_nil, or_false] at hq
        rcases hq with rfl | rfl <;> norm_num)
  refine ⟨?_, ?_, fun v hv => (hwf v hv).1, ?_, ?_, rfl, ?_, ?_, ?_⟩
  · rw [vars_length]
    exact (transpose_spec _ _).1
  · rw [vars_length]
    rfl
  · intro v hv p hp
    have := (hwf v hv).2 p hp
    simp only [List.length_append, List.length_map] at this
    change p.1 < 0 + 0 + L.length + L.length
    omega
  · show (L.map _ ++ L.map _ : List ℚ).length = 0 + 0 + L.length + L.length
    simp
  · intro x hx
    change x ∈ L.map _ ++ L.map _ at hx
    rcases List.mem_append.1 hx with h | h <;> obtain ⟨c, hc, rfl⟩ := List.mem_map.1 h <;>
      exact_mod_cast hv c hc
  · intro r hr
    cases hr
  · intro v hv u hu
    rw [upperBound_none L v hv] at hu
    cases hu

/-- The cell of a row. -/
def cellAt (r : ℕ) (hr : r < L.length + L.length) : Cell m n :=
  if h : r < L.length then L[r] else L[r - L.length]

theorem cellAt_mem (r : ℕ) (hr : r < L.length + L.length) : cellAt L r hr ∈ L := by
  unfold cellAt
  split <;> exact List.getElem_mem _

/-- The first of the variables that belong to the columns. -/
def offsetAt (r : ℕ) : ℕ := if r < L.length then m else m + n

theorem rows_getD (r : ℕ) (hr : r < L.length + L.length) :
    (L.map (rowOf m) ++ L.map (rowOf (m + n))).getD r [] =
      rowOf (offsetAt L r) (cellAt L r hr) := by
  rw [List.getD_eq_getElem?_getD]
  unfold offsetAt cellAt
  by_cases h : r < L.length
  · rw [List.getElem?_append_left (by simpa using h)]
    simp [h]
  · rw [List.getElem?_append_right (by simpa using h)]
    have h' : r - L.length < L.length := by omega
    simp [h, h']

theorem b_getD (r : ℕ) (hr : r < L.length + L.length) :
    (problem L).b.getD r 0 = (cellAt L r hr).2.2 := by
  show (L.map _ ++ L.map _ : List ℚ).getD r 0 = _
  rw [List.getD_eq_getElem?_getD]
  unfold cellAt
  by_cases h : r < L.length
  · rw [List.getElem?_append_left (by simpa using h)]
    simp [h]
  · rw [List.getElem?_append_right (by simpa using h)]
    have h' : r - L.length < L.length := by omega
    simp [h, h']

/-- The entry of the constraint matrix. -/
theorem constraint_val {c : ℕ} (hc : c < m + 2 * n) (r : ℕ) (hr : r < L.length + L.length) :
    SVec.val ((problem L).constraints.data.getD c []) r =
      (if (cellAt L r hr).1.val = c then 1 else 0) +
        if offsetAt L r + (cellAt L r hr).2.1.val = c then 1 else 0 := by
  show SVec.val ((transpose (m + 2 * n) _).getD c []) r = _
  rw [val_transpose _ _ hc, rows_getD L r hr]
  simp [rowOf, SVec.val]

/-- The left-hand side of the constraint of a row. -/
theorem constraintSum_eq (z : ℕ → ℚ) (r : ℕ) (hr : r < L.length + L.length) :
    (problem L).constraintSum z r =
      z (cellAt L r hr).1 + z (offsetAt L r + (cellAt L r hr).2.1) := by
  rw [MatrixData.constraintSum, vars_length]
  have h1 : (cellAt L r hr).1.val < m + 2 * n := by have := (cellAt L r hr).1.2; omega
  have h2 : offsetAt L r + (cellAt L r hr).2.1.val < m + 2 * n := by
    have := (cellAt L r hr).2.1.2
    unfold offsetAt
    split <;> omega
  rw [Finset.sum_congr rfl (g := fun j => (if (cellAt L r hr).1.val = j then z j else 0) +
    if offsetAt L r + (cellAt L r hr).2.1.val = j then z j else 0) ?_, Finset.sum_add_distrib,
    Finset.sum_ite_eq, Finset.sum_ite_eq, if_pos (Finset.mem_range.2 h1),
    if_pos (Finset.mem_range.2 h2)]
  intro j hj
  rw [constraint_val L (Finset.mem_range.1 hj) r hr, add_mul]
  simp only [ite_mul, one_mul, zero_mul]

/-! ### The basis -/

variable (mn mx : Fin n → ℤ)

/-- The row gets the column of a minimum or of a maximum. -/
def markedAt (r : ℕ) (hr : r < L.length + L.length) : Prop :=
  if r < L.length then First mn (L.take r) (cellAt L r hr)
  else First mx (L.take (r - L.length)) (cellAt L r hr)

instance (r : ℕ) (hr : r < L.length + L.length) : Decidable (markedAt L mn mx r hr) := by
  unfold markedAt; infer_instance

theorem problemBasis_length : (problemBasis mn mx L).length = L.length + L.length := by
  simp [problemBasis]

theorem problemBasis_getElem (r : ℕ) (hr : r < L.length + L.length) :
    (problemBasis mn mx L)[r]'(by rw [problemBasis_length]; exact hr) =
      if markedAt L mn mx r hr then offsetAt L r + (cellAt L r hr).2.1.val else m + 2 * n + r := by
  unfold problemBasis markedAt offsetAt cellAt
  by_cases h : r < L.length
  · rw [List.getElem_append_left (by simpa using h)]
    simp only [h, if_true, dif_pos, List.getElem_mapIdx, basisOf]
  · rw [List.getElem_append_right (by simpa using h)]
    simp only [h, if_false, dif_neg, not_false_iff, List.getElem_mapIdx, basisOf, List.length_mapIdx]
    congr 1
    omega

theorem problemBasis_lt : ∀ c ∈ problemBasis mn mx L, c < (problem L).nrColumns := by
  intro c hc
  obtain ⟨r, hr, rfl⟩ := List.mem_iff_getElem.1 hc
  rw [problemBasis_length] at hr
  rw [problemBasis_getElem L mn mx r hr, nrColumns_eq]
  have := (cellAt L r hr).2.1.2
  unfold offsetAt
  split_ifs <;> omega

/-- The class of a row. -/
def classAt (r : ℕ) (hr : r < L.length + L.length) : Bool × Fin n :=
  (decide (r < L.length), (cellAt L r hr).2.1)

/-- The sign of the slack. -/
def sign (c : Bool × Fin n) : ℚ := if c.1 then 1 else -1

theorem entry_basis (r k : ℕ) (hr : r < L.length + L.length) (hk : k < L.length + L.length) :
    (problem L).entry r (if markedAt L mn mx k hk then offsetAt L k + (cellAt L k hk).2.1.val
        else m + 2 * n + k) =
      if markedAt L mn mx k hk then (if classAt L r hr = classAt L k hk then 1 else 0)
      else if r = k then sign (classAt L r hr) else 0 := by
  by_cases hm : markedAt L mn mx k hk
  · rw [if_pos hm, if_pos hm]
    have hlt : offsetAt L k + (cellAt L k hk).2.1.val < m + 2 * n := by
      have := (cellAt L k hk).2.1.2
      unfold offsetAt
      split <;> omega
    rw [MatrixData.entry_normal _ (by rw [vars_length]; exact hlt), boundToVariable_nil,
      constraint_val L hlt r hr]
    have h1 : ¬ (cellAt L r hr).1.val = offsetAt L k + (cellAt L k hk).2.1.val := by
      have := (cellAt L r hr).1.2
      unfold offsetAt
      split <;> omega
    have h2 : offsetAt L r + (cellAt L r hr).2.1.val = offsetAt L k + (cellAt L k hk).2.1.val ↔
        classAt L r hr = classAt L k hk := by
      have e1 := (cellAt L r hr).2.1.2
      have e2 := (cellAt L k hk).2.1.2
      unfold offsetAt classAt
      rw [Prod.mk.injEq, decide_eq_decide, Fin.ext_iff]
      split_ifs <;> constructor <;> intro h <;> (try constructor) <;> (try constructor) <;> omega
    simp only [if_neg h1, h2]
    simp
  · rw [if_neg hm, if_neg hm]
    by_cases h : k < L.length
    · have hc : (problem L).column (m + 2 * n + k) = .slack (k, 1) := by
        have := (problem L).column_upper (k := k) h
        have e : (problem L).rangeSlackEnd = m + 2 * n := by
          simp only [MatrixData.rangeSlackEnd, MatrixData.normalColumnEnd, vars_length]
          rfl
        rw [e] at this
        rw [this]
        simp [MatrixData.rangeEnd, MatrixData.equalityEnd, problem, matrix]
      rw [MatrixData.entry_slack _ hc]
      by_cases hrk : r = k
      · subst hrk
        simp [sign, classAt, h]
      · simp [hrk]
    · have hc : (problem L).column (m + 2 * n + k) = .slack (k, -1) := by
        have := (problem L).column_lower (k := k - L.length) (show k - L.length < L.length by omega)
        have e : (problem L).upperSlackEnd + (k - L.length) = m + 2 * n + k := by
          simp only [MatrixData.upperSlackEnd, MatrixData.rangeSlackEnd, MatrixData.normalColumnEnd,
            vars_length]
          simp only [problem, matrix]
          omega
        rw [e] at this
        rw [this]
        congr 2
        simp only [MatrixData.upperEnd, MatrixData.rangeEnd, MatrixData.equalityEnd, problem, matrix]
        omega
      rw [MatrixData.entry_slack _ hc]
      by_cases hrk : r = k
      · subst hrk
        simp [sign, classAt, h]
      · simp [hrk]

theorem first_exists {L : List (Cell m n)} {e : Fin n → ℤ} {j : Fin n}
    (h : ∃ c ∈ L, c.2.1 = j ∧ c.2.2 = e j) :
    ∃ (k : ℕ) (hk : k < L.length), First e (L.take k) L[k] ∧ L[k].2.1 = j := by
  classical
  have h' : ∃ k, ∃ hk : k < L.length, L[k].2.1 = j ∧ L[k].2.2 = e j := by
    obtain ⟨c, hc, h1⟩ := h
    obtain ⟨k, hk, rfl⟩ := List.mem_iff_getElem.1 hc
    exact ⟨k, hk, h1⟩
  obtain ⟨hk, h1, h2⟩ := Nat.find_spec h'
  refine ⟨Nat.find h', hk, ⟨by rw [h1]; exact h2, fun d hd h3 h4 => ?_⟩, h1⟩
  obtain ⟨i, hi, rfl⟩ := List.mem_iff_getElem.1 hd
  rw [List.length_take] at hi
  rw [List.getElem_take] at h3 h4
  rw [h1] at h3 h4
  exact Nat.find_min h' (m := i) (by omega) ⟨by omega, h3, h4⟩

theorem first_unique {L : List (Cell m n)} {e : Fin n → ℤ} {k k' : ℕ} (hk : k < L.length)
    (hk' : k' < L.length) (h : First e (L.take k) L[k]) (h' : First e (L.take k') L[k'])
    (hj : L[k].2.1 = L[k'].2.1) : k = k' := by
  rcases Nat.lt_trichotomy k k' with hlt | heq | hlt
  · refine absurd ?_ (h'.2 L[k] ?_ hj)
    · rw [h.1, hj]
    · exact List.mem_iff_getElem.2 ⟨k, by rw [List.length_take]; omega, by rw [List.getElem_take]⟩
  · exact heq
  · refine absurd ?_ (h.2 L[k'] ?_ hj.symm)
    · rw [h'.1, hj]
    · exact List.mem_iff_getElem.2 ⟨k', by rw [List.length_take]; omega, by rw [List.getElem_take]⟩

variable {L mn mx}

theorem marked_exists (hmn : ∀ j, ∃ c ∈ L, c.2.1 = j ∧ c.2.2 = mn j)
    (hmx : ∀ j, ∃ c ∈ L, c.2.1 = j ∧ c.2.2 = mx j) (r : ℕ) (hr : r < L.length + L.length) :
    ∃ (k : ℕ) (hk : k < L.length + L.length), markedAt L mn mx k hk ∧
      classAt L k hk = classAt L r hr := by
  by_cases h : r < L.length
  · obtain ⟨k, hk, h1, h2⟩ := first_exists (hmn (cellAt L r hr).2.1)
    refine ⟨k, by omega, ?_, ?_⟩
    · simp only [markedAt, cellAt, hk, if_true, dif_pos]
      exact h1
    · simp only [classAt, hk, h, decide_true, Prod.mk.injEq, true_and]
      rw [← h2]
      simp only [cellAt, hk, dif_pos]
  · obtain ⟨k, hk, h1, h2⟩ := first_exists (hmx (cellAt L r hr).2.1)
    have hk' : ¬ k + L.length < L.length := by omega
    refine ⟨k + L.length, by omega, ?_, ?_⟩
    · simp only [markedAt, cellAt, hk', if_false, dif_neg, not_false_iff, Nat.add_sub_cancel]
      exact h1
    · simp only [classAt, hk', h, decide_false, Prod.mk.injEq, true_and]
      rw [← h2]
      simp only [cellAt, hk', dif_neg, not_false_iff, Nat.add_sub_cancel]

theorem marked_unique {k k' : ℕ} (hk : k < L.length + L.length) (hk' : k' < L.length + L.length)
    (h : markedAt L mn mx k hk) (h' : markedAt L mn mx k' hk')
    (hc : classAt L k hk = classAt L k' hk') : k = k' := by
  simp only [classAt, Prod.mk.injEq, decide_eq_decide] at hc
  obtain ⟨h1, h2⟩ := hc
  by_cases hl : k < L.length
  · have hl' := h1.1 hl
    simp only [markedAt, cellAt, hl, hl', if_true, dif_pos] at h h' h2
    exact first_unique hl hl' h h' h2
  · have hl' : ¬ k' < L.length := fun h => hl (h1.2 h)
    simp only [markedAt, cellAt, hl, hl', if_false, dif_neg, not_false_iff] at h h' h2
    have := first_unique (by omega) (by omega) h h' h2
    omega

/-- The basis in the form in which the solver gets it. -/
theorem problem_start (hv : ∀ c ∈ L, 0 ≤ c.2.2) (hL : L ≠ [])
    (hmn : ∀ j, ∃ c ∈ L, c.2.1 = j ∧ c.2.2 = mn j) (hmn' : ∀ c ∈ L, mn c.2.1 ≤ c.2.2)
    (hmx : ∀ j, ∃ c ∈ L, c.2.1 = j ∧ c.2.2 = mx j) (hmx' : ∀ c ∈ L, c.2.2 ≤ mx c.2.1)
    (basis : Fin (problem L).nrRows → Fin (problem L).nrColumns)
    (hb : ∀ (r : ℕ) (hr : r < L.length + L.length), (basis ⟨r, by rw [nrRows_eq]; exact hr⟩).val =
      if markedAt L mn mx r hr then offsetAt L r + (cellAt L r hr).2.1.val else m + 2 * n + r) :
    ∃ carry : Carry BasisInverseRows (problem L).nrRows (problem L).nrColumns,
      Carry.fromBasis (problem L).toProvider basis = .ok carry ∧
      PhaseTwoStart (problem L).toProvider (⟨carry, Finset.univ.image basis,
        Tableau.nonArtificialKind (problem L).toProvider⟩ : Tableau BasisInverseRows _ _) := by
  have hr' : ∀ r : Fin (problem L).nrRows, r.val < L.length + L.length := fun r =>
    lt_of_lt_of_eq r.2 (nrRows_eq L)
  choose rep hrep hrep1 hrep2 using fun r : Fin (problem L).nrRows =>
    marked_exists hmn hmx r.val (hr' r)
  have hvalid := problem_valid L hv
  have hB : ∀ r k, columnsMatrix (fun i => (problem L).toProvider.column (basis i)) r k =
      if markedAt L mn mx k (hr' k) then
        (if classAt L r (hr' r) = classAt L k (hr' k) then 1 else 0)
      else if r = k then sign (classAt L r (hr' r)) else 0 := by
    intro r k
    have h1 : columnsMatrix (fun i => (problem L).toProvider.column (basis i)) r k =
        (problem L).entry r (basis k) := (problem L).toLP_entry r (basis k)
    rw [h1, hb k (hr' k), entry_basis L mn mx r k (hr' r) (hr' k)]
    simp only [Fin.ext_iff]
  have hlt : ∀ r, rep r < (problem L).nrRows := fun r => by rw [nrRows_eq]; exact hrep r
  have hrhs : ∀ r : Fin (problem L).nrRows, (problem L).toProvider.rhs r =
      (cellAt L r (hr' r)).2.2 := by
    intro r
    have h1 : (problem L).toProvider.rhs r = (problem L).rightHandSide.getD r 0 := rfl
    rw [h1, hvalid.rhs_constraint, b_getD L r (hr' r)]
    have := hr' r
    simpa [MatrixData.lowerEnd, MatrixData.upperEnd, MatrixData.rangeEnd, MatrixData.equalityEnd,
      problem, matrix] using this
  refine fromBasis_start (BI := BasisInverseRows) trivial ?_ hvalid.ok.wf
    (form_injective (marked := fun k => markedAt L mn mx k.val (hr' k))
      (cls := fun r => classAt L r.val (hr' r)) (sgn := sign) (rep := fun r => ⟨rep r, hlt r⟩)
      hB hrep1 hrep2 (fun r k h1 h2 => Fin.ext (marked_unique _ _ h1 (hrep1 r)
        (h2.trans (hrep2 r).symm))) fun c => by unfold sign; split <;> norm_num)
    (form_solution (marked := fun k => markedAt L mn mx k.val (hr' k))
      (cls := fun r => classAt L r.val (hr' r)) (sgn := sign) (rep := fun r => ⟨rep r, hlt r⟩)
      hB hrep1 hrep2 (fun r k h1 h2 => Fin.ext (marked_unique _ _ h1 (hrep1 r)
        (h2.trans (hrep2 r).symm))) (fun c => by unfold sign; split <;> norm_num) _) fun r => ?_
  · show (problem L).nrRows ≠ 0
    rw [nrRows_eq]
    have := List.length_pos_iff.2 hL
    omega
  · have hmem := cellAt_mem L r (hr' r)
    have h0 := hv _ hmem
    by_cases h : markedAt L mn mx r.val (hr' r)
    · rw [if_pos h, hrhs]
      exact_mod_cast h0
    · rw [if_neg h, hrhs, hrhs]
      have h1 := hrep1 r
      have h2 := hrep2 r
      have hmemr := cellAt_mem L _ (hrep r)
      simp only [classAt, Prod.mk.injEq, decide_eq_decide] at h2
      by_cases hl : r.val < L.length
      · have hl' := h2.1.2 hl
        have h3 : (cellAt L (rep r) (hrep r)).2.2 = mn (cellAt L r (hr' r)).2.1 := by
          rw [← h2.2]
          simp only [markedAt, hl', if_true] at h1
          exact h1.1
        have h4 := hmn' _ hmem
        rw [← h3] at h4
        have h5 : ((cellAt L (rep r) (hrep r)).2.2 : ℚ) ≤ (cellAt L r (hr' r)).2.2 := by
          exact_mod_cast h4
        simp only [sign, classAt, hl, decide_true, if_true, one_mul]
        linarith
      · have hl' : ¬ rep r < L.length := fun h => hl (h2.1.1 h)
        have h3 : (cellAt L (rep r) (hrep r)).2.2 = mx (cellAt L r (hr' r)).2.1 := by
          rw [← h2.2]
          simp only [markedAt, hl', if_false] at h1
          exact h1.1
        have h4 := hmx' _ hmem
        rw [← h3] at h4
        have h5 : ((cellAt L r (hr' r)).2.2 : ℚ) ≤ (cellAt L (rep r) (hrep r)).2.2 := by
          exact_mod_cast h4
        simp only [sign, classAt, hl, decide_false, Bool.false_eq_true, if_false]
        linarith

end

end ColumnRange

end Relp
