import Verif.Spec.MatrixData
import Verif.Proof.Vector
import Verif.Proof.Removal
import Mathlib.Algebra.BigOperators.Fin

/-! # The tabular form of `MatrixData`, entry by entry -/

namespace Relp

open Matrix

namespace MatrixData

/-! ### Bound indices -/

theorem boundIndices_append (l : List Variable) (v : Variable) :
    boundIndices (l ++ [v]) = if v.upperBound.isSome then
      ((boundIndices l).1 ++ [some (boundIndices l).2.length], (boundIndices l).2 ++ [l.length])
      else ((boundIndices l).1 ++ [none], (boundIndices l).2) := by
  simp [boundIndices, List.zipIdx_append, List.foldl_append]

theorem boundIndices_length (l : List Variable) : (boundIndices l).1.length = l.length := by
  induction l using List.reverseRecOn with
  | nil => rfl
  | append_singleton l v ih =>
    rw [boundIndices_append]
    split_ifs <;> simp [ih]

theorem boundIndices_lt (l : List Variable) : ∀ j ∈ (boundIndices l).2, j < l.length := by
  induction l using List.reverseRecOn with
  | nil => intro j hj; cases hj
  | append_singleton l v ih =>
    intro j hj
    rw [boundIndices_append] at hj
    rw [List.length_append, List.length_singleton]
    split_ifs at hj
    · rcases List.mem_append.1 hj with h | h
      · have := ih j h; omega
      · simp at h; omega
    · have := ih j hj; omega

theorem boundIndices_inverse (l : List Variable) (k j : ℕ) :
    (boundIndices l).1[j]? = some (some k) ↔ (boundIndices l).2[k]? = some j := by
  induction l using List.reverseRecOn generalizing k j with
  | nil => simp [boundIndices]
  | append_singleton l v ih =>
    rw [boundIndices_append]
    have hl := boundIndices_length l
    have hlt := boundIndices_lt l
    split_ifs with hv
    · dsimp only
      rw [List.getElem?_append, List.getElem?_append]
      have ih' := ih k j
      split_ifs with h1 h2 h2
      · exact ih'
      · rw [ih', List.getElem?_eq_none (by omega)]
        rcases hkk : k - (boundIndices l).2.length with _ | q
        · simp; omega
        · simp
      · rw [hl] at h1
        constructor
        · intro h
          rcases hjj : j - (boundIndices l).1.length with _ | q
          · rw [hjj] at h; simp at h; omega
          · rw [hjj] at h; simp at h
        · intro h
          have := hlt j (List.mem_of_getElem? h)
          omega
      · rcases hjj : j - (boundIndices l).1.length with _ | q
        · rcases hkk : k - (boundIndices l).2.length with _ | q
          · simp; omega
          · simp; omega
        · rcases hkk : k - (boundIndices l).2.length with _ | q
          · simp; omega
          · simp
    · dsimp only
      rw [← ih, List.getElem?_append]
      split_ifs with h1
      · rfl
      · rw [List.getElem?_eq_none (by omega : (boundIndices l).1.length ≤ j)]
        rcases j - (boundIndices l).1.length with _ | q <;> simp

theorem boundIndices_isSome (l : List Variable) (j : ℕ) (v : Variable) (h : l[j]? = some v) :
    v.upperBound.isSome ↔ ∃ k, (boundIndices l).1[j]? = some (some k) := by
  induction l using List.reverseRecOn with
  | nil => simp at h
  | append_singleton l w ih =>
    have hl := boundIndices_length l
    have hf : (boundIndices (l ++ [w])).1 = (boundIndices l).1 ++
        [if w.upperBound.isSome then some (boundIndices l).2.length else none] := by
      rw [boundIndices_append]; split_ifs <;> rfl
    rw [hf]
    rw [List.getElem?_append] at h ⊢
    rw [hl]
    split_ifs at h with h1
    · rw [if_pos h1]
      exact ih h
    · rw [if_neg h1]
      rcases hjj : j - l.length with _ | q
      · rw [hjj] at h
        simp at h
        subst h
        cases hw : w.upperBound <;> simp
      · rw [hjj] at h; simp at h

variable (M : MatrixData)

theorem boundToVariable_lt {j : ℕ} (h : j ∈ M.boundToVariable) : j < M.vars.length :=
  boundIndices_lt _ j h

theorem variableToBound_iff (k j : ℕ) :
    M.variableToBound.getD j none = some k ↔ M.boundToVariable[k]? = some j := by
  rw [boundToVariable, ← boundIndices_inverse, variableToBound, List.getD_eq_getElem?_getD]
  rcases (boundIndices M.vars).1[j]? with _ | _ | x <;> simp

theorem bound_isSome {j : ℕ} (hj : j < M.vars.length) :
    M.vars[j].upperBound.isSome ↔ ∃ k : ℕ, M.boundToVariable[k]? = some j := by
  rw [boundIndices_isSome M.vars j _ (List.getElem?_eq_getElem hj)]
  exact exists_congr fun k => boundIndices_inverse _ k j

/-! ### Columns -/

theorem columnType_normal {j : ℕ} (h : j < M.vars.length) : M.columnType j = (.normal, j) := by
  simp only [columnType]
  rw [if_pos (by exact h)]
  rfl

theorem columnType_range {k : ℕ} (h : k < M.nrRange) :
    M.columnType (M.normalColumnEnd + k) = (.rangeSlack, k) := by
  simp only [columnType]
  rw [if_neg (by omega), if_pos (by unfold rangeSlackEnd; omega)]
  simp

theorem columnType_upper {k : ℕ} (h : k < M.nrUpper) :
    M.columnType (M.rangeSlackEnd + k) = (.upperSlack, k) := by
  simp only [columnType]
  rw [if_neg (by unfold rangeSlackEnd; omega), if_neg (by omega),
    if_pos (by unfold upperSlackEnd; omega)]
  simp

theorem columnType_lower {k : ℕ} (h : k < M.nrLower) :
    M.columnType (M.upperSlackEnd + k) = (.lowerSlack, k) := by
  simp only [columnType]
  rw [if_neg (by unfold upperSlackEnd rangeSlackEnd; omega), if_neg (by unfold upperSlackEnd; omega),
    if_neg (by omega), if_pos (by unfold lowerSlackEnd; omega)]
  simp

theorem columnType_variableBound {k : ℕ} (h : k < M.nrBounds) :
    M.columnType (M.lowerSlackEnd + k) = (.variableBoundSlack, k) := by
  simp only [columnType]
  rw [if_neg (by unfold lowerSlackEnd upperSlackEnd rangeSlackEnd; omega),
    if_neg (by unfold lowerSlackEnd upperSlackEnd; omega), if_neg (by unfold lowerSlackEnd; omega),
    if_neg (by omega), if_pos (by unfold variableBoundSlackEnd; omega)]
  simp

theorem columnType_slackBound {k : ℕ} :
    M.columnType (M.variableBoundSlackEnd + k) = (.slackBoundSlack, k) := by
  simp only [columnType]
  rw [if_neg (by unfold variableBoundSlackEnd lowerSlackEnd upperSlackEnd rangeSlackEnd; omega),
    if_neg (by unfold variableBoundSlackEnd lowerSlackEnd upperSlackEnd; omega),
    if_neg (by unfold variableBoundSlackEnd lowerSlackEnd; omega),
    if_neg (by unfold variableBoundSlackEnd; omega), if_neg (by omega)]
  simp

theorem column_normal {j : ℕ} (h : j < M.vars.length) :
    M.column j = .sparse (M.constraints.data.getD j [])
      ((M.variableToBound.getD j none).map fun k => (M.lowerEnd + k, 1)) := by
  simp only [column, boundRowIndex, columnType_normal M h, Option.map_map]
  rfl

theorem column_range {k : ℕ} (h : k < M.nrRange) :
    M.column (M.normalColumnEnd + k) = .twoSlack (M.equalityEnd + k, 1) (M.variableBoundEnd + k, 1) := by
  simp only [column, columnType_range M h]

theorem column_upper {k : ℕ} (h : k < M.nrUpper) :
    M.column (M.rangeSlackEnd + k) = .slack (M.rangeEnd + k, 1) := by
  simp only [column, columnType_upper M h]

theorem column_lower {k : ℕ} (h : k < M.nrLower) :
    M.column (M.upperSlackEnd + k) = .slack (M.upperEnd + k, -1) := by
  simp only [column, columnType_lower M h]

theorem column_variableBound {k : ℕ} (h : k < M.nrBounds) :
    M.column (M.lowerSlackEnd + k) = .slack (M.lowerEnd + k, 1) := by
  simp only [column, columnType_variableBound M h]

theorem column_slackBound {k : ℕ} :
    M.column (M.variableBoundSlackEnd + k) = .slack (M.variableBoundEnd + k, 1) := by
  simp only [column, columnType_slackBound M]

/-- The element in row `i` of column `j`. -/
def entry (i j : ℕ) : ℚ := SVec.val (M.column j).tuples i

theorem entry_normal {j : ℕ} (h : j < M.vars.length) (i : ℕ) :
    M.entry i j = SVec.val (M.constraints.data.getD j []) i +
      if M.lowerEnd ≤ i ∧ M.boundToVariable[i - M.lowerEnd]? = some j then 1 else 0 := by
  rw [entry, column_normal M h]
  simp only [DataColumn.tuples, SVec.val_append']
  congr 1
  rcases hk : M.variableToBound.getD j none with _ | k
  · rw [if_neg]
    · rfl
    · rintro ⟨-, h1⟩
      rw [(M.variableToBound_iff _ j).2 h1] at hk
      cases hk
  · have h1 := (M.variableToBound_iff k j).1 hk
    simp only [Option.map_some, Option.toList_some, SVec.val_cons, SVec.val_nil, add_zero]
    refine if_congr ⟨fun h => ⟨by omega, ?_⟩, ?_⟩ rfl rfl
    · rw [← h, Nat.add_sub_cancel_left]; exact h1
    · rintro ⟨h3, h2⟩
      have := (M.variableToBound_iff _ j).2 h2
      rw [hk] at this
      cases this
      omega

theorem entry_slack {j r i : ℕ} {s : ℚ} (h : M.column j = .slack (r, s)) :
    M.entry i j = if i = r then s else 0 := by
  rw [entry, h]
  simp only [DataColumn.tuples, SVec.val_cons, SVec.val_nil, add_zero, eq_comm]

theorem entry_range {k : ℕ} (h : k < M.nrRange) (i : ℕ) :
    M.entry i (M.normalColumnEnd + k) = (if i = M.equalityEnd + k then 1 else 0) +
      if i = M.variableBoundEnd + k then 1 else 0 := by
  rw [entry, column_range M h]
  simp only [DataColumn.tuples, SVec.val_cons, SVec.val_nil, add_zero, eq_comm]

/-! ### Rows -/

/-- The left-hand side of row `i` of the tabular form. -/
def rowSum (z : ℕ → ℚ) (i : ℕ) : ℚ := ∑ j ∈ Finset.range M.nrColumns, M.entry i j * z j

theorem sum_indicator (i s len : ℕ) (c : ℚ) (z : ℕ → ℚ) :
    (∑ k ∈ Finset.range len, (if i = s + k then c else 0) * z k) =
      if s ≤ i ∧ i < s + len then c * z (i - s) else 0 := by
  split_ifs with h
  · rw [Finset.sum_eq_single (i - s)]
    · rw [if_pos (by omega)]
    · intro k _ hk
      rw [if_neg (by omega), zero_mul]
    · intro hk
      exact absurd (Finset.mem_range.2 (by omega)) hk
  · refine Finset.sum_eq_zero fun k hk => ?_
    rw [Finset.mem_range] at hk
    rw [if_neg (by omega), zero_mul]

/-- The constraint value `a x` of row `i`. -/
def constraintSum (z : ℕ → ℚ) (i : ℕ) : ℚ :=
  ∑ j ∈ Finset.range M.vars.length, SVec.val (M.constraints.data.getD j []) i * z j

theorem boundSum (z : ℕ → ℚ) (i : ℕ) :
    (∑ j ∈ Finset.range M.vars.length,
      (if M.lowerEnd ≤ i ∧ M.boundToVariable[i - M.lowerEnd]? = some j then (1 : ℚ) else 0) * z j) =
    if M.lowerEnd ≤ i ∧ i < M.lowerEnd + M.nrBounds then
      z (M.boundToVariable.getD (i - M.lowerEnd) 0) else 0 := by
  split_ifs with h
  · have hlt : i - M.lowerEnd < M.boundToVariable.length := by unfold nrBounds at h; omega
    have hg : M.boundToVariable[i - M.lowerEnd]? = some (M.boundToVariable.getD (i - M.lowerEnd) 0) := by
      rw [List.getD_eq_getElem?_getD, List.getElem?_eq_getElem hlt]; rfl
    rw [Finset.sum_eq_single (M.boundToVariable.getD (i - M.lowerEnd) 0)]
    · rw [if_pos ⟨h.1, hg⟩, one_mul]
    · intro j _ hj
      rw [if_neg, zero_mul]
      rintro ⟨-, h1⟩
      apply hj
      rw [hg] at h1
      exact (Option.some.inj h1).symm
    · intro hk
      exact absurd (Finset.mem_range.2 (M.boundToVariable_lt (List.mem_of_getElem? hg))) hk
  · refine Finset.sum_eq_zero fun j hj => ?_
    rw [if_neg, zero_mul]
    rintro ⟨h2, h1⟩
    have := (List.getElem?_eq_some_iff.1 h1).1
    unfold nrBounds at h
    omega

theorem rowSum_eq (z : ℕ → ℚ) (i : ℕ) :
    M.rowSum z i = M.constraintSum z i +
      (if M.lowerEnd ≤ i ∧ i < M.lowerEnd + M.nrBounds then
        z (M.boundToVariable.getD (i - M.lowerEnd) 0) else 0) +
      (if M.equalityEnd ≤ i ∧ i < M.equalityEnd + M.nrRange then
        1 * z (M.normalColumnEnd + (i - M.equalityEnd)) else 0) +
      (if M.variableBoundEnd ≤ i ∧ i < M.variableBoundEnd + M.nrRange then
        1 * z (M.normalColumnEnd + (i - M.variableBoundEnd)) else 0) +
      (if M.rangeEnd ≤ i ∧ i < M.rangeEnd + M.nrUpper then
        1 * z (M.rangeSlackEnd + (i - M.rangeEnd)) else 0) +
      (if M.upperEnd ≤ i ∧ i < M.upperEnd + M.nrLower then
        -1 * z (M.upperSlackEnd + (i - M.upperEnd)) else 0) +
      (if M.lowerEnd ≤ i ∧ i < M.lowerEnd + M.nrBounds then
        1 * z (M.lowerSlackEnd + (i - M.lowerEnd)) else 0) +
      (if M.variableBoundEnd ≤ i ∧ i < M.variableBoundEnd + M.nrRange then
        1 * z (M.variableBoundSlackEnd + (i - M.variableBoundEnd)) else 0) := by
  have hs : ∀ (g : ℕ → ℚ) (a b : ℕ), ∑ j ∈ Finset.range (a + b), g j =
      (∑ j ∈ Finset.range a, g j) + ∑ k ∈ Finset.range b, g (a + k) := fun g a b =>
    Finset.sum_range_add g a b
  rw [rowSum, nrColumns, slackBoundSlackEnd, hs, variableBoundSlackEnd, hs, lowerSlackEnd, hs,
    upperSlackEnd, hs, rangeSlackEnd, hs, normalColumnEnd]
  have e1 : ∑ j ∈ Finset.range M.vars.length, M.entry i j * z j = M.constraintSum z i +
      (if M.lowerEnd ≤ i ∧ i < M.lowerEnd + M.nrBounds then
        z (M.boundToVariable.getD (i - M.lowerEnd) 0) else 0) := by
    rw [← M.boundSum z i, constraintSum, ← Finset.sum_add_distrib]
    refine Finset.sum_congr rfl fun j hj => ?_
    rw [M.entry_normal (Finset.mem_range.1 hj), add_mul]
  have e2 : ∑ k ∈ Finset.range M.nrRange, M.entry i (M.vars.length + k) * z (M.vars.length + k) =
      (if M.equalityEnd ≤ i ∧ i < M.equalityEnd + M.nrRange then
        1 * z (M.vars.length + (i - M.equalityEnd)) else 0) +
      (if M.variableBoundEnd ≤ i ∧ i < M.variableBoundEnd + M.nrRange then
        1 * z (M.vars.length + (i - M.variableBoundEnd)) else 0) := by
    rw [← sum_indicator i M.equalityEnd M.nrRange 1 (fun k => z (M.vars.length + k)),
      ← sum_indicator i M.variableBoundEnd M.nrRange 1 (fun k => z (M.vars.length + k)),
      ← Finset.sum_add_distrib]
    refine Finset.sum_congr rfl fun k hk => ?_
    have := M.entry_range (Finset.mem_range.1 hk) i
    rw [normalColumnEnd] at this
    rw [this, add_mul]
  have e3 : ∑ k ∈ Finset.range M.nrUpper, M.entry i (M.rangeSlackEnd + k) * z (M.rangeSlackEnd + k) =
      (if M.rangeEnd ≤ i ∧ i < M.rangeEnd + M.nrUpper then
        1 * z (M.rangeSlackEnd + (i - M.rangeEnd)) else 0) := by
    rw [← sum_indicator i M.rangeEnd M.nrUpper 1 (fun k => z (M.rangeSlackEnd + k))]
    refine Finset.sum_congr rfl fun k hk => ?_
    rw [M.entry_slack (M.column_upper (Finset.mem_range.1 hk))]
  have e4 : ∑ k ∈ Finset.range M.nrLower, M.entry i (M.upperSlackEnd + k) * z (M.upperSlackEnd + k) =
      (if M.upperEnd ≤ i ∧ i < M.upperEnd + M.nrLower then
        -1 * z (M.upperSlackEnd + (i - M.upperEnd)) else 0) := by
    rw [← sum_indicator i M.upperEnd M.nrLower (-1) (fun k => z (M.upperSlackEnd + k))]
    refine Finset.sum_congr rfl fun k hk => ?_
    rw [M.entry_slack (M.column_lower (Finset.mem_range.1 hk))]
  have e5 : ∑ k ∈ Finset.range M.nrBounds, M.entry i (M.lowerSlackEnd + k) * z (M.lowerSlackEnd + k) =
      (if M.lowerEnd ≤ i ∧ i < M.lowerEnd + M.nrBounds then
        1 * z (M.lowerSlackEnd + (i - M.lowerEnd)) else 0) := by
    rw [← sum_indicator i M.lowerEnd M.nrBounds 1 (fun k => z (M.lowerSlackEnd + k))]
    refine Finset.sum_congr rfl fun k hk => ?_
    rw [M.entry_slack (M.column_variableBound (Finset.mem_range.1 hk))]
  have e6 : ∑ k ∈ Finset.range M.nrRange, M.entry i (M.variableBoundSlackEnd + k) *
      z (M.variableBoundSlackEnd + k) =
      (if M.variableBoundEnd ≤ i ∧ i < M.variableBoundEnd + M.nrRange then
        1 * z (M.variableBoundSlackEnd + (i - M.variableBoundEnd)) else 0) := by
    rw [← sum_indicator i M.variableBoundEnd M.nrRange 1 (fun k => z (M.variableBoundSlackEnd + k))]
    refine Finset.sum_congr rfl fun k _ => ?_
    rw [M.entry_slack M.column_slackBound]
  simp only [rangeSlackEnd, upperSlackEnd, lowerSlackEnd, variableBoundSlackEnd, normalColumnEnd] at *
  rw [e1, e2, e3, e4, e5, e6]
  ring

/-! ### The linear program of the solver -/

theorem _root_.Relp.SVec.val_toFin (m : ℕ) (v : SVec ℕ) (i : Fin m) :
    SVec.val (v.toFin m) i = SVec.val v i := by
  induction v with
  | nil => rfl
  | cons p v ih =>
    rw [SVec.val_cons, SVec.toFin, List.filterMap_cons, ← ih]
    by_cases h : p.1 < m
    · rw [dif_pos h]
      dsimp only
      rw [SVec.val_cons]
      congr 1
      simp [Fin.ext_iff]
    · rw [dif_neg h]
      dsimp only
      rw [if_neg (by have := i.2; omega), zero_add]
      rfl

theorem _root_.Relp.SVec.wf_toFin {m : ℕ} {v : SVec ℕ} (hv : SVec.WF v) : SVec.WF (v.toFin m) := by
  constructor
  · rw [SVec.toFin, List.pairwise_filterMap]
    refine hv.1.imp fun {p q} hpq a ha b hb => ?_
    split_ifs at ha hb
    · simp only [Option.some.injEq] at ha hb
      subst ha; subst hb
      exact hpq
  · intro p hp
    rw [SVec.toFin, List.mem_filterMap] at hp
    obtain ⟨q, hq, h⟩ := hp
    split_ifs at h
    simp only [Option.some.injEq] at h
    subst h
    exact hv.2 q hq

theorem toLP_entry (i : Fin M.nrRows) (j : Fin M.nrColumns) :
    M.toProvider.toLP.A i j = M.entry i j := SVec.val_toFin _ _ _

/-- A vector with typed indices as function on natural numbers. -/
def extendFin {n : ℕ} (z : Fin n → ℚ) (j : ℕ) : ℚ := if h : j < n then z ⟨j, h⟩ else 0

theorem extendFin_of_lt {n : ℕ} (z : Fin n → ℚ) {j : ℕ} (h : j < n) : extendFin z j = z ⟨j, h⟩ :=
  dif_pos h

theorem extendFin_val {n : ℕ} (z : Fin n → ℚ) (j : Fin n) : extendFin z j = z j :=
  dif_pos j.2

theorem toLP_row (z : Fin M.nrColumns → ℚ) (i : Fin M.nrRows) :
    (M.toProvider.toLP.A *ᵥ z) i = M.rowSum (extendFin z) i := by
  rw [rowSum, Finset.sum_range, mulVec, dotProduct]
  refine Finset.sum_congr rfl fun j _ => ?_
  rw [toLP_entry, extendFin_val]

variable {M}

theorem Valid.constraint_zero (h : M.Valid) {i : ℕ} (hi : M.lowerEnd ≤ i) (j : ℕ) :
    SVec.val (M.constraints.data.getD j []) i = 0 := by
  apply SVec.val_eq_zero_of_notMem
  intro p hp
  rw [List.getD_eq_getElem?_getD] at hp
  rcases hv : M.constraints.data[j]? with _ | v
  · rw [hv] at hp; cases hp
  · rw [hv] at hp
    have := h.inRange v (List.mem_of_getElem? hv) p hp
    unfold lowerEnd upperEnd rangeEnd equalityEnd at hi
    omega

theorem Valid.constraintSum_zero (h : M.Valid) {i : ℕ} (hi : M.lowerEnd ≤ i) (z : ℕ → ℚ) :
    M.constraintSum z i = 0 :=
  Finset.sum_eq_zero fun j _ => by rw [h.constraint_zero hi, zero_mul]

theorem Valid.bLength' (h : M.Valid) : M.b.length = M.lowerEnd := h.bLength

theorem Valid.rhs_constraint (h : M.Valid) {i : ℕ} (hi : i < M.lowerEnd) :
    M.rightHandSide.getD i 0 = M.b.getD i 0 := by
  rw [rightHandSide, list_getD_append, list_getD_append, List.length_append, h.bLength']
  rw [if_pos (by omega), if_pos hi]

theorem Valid.rhs_bound (h : M.Valid) {k : ℕ} (hk : k < M.nrBounds) :
    M.rightHandSide.getD (M.lowerEnd + k) 0 =
      (M.vars[M.boundToVariable.getD k 0]?.bind (·.upperBound)).getD 0 := by
  have hk' : k < M.boundToVariable.length := hk
  rw [rightHandSide, list_getD_append, list_getD_append, List.length_append, h.bLength',
    List.length_map]
  rw [if_pos (by omega), if_neg (by omega), Nat.add_sub_cancel_left]
  rw [List.getD_eq_getElem?_getD, List.getElem?_map, List.getElem?_eq_getElem hk',
    List.getD_eq_getElem?_getD, List.getElem?_eq_getElem hk']
  rfl

theorem Valid.rhs_range (h : M.Valid) (k : ℕ) :
    M.rightHandSide.getD (M.variableBoundEnd + k) 0 = M.ranges.getD k 0 := by
  rw [rightHandSide, list_getD_append, List.length_append, h.bLength', List.length_map]
  unfold variableBoundEnd nrBounds
  rw [if_neg (by omega)]
  congr 1
  omega

theorem rows_cases {p : ℕ → Prop} : (∀ i < M.nrRows, p i) ↔
    (∀ i < M.equalityEnd, p i) ∧ (∀ k < M.nrRange, p (M.equalityEnd + k)) ∧
    (∀ k < M.nrUpper, p (M.rangeEnd + k)) ∧ (∀ k < M.nrLower, p (M.upperEnd + k)) ∧
    (∀ k < M.nrBounds, p (M.lowerEnd + k)) ∧ ∀ k < M.nrRange, p (M.variableBoundEnd + k) := by
  have e : M.nrRows = M.variableBoundEnd + M.nrRange := by
    unfold nrRows nrVariableBounds nrConstraints variableBoundEnd nrBounds
    omega
  rw [e]
  constructor
  · intro h
    refine ⟨fun i hi => h i ?_, fun i hi => h _ ?_, fun i hi => h _ ?_, fun i hi => h _ ?_,
      fun i hi => h _ ?_, fun i hi => h _ ?_⟩ <;>
    · unfold variableBoundEnd lowerEnd upperEnd rangeEnd at *
      omega
  · rintro ⟨h1, h2, h3, h4, h5, h6⟩ i hi
    by_cases c1 : i < M.equalityEnd
    · exact h1 i c1
    by_cases c2 : i < M.rangeEnd
    · have := h2 (i - M.equalityEnd) (by unfold rangeEnd at c2; omega)
      rwa [Nat.add_sub_cancel' (by omega)] at this
    by_cases c3 : i < M.upperEnd
    · have := h3 (i - M.rangeEnd) (by unfold upperEnd at c3; omega)
      rwa [Nat.add_sub_cancel' (by omega)] at this
    by_cases c4 : i < M.lowerEnd
    · have := h4 (i - M.upperEnd) (by unfold lowerEnd at c4; omega)
      rwa [Nat.add_sub_cancel' (by omega)] at this
    by_cases c5 : i < M.variableBoundEnd
    · have := h5 (i - M.lowerEnd) (by unfold variableBoundEnd at c5; omega)
      rwa [Nat.add_sub_cancel' (by omega)] at this
    · have := h6 (i - M.variableBoundEnd) (by omega)
      rwa [Nat.add_sub_cancel' (by omega)] at this

/-- Upper bound of a variable, zero if there is none. -/
def upperOf (M : MatrixData) (j : ℕ) : ℚ := (M.vars[j]?.bind (·.upperBound)).getD 0

/-- The equations of the tabular form. -/
structure Equations (M : MatrixData) (z : ℕ → ℚ) : Prop where
  equality : ∀ i < M.equalityEnd, M.constraintSum z i = M.b.getD i 0
  range : ∀ k < M.nrRange, M.constraintSum z (M.equalityEnd + k) + z (M.normalColumnEnd + k) =
    M.b.getD (M.equalityEnd + k) 0
  upper : ∀ k < M.nrUpper, M.constraintSum z (M.rangeEnd + k) + z (M.rangeSlackEnd + k) =
    M.b.getD (M.rangeEnd + k) 0
  lower : ∀ k < M.nrLower, M.constraintSum z (M.upperEnd + k) - z (M.upperSlackEnd + k) =
    M.b.getD (M.upperEnd + k) 0
  variableBound : ∀ k < M.nrBounds, z (M.boundToVariable.getD k 0) + z (M.lowerSlackEnd + k) =
    M.upperOf (M.boundToVariable.getD k 0)
  slackBound : ∀ k < M.nrRange, z (M.normalColumnEnd + k) + z (M.variableBoundSlackEnd + k) =
    M.ranges.getD k 0

theorem Valid.equations_iff (h : M.Valid) (z : ℕ → ℚ) :
    (∀ i < M.nrRows, M.rowSum z i = M.rightHandSide.getD i 0) ↔ M.Equations z := by
  rw [rows_cases]
  have d1 : M.rangeEnd = M.equalityEnd + M.nrRange := rfl
  have d2 : M.upperEnd = M.rangeEnd + M.nrUpper := rfl
  have d3 : M.lowerEnd = M.upperEnd + M.nrLower := rfl
  have d4 : M.variableBoundEnd = M.lowerEnd + M.nrBounds := rfl
  have c1 : ∀ k < M.equalityEnd, (M.rowSum z k = M.rightHandSide.getD k 0 ↔
      M.constraintSum z k = M.b.getD k 0) := by
    intro k hk
    rw [h.rhs_constraint (by omega), rowSum_eq]
    split_ifs <;> first | omega | simp only [Nat.add_sub_cancel_left, add_zero, one_mul, neg_mul, zero_add, ← sub_eq_add_neg]
  have c2 : ∀ k < M.nrRange, (M.rowSum z (M.equalityEnd + k) = M.rightHandSide.getD (M.equalityEnd + k) 0 ↔
      M.constraintSum z (M.equalityEnd + k) + z (M.normalColumnEnd + k) = M.b.getD (M.equalityEnd + k) 0) := by
    intro k hk
    rw [h.rhs_constraint (by omega), rowSum_eq]
    split_ifs <;> first | omega | simp only [Nat.add_sub_cancel_left, add_zero, one_mul, neg_mul, zero_add, ← sub_eq_add_neg]
  have c3 : ∀ k < M.nrUpper, (M.rowSum z (M.rangeEnd + k) = M.rightHandSide.getD (M.rangeEnd + k) 0 ↔
      M.constraintSum z (M.rangeEnd + k) + z (M.rangeSlackEnd + k) = M.b.getD (M.rangeEnd + k) 0) := by
    intro k hk
    rw [h.rhs_constraint (by omega), rowSum_eq]
    split_ifs <;> first | omega | simp only [Nat.add_sub_cancel_left, add_zero, one_mul, neg_mul, zero_add, ← sub_eq_add_neg]
  have c4 : ∀ k < M.nrLower, (M.rowSum z (M.upperEnd + k) = M.rightHandSide.getD (M.upperEnd + k) 0 ↔
      M.constraintSum z (M.upperEnd + k) - z (M.upperSlackEnd + k) = M.b.getD (M.upperEnd + k) 0) := by
    intro k hk
    rw [h.rhs_constraint (by omega), rowSum_eq]
    split_ifs <;> first | omega | simp only [Nat.add_sub_cancel_left, add_zero, one_mul, neg_mul, zero_add, ← sub_eq_add_neg]
  have c5 : ∀ k < M.nrBounds, (M.rowSum z (M.lowerEnd + k) = M.rightHandSide.getD (M.lowerEnd + k) 0 ↔
      z (M.boundToVariable.getD k 0) + z (M.lowerSlackEnd + k) = M.upperOf (M.boundToVariable.getD k 0)) := by
    intro k hk
    rw [h.rhs_bound hk, rowSum_eq, h.constraintSum_zero (by omega), upperOf]
    split_ifs <;> first | omega | simp only [Nat.add_sub_cancel_left, add_zero, one_mul, neg_mul, zero_add, ← sub_eq_add_neg]
  have c6 : ∀ k < M.nrRange, (M.rowSum z (M.variableBoundEnd + k) = M.rightHandSide.getD (M.variableBoundEnd + k) 0 ↔
      z (M.normalColumnEnd + k) + z (M.variableBoundSlackEnd + k) = M.ranges.getD k 0) := by
    intro k hk
    rw [h.rhs_range k, rowSum_eq, h.constraintSum_zero (by omega)]
    split_ifs <;> first | omega | simp only [Nat.add_sub_cancel_left, add_zero, one_mul, neg_mul, zero_add, ← sub_eq_add_neg]
  constructor
  · rintro ⟨h1, h2, h3, h4, h5, h6⟩
    exact ⟨fun k hk => (c1 k hk).1 (h1 k hk), fun k hk => (c2 k hk).1 (h2 k hk),
      fun k hk => (c3 k hk).1 (h3 k hk), fun k hk => (c4 k hk).1 (h4 k hk),
      fun k hk => (c5 k hk).1 (h5 k hk), fun k hk => (c6 k hk).1 (h6 k hk)⟩
  · rintro ⟨h1, h2, h3, h4, h5, h6⟩
    exact ⟨fun k hk => (c1 k hk).2 (h1 k hk), fun k hk => (c2 k hk).2 (h2 k hk),
      fun k hk => (c3 k hk).2 (h3 k hk), fun k hk => (c4 k hk).2 (h4 k hk),
      fun k hk => (c5 k hk).2 (h5 k hk), fun k hk => (c6 k hk).2 (h6 k hk)⟩

theorem Valid.feasible_iff (h : M.Valid) (z : Fin M.nrColumns → ℚ) :
    M.toProvider.toLP.Feasible z ↔ M.Equations (extendFin z) ∧ ∀ j, 0 ≤ z j := by
  rw [← h.equations_iff]
  refine and_congr ⟨fun h1 i hi => ?_, fun h1 => ?_⟩ Iff.rfl
  · have := congrFun h1 ⟨i, hi⟩
    rw [toLP_row] at this
    exact this
  · funext i
    rw [toLP_row]
    exact h1 i i.2

/-- The program, in terms of natural indices. -/
structure Holds (M : MatrixData) (x : ℕ → ℚ) : Prop where
  equality : ∀ i < M.equalityEnd, M.constraintSum x i = M.b.getD i 0
  range : ∀ k < M.nrRange, M.b.getD (M.equalityEnd + k) 0 - M.ranges.getD k 0 ≤
    M.constraintSum x (M.equalityEnd + k) ∧
    M.constraintSum x (M.equalityEnd + k) ≤ M.b.getD (M.equalityEnd + k) 0
  upper : ∀ k < M.nrUpper, M.constraintSum x (M.rangeEnd + k) ≤ M.b.getD (M.rangeEnd + k) 0
  lower : ∀ k < M.nrLower, M.b.getD (M.upperEnd + k) 0 ≤ M.constraintSum x (M.upperEnd + k)
  nonneg : ∀ j < M.vars.length, 0 ≤ x j
  bound : ∀ k < M.nrBounds, x (M.boundToVariable.getD k 0) ≤ M.upperOf (M.boundToVariable.getD k 0)

theorem toProgram_row (x : Fin M.vars.length → ℚ) (i : Fin _) :
    (M.toProgram.A *ᵥ x) i = M.constraintSum (extendFin x) i := by
  rw [constraintSum, Finset.sum_range, mulVec, dotProduct]
  refine Finset.sum_congr rfl fun j _ => ?_
  rw [extendFin_val]
  rfl

theorem program_iff (x : Fin M.vars.length → ℚ) :
    M.toProgram.Feasible x ↔ M.Holds (extendFin x) := by
  have hb : ∀ (j : ℕ) (hj : j < M.vars.length) u, M.vars[j].upperBound = some u →
      M.upperOf j = u := by
    intro j hj u hu
    simp [upperOf, List.getElem?_eq_getElem hj, hu]
  constructor
  · rintro ⟨h1, h2⟩
    have h1' : ∀ i (hi : i < M.nrEquality + M.nrRange + M.nrUpper + M.nrLower),
        (M.relationOf i).Holds (M.b.getD i 0) (M.constraintSum (extendFin x) i) := by
      intro i hi
      have := h1 ⟨i, hi⟩
      rw [toProgram_row] at this
      exact this
    refine ⟨fun i hi => ?_, fun k hk => ?_, fun k hk => ?_, fun k hk => ?_, fun j hj => ?_,
      fun k hk => ?_⟩
    · unfold equalityEnd at hi
      have := h1' i (by omega)
      rw [relationOf, if_pos hi] at this
      exact this
    · unfold equalityEnd
      have := h1' (M.nrEquality + k) (by omega)
      rw [relationOf, if_neg (by omega), if_pos (by omega), Nat.add_sub_cancel_left] at this
      exact this
    · unfold rangeEnd equalityEnd
      have := h1' (M.nrEquality + M.nrRange + k) (by omega)
      rw [relationOf, if_neg (by omega), if_neg (by omega), if_pos (by omega)] at this
      exact this
    · unfold upperEnd rangeEnd equalityEnd
      have := h1' (M.nrEquality + M.nrRange + M.nrUpper + k) (by omega)
      rw [relationOf, if_neg (by omega), if_neg (by omega), if_neg (by omega)] at this
      exact this
    · rw [extendFin_of_lt _ hj]
      exact (h2 ⟨j, hj⟩).1 0 rfl
    · have hk' : k < M.boundToVariable.length := hk
      have hg : M.boundToVariable.getD k 0 = M.boundToVariable[k] := by
        rw [List.getD_eq_getElem?_getD, List.getElem?_eq_getElem hk']; rfl
      rw [hg]
      have hj := M.boundToVariable_lt (List.getElem_mem hk')
      rw [extendFin_of_lt _ hj]
      have hs := (M.bound_isSome hj).2 ⟨k, List.getElem?_eq_getElem hk'⟩
      obtain ⟨u, hu⟩ := Option.isSome_iff_exists.1 hs
      rw [hb _ hj u hu]
      exact (h2 ⟨_, hj⟩).2 u hu
  · rintro ⟨h1, h2, h3, h4, h5, h6⟩
    refine ⟨fun i => ?_, fun j => ⟨?_, ?_⟩⟩
    · rw [toProgram_row]
      change (M.relationOf i).Holds (M.b.getD i 0) _
      have hi := i.2
      generalize (i : ℕ) = i at *
      rw [relationOf]
      unfold equalityEnd at *
      split_ifs with c1 c2 c3
      · exact h1 i c1
      · have := h2 (i - M.nrEquality) (by omega)
        rw [Nat.add_sub_cancel' (by omega)] at this
        exact this
      · have := h3 (i - M.rangeEnd) (by unfold rangeEnd equalityEnd; omega)
        rw [Nat.add_sub_cancel' (by unfold rangeEnd equalityEnd; omega)] at this
        exact this
      · have := h4 (i - M.upperEnd) (by unfold upperEnd rangeEnd equalityEnd; omega)
        rw [Nat.add_sub_cancel' (by unfold upperEnd rangeEnd equalityEnd; omega)] at this
        exact this
    · intro l hl
      cases hl
      have := h5 j j.2
      rwa [extendFin_val] at this
    · intro u hu
      have hu' : M.vars[(j : ℕ)].upperBound = some u := hu
      obtain ⟨k, hk⟩ := (M.bound_isSome j.2).1 (by rw [hu']; rfl)
      have hk' := (List.getElem?_eq_some_iff.1 hk).1
      have := h6 k hk'
      rw [List.getD_eq_getElem?_getD, hk, Option.getD_some, extendFin_val, hb j j.2 u hu'] at this
      exact this

/-- The constraint values depend on the normal variables only. -/
theorem constraintSum_congr {z x : ℕ → ℚ} (h : ∀ j < M.vars.length, z j = x j) (i : ℕ) :
    M.constraintSum z i = M.constraintSum x i :=
  Finset.sum_congr rfl fun j hj => by rw [h j (Finset.mem_range.1 hj)]

/-- The slack values that belong to a point. -/
def slackValues (M : MatrixData) (x : ℕ → ℚ) (j : ℕ) : ℚ :=
  match M.columnType j with
  | (.normal, j) => x j
  | (.rangeSlack, k) => M.b.getD (M.equalityEnd + k) 0 - M.constraintSum x (M.equalityEnd + k)
  | (.upperSlack, k) => M.b.getD (M.rangeEnd + k) 0 - M.constraintSum x (M.rangeEnd + k)
  | (.lowerSlack, k) => M.constraintSum x (M.upperEnd + k) - M.b.getD (M.upperEnd + k) 0
  | (.variableBoundSlack, k) => M.upperOf (M.boundToVariable.getD k 0) - x (M.boundToVariable.getD k 0)
  | (.slackBoundSlack, k) => M.ranges.getD k 0 -
      (M.b.getD (M.equalityEnd + k) 0 - M.constraintSum x (M.equalityEnd + k))

theorem boundToVariable_getD_lt {k : ℕ} (hk : k < M.nrBounds) :
    M.boundToVariable.getD k 0 < M.vars.length := by
  have hk' : k < M.boundToVariable.length := hk
  rw [List.getD_eq_getElem?_getD, List.getElem?_eq_getElem hk']
  exact M.boundToVariable_lt (List.getElem_mem hk')

theorem columns_cases {p : ℕ → Prop} : (∀ j < M.nrColumns, p j) ↔
    (∀ j < M.vars.length, p j) ∧ (∀ k < M.nrRange, p (M.normalColumnEnd + k)) ∧
    (∀ k < M.nrUpper, p (M.rangeSlackEnd + k)) ∧ (∀ k < M.nrLower, p (M.upperSlackEnd + k)) ∧
    (∀ k < M.nrBounds, p (M.lowerSlackEnd + k)) ∧
    ∀ k < M.nrRange, p (M.variableBoundSlackEnd + k) := by
  unfold nrColumns slackBoundSlackEnd
  constructor
  · intro h
    refine ⟨fun i hi => h i ?_, fun i hi => h _ ?_, fun i hi => h _ ?_, fun i hi => h _ ?_,
      fun i hi => h _ ?_, fun i hi => h _ ?_⟩ <;>
    · unfold variableBoundSlackEnd lowerSlackEnd upperSlackEnd rangeSlackEnd normalColumnEnd at *
      omega
  · rintro ⟨h1, h2, h3, h4, h5, h6⟩ i hi
    by_cases c1 : i < M.vars.length
    · exact h1 i c1
    by_cases c2 : i < M.rangeSlackEnd
    · unfold rangeSlackEnd normalColumnEnd at *
      have := h2 (i - M.vars.length) (by omega)
      rwa [Nat.add_sub_cancel' (by omega)] at this
    by_cases c3 : i < M.upperSlackEnd
    · have := h3 (i - M.rangeSlackEnd) (by unfold upperSlackEnd at c3; omega)
      rwa [Nat.add_sub_cancel' (by omega)] at this
    by_cases c4 : i < M.lowerSlackEnd
    · have := h4 (i - M.upperSlackEnd) (by unfold lowerSlackEnd at c4; omega)
      rwa [Nat.add_sub_cancel' (by omega)] at this
    by_cases c5 : i < M.variableBoundSlackEnd
    · have := h5 (i - M.lowerSlackEnd) (by unfold variableBoundSlackEnd at c5; omega)
      rwa [Nat.add_sub_cancel' (by omega)] at this
    · have := h6 (i - M.variableBoundSlackEnd) (by omega)
      rwa [Nat.add_sub_cancel' (by omega)] at this

/-- The equations determine the slack values. -/
theorem equations_iff_slackValues (z : ℕ → ℚ) : (M.Equations z ↔
    (∀ i < M.equalityEnd, M.constraintSum z i = M.b.getD i 0) ∧
      ∀ j < M.nrColumns, z j = M.slackValues z j) := by
  rw [columns_cases]
  constructor
  · rintro ⟨h1, h2, h3, h4, h5, h6⟩
    refine ⟨h1, fun j hj => ?_, fun k hk => ?_, fun k hk => ?_, fun k hk => ?_, fun k hk => ?_,
      fun k hk => ?_⟩
    · simp only [slackValues, M.columnType_normal hj]
    · simp only [slackValues, M.columnType_range hk]
      have := h2 k hk; linarith
    · simp only [slackValues, M.columnType_upper hk]
      have := h3 k hk; linarith
    · simp only [slackValues, M.columnType_lower hk]
      have := h4 k hk; linarith
    · simp only [slackValues, M.columnType_variableBound hk]
      have := h5 k hk; linarith
    · simp only [slackValues, M.columnType_slackBound]
      have := h6 k hk; have := h2 k hk; linarith
  · rintro ⟨h1, -, h2, h3, h4, h5, h6⟩
    refine ⟨h1, fun k hk => ?_, fun k hk => ?_, fun k hk => ?_, fun k hk => ?_, fun k hk => ?_⟩
    · have := h2 k hk
      simp only [slackValues, M.columnType_range hk] at this
      linarith
    · have := h3 k hk
      simp only [slackValues, M.columnType_upper hk] at this
      linarith
    · have := h4 k hk
      simp only [slackValues, M.columnType_lower hk] at this
      linarith
    · have := h5 k hk
      simp only [slackValues, M.columnType_variableBound hk] at this
      linarith
    · have := h6 k hk
      simp only [slackValues, M.columnType_slackBound] at this
      have h2' := h2 k hk
      simp only [slackValues, M.columnType_range hk] at h2'
      linarith

theorem slackValues_congr {z x : ℕ → ℚ} (h : ∀ j < M.vars.length, z j = x j) :
    ∀ j < M.nrColumns, M.slackValues z j = M.slackValues x j := by
  have hc := constraintSum_congr (M := M) h
  rw [columns_cases]
  refine ⟨fun j hj => ?_, fun k hk => ?_, fun k hk => ?_, fun k hk => ?_, fun k hk => ?_,
      fun k hk => ?_⟩
  · simp only [slackValues, M.columnType_normal hj]; exact h j hj
  · simp only [slackValues, M.columnType_range hk, hc]
  · simp only [slackValues, M.columnType_upper hk, hc]
  · simp only [slackValues, M.columnType_lower hk, hc]
  · simp only [slackValues, M.columnType_variableBound hk]
    rw [h _ (boundToVariable_getD_lt hk)]
  · simp only [slackValues, M.columnType_slackBound, hc]

/-- Non-negative slack values are inequalities. -/
theorem holds_iff (x : ℕ → ℚ) : M.Holds x ↔
    (∀ i < M.equalityEnd, M.constraintSum x i = M.b.getD i 0) ∧
      ∀ j < M.nrColumns, 0 ≤ M.slackValues x j := by
  rw [columns_cases]
  constructor
  · rintro ⟨h1, h2, h3, h4, h5, h6⟩
    refine ⟨h1, fun j hj => ?_, fun k hk => ?_, fun k hk => ?_, fun k hk => ?_, fun k hk => ?_,
      fun k hk => ?_⟩
    · simp only [slackValues, M.columnType_normal hj]; exact h5 j hj
    · simp only [slackValues, M.columnType_range hk]
      have := (h2 k hk).2; linarith
    · simp only [slackValues, M.columnType_upper hk]
      have := h3 k hk; linarith
    · simp only [slackValues, M.columnType_lower hk]
      have := h4 k hk; linarith
    · simp only [slackValues, M.columnType_variableBound hk]
      have := h6 k hk; linarith
    · simp only [slackValues, M.columnType_slackBound]
      have := (h2 k hk).1; linarith
  · rintro ⟨h1, h0, h2, h3, h4, h5, h6⟩
    refine ⟨h1, fun k hk => ⟨?_, ?_⟩, fun k hk => ?_, fun k hk => ?_, fun j hj => ?_, fun k hk => ?_⟩
    · have := h6 k hk
      simp only [slackValues, M.columnType_slackBound] at this
      linarith
    · have := h2 k hk
      simp only [slackValues, M.columnType_range hk] at this
      linarith
    · have := h3 k hk
      simp only [slackValues, M.columnType_upper hk] at this
      linarith
    · have := h4 k hk
      simp only [slackValues, M.columnType_lower hk] at this
      linarith
    · have := h0 j hj
      simp only [slackValues, M.columnType_normal hj] at this
      exact this
    · have := h5 k hk
      simp only [slackValues, M.columnType_variableBound hk] at this
      linarith

theorem vars_le_columns (M : MatrixData) : M.vars.length ≤ M.nrColumns := by
  unfold nrColumns slackBoundSlackEnd variableBoundSlackEnd lowerSlackEnd upperSlackEnd rangeSlackEnd
    normalColumnEnd
  omega

/-- The values of the variables of the program. -/
def restrict (M : MatrixData) (z : Fin M.nrColumns → ℚ) : Fin M.vars.length → ℚ :=
  fun j => z (Fin.castLE M.vars_le_columns j)

theorem restrict_extend (z : Fin M.nrColumns → ℚ) :
    ∀ j < M.vars.length, extendFin z j = extendFin (M.restrict z) j := by
  intro j hj
  rw [extendFin_of_lt _ hj, extendFin_of_lt _ (lt_of_lt_of_le hj M.vars_le_columns)]
  rfl

/-- Feasible points of the tabular form are the feasible points of the program with their slack
values. -/
theorem Valid.feasible_iff' (h : M.Valid) (z : Fin M.nrColumns → ℚ) :
    M.toProvider.toLP.Feasible z ↔ M.toProgram.Feasible (M.restrict z) ∧
      ∀ j, z j = M.slackValues (extendFin (M.restrict z)) j := by
  rw [h.feasible_iff, equations_iff_slackValues, program_iff, holds_iff]
  have hr := M.restrict_extend z
  have hc := constraintSum_congr (M := M) hr
  have hs := slackValues_congr (M := M) hr
  simp only [hc]
  constructor
  · rintro ⟨⟨h1, h2⟩, h3⟩
    have h2' : ∀ j : Fin M.nrColumns, z j = M.slackValues (extendFin (M.restrict z)) j := by
      intro j
      have := h2 j j.2
      rwa [hs j j.2, extendFin_val] at this
    refine ⟨⟨h1, fun j hj => ?_⟩, h2'⟩
    rw [← h2' ⟨j, hj⟩]
    exact h3 _
  · rintro ⟨⟨h1, h2⟩, h3⟩
    refine ⟨⟨h1, fun j hj => ?_⟩, fun j => ?_⟩
    · rw [hs j hj, extendFin_of_lt _ hj]
      exact h3 _
    · rw [h3]
      exact h2 j j.2

theorem objective_eq (z : Fin M.nrColumns → ℚ) :
    M.toProvider.toLP.objective z = M.toProgram.objective (M.restrict z) := by
  have e1 : M.toProvider.toLP.objective z =
      ∑ j ∈ Finset.range M.nrColumns, M.costValue j * extendFin z j := by
    rw [Finset.sum_range, Spec.LP.objective, dotProduct]
    refine Finset.sum_congr rfl fun j _ => ?_
    rw [extendFin_val]
    rfl
  have hn : M.nrColumns = M.vars.length + (M.nrColumns - M.vars.length) := by
    have := M.vars_le_columns; omega
  have e2 : ∀ w : ℕ → ℚ, ∑ j ∈ Finset.range M.nrColumns, M.costValue j * w j =
      ∑ j ∈ Finset.range M.vars.length, M.costValue j * w j := by
    intro w
    rw [hn, Finset.sum_range_add]
    have : ∑ x ∈ Finset.range (M.nrColumns - M.vars.length), M.costValue (M.vars.length + x) *
        w (M.vars.length + x) = 0 := by
      refine Finset.sum_eq_zero fun x _ => ?_
      have : M.costValue (M.vars.length + x) = 0 := by
        simp only [costValue, columnType]
        rw [if_neg (by unfold normalColumnEnd; omega)]
        split_ifs <;> rfl
      rw [this, zero_mul]
    rw [this, add_zero]
  rw [e1, e2, Finset.sum_range, Spec.Program.objective, dotProduct]
  change _ = (0 : ℚ) + _
  rw [zero_add]
  refine Finset.sum_congr rfl fun j _ => ?_
  rw [M.restrict_extend z j j.2, extendFin_val]
  simp only [costValue, M.columnType_normal j.2, List.getElem?_eq_getElem j.2, Option.map_some,
    Option.getD_some]
  rfl

end MatrixData

end Relp
