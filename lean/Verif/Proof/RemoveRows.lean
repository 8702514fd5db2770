import Verif.Proof.Column
import Verif.Model.Run
import Verif.Spec.Except

/-!
# A problem without some of its equality constraints
-/

namespace Relp

open Matrix

namespace MatrixData

/-- The problem without these constraints. -/
def without (M : MatrixData) (skip : List ℕ) : MatrixData :=
  { M with
    constraints := ⟨M.constraints.data.map (removeSparseTuples skip), M.constraints.major,
      M.constraints.minor - skip.length⟩
    b := removeListIndices skip M.b
    nrEquality := M.nrEquality - skip.length }

variable {M : MatrixData} {skip : List ℕ}

/-- The rows are distinct, in order, and equality constraints. -/
structure Removable (M : MatrixData) (skip : List ℕ) : Prop where
  sorted : skip.Pairwise (· < ·)
  equality : ∀ r ∈ skip, r < M.nrEquality

theorem Removable.nodup (h : Removable M skip) : skip.Nodup := h.sorted.imp fun h => ne_of_lt h

theorem Removable.length (h : Removable M skip) : skip.length ≤ M.nrEquality :=
  length_le_of_lt h.nodup h.equality

theorem without_lowerEnd (h : Removable M skip) : (M.without skip).lowerEnd = M.lowerEnd - skip.length := by
  have := h.length
  have e : (M.without skip).lowerEnd = M.nrEquality - skip.length + M.nrRange + M.nrUpper + M.nrLower := rfl
  have e' : M.lowerEnd = M.nrEquality + M.nrRange + M.nrUpper + M.nrLower := rfl
  omega

theorem length_le_lowerEnd (h : Removable M skip) : skip.length ≤ M.lowerEnd := by
  have := h.length
  have e' : M.lowerEnd = M.nrEquality + M.nrRange + M.nrUpper + M.nrLower := rfl
  omega

theorem without_nrRows (h : Removable M skip) : M.nrRows - skip.length = (M.without skip).nrRows := by
  have := length_le_lowerEnd h
  have e : (M.without skip).nrRows = (M.without skip).lowerEnd + M.nrVariableBounds := rfl
  have e' : M.nrRows = M.lowerEnd + M.nrVariableBounds := rfl
  rw [e, e', without_lowerEnd h]
  omega

theorem without_nrColumns : (M.without skip).nrColumns = M.nrColumns := rfl

theorem getD_map_remove (data : List (SVec ℕ)) (j : ℕ) :
    (data.map (removeSparseTuples skip)).getD j [] = removeSparseTuples skip (data.getD j []) := by
  rw [List.getD_eq_getElem?_getD, List.getD_eq_getElem?_getD, List.getElem?_map]
  cases data[j]? <;> rfl

theorem without_column (h : Removable M skip) : ∀ j < M.nrColumns,
    (M.column j).intoFiltered skip = (M.without skip).column j := by
  have hl := h.length
  have d0 : M.equalityEnd = M.nrEquality := rfl
  have d1 : M.rangeEnd = M.equalityEnd + M.nrRange := rfl
  have d2 : M.upperEnd = M.rangeEnd + M.nrUpper := rfl
  have d3 : M.lowerEnd = M.upperEnd + M.nrLower := rfl
  have d4 : M.variableBoundEnd = M.lowerEnd + M.nrBounds := rfl
  have e0 : (M.without skip).equalityEnd = M.nrEquality - skip.length := rfl
  have e1 : (M.without skip).rangeEnd = (M.without skip).equalityEnd + M.nrRange := rfl
  have e2 : (M.without skip).upperEnd = (M.without skip).rangeEnd + M.nrUpper := rfl
  have e3 : (M.without skip).lowerEnd = (M.without skip).upperEnd + M.nrLower := rfl
  have e4 : (M.without skip).variableBoundEnd = (M.without skip).lowerEnd + M.nrBounds := rfl
  rw [columns_cases]
  refine ⟨fun j hj => ?_, fun k hk => ?_, fun k hk => ?_, fun k hk => ?_, fun k hk => ?_,
      fun k hk => ?_⟩
  · rw [M.column_normal hj, (M.without skip).column_normal hj]
    simp only [DataColumn.intoFiltered]
    congr 1
    · exact (getD_map_remove _ _).symm
    · show Option.map _ (Option.map _ (M.variableToBound.getD j none)) = Option.map _ (M.variableToBound.getD j none)
      rw [Option.map_map]
      congr 1
      funext k
      simp only [Function.comp]
      congr 1
      omega
  · have h2 := (M.without skip).column_range (k := k) hk
    change (M.without skip).column (M.normalColumnEnd + k) = _ at h2
    rw [M.column_range hk, h2]
    simp only [DataColumn.intoFiltered]
    congr 2 <;> omega
  · have h2 := (M.without skip).column_upper (k := k) hk
    change (M.without skip).column (M.rangeSlackEnd + k) = _ at h2
    rw [M.column_upper hk, h2]
    simp only [DataColumn.intoFiltered]
    congr 2; omega
  · have h2 := (M.without skip).column_lower (k := k) hk
    change (M.without skip).column (M.upperSlackEnd + k) = _ at h2
    rw [M.column_lower hk, h2]
    simp only [DataColumn.intoFiltered]
    congr 2; omega
  · have h2 := (M.without skip).column_variableBound (k := k) hk
    change (M.without skip).column (M.lowerSlackEnd + k) = _ at h2
    rw [M.column_variableBound hk, h2]
    simp only [DataColumn.intoFiltered]
    congr 2; omega
  · have h2 := (M.without skip).column_slackBound (k := k)
    change (M.without skip).column (M.variableBoundSlackEnd + k) = _ at h2
    rw [M.column_slackBound, h2]
    simp only [DataColumn.intoFiltered]
    congr 2; omega

theorem removeListIndices_append {α : Type} (u v : List α) (h : ∀ r ∈ skip, r < u.length) :
    removeListIndices skip (u ++ v) = removeListIndices skip u ++ v := by
  unfold removeListIndices
  rw [List.zipIdx_append, List.filter_append, List.map_append]
  congr 1
  rw [List.filter_eq_self.2]
  · simp
  · intro p hp
    have := List.mem_zipIdx hp
    simp only [decide_eq_true_eq]
    intro hc
    have := h _ hc
    omega

theorem without_rightHandSide (hM : M.Valid) (h : Removable M skip) :
    RemoveRows.rightHandSide skip M.rightHandSide = (M.without skip).rightHandSide := by
  unfold RemoveRows.rightHandSide rightHandSide
  have hb : ∀ r ∈ skip, r < M.b.length := by
    intro r hr
    have := h.equality r hr
    rw [hM.bLength]
    omega
  rw [List.append_assoc, removeListIndices_append _ _ hb, List.append_assoc]
  rfl

theorem without_pivots (h : Removable M skip) :
    RemoveRows.pivotElementIndices skip M.pivotElementIndices = (M.without skip).pivotElementIndices := by
  have hl := h.length
  have d0 : M.equalityEnd = M.nrEquality := rfl
  have d1 : M.rangeEnd = M.equalityEnd + M.nrRange := rfl
  have d2 : M.upperEnd = M.rangeEnd + M.nrUpper := rfl
  have d3 : M.lowerEnd = M.upperEnd + M.nrLower := rfl
  have d4 : M.variableBoundEnd = M.lowerEnd + M.nrBounds := rfl
  have e0 : (M.without skip).equalityEnd = M.nrEquality - skip.length := rfl
  have e1 : (M.without skip).rangeEnd = (M.without skip).equalityEnd + M.nrRange := rfl
  have e2 : (M.without skip).upperEnd = (M.without skip).rangeEnd + M.nrUpper := rfl
  have e3 : (M.without skip).lowerEnd = (M.without skip).upperEnd + M.nrLower := rfl
  have e4 : (M.without skip).variableBoundEnd = (M.without skip).lowerEnd + M.nrBounds := rfl
  have hge : ∀ p ∈ M.pivotElementIndices, M.nrEquality ≤ p.1 := by
    intro p hp
    simp only [pivotElementIndices, List.mem_append, List.mem_map, List.mem_range] at hp
    rcases hp with (⟨k, hk, rfl⟩ | ⟨k, hk, rfl⟩) | ⟨k, hk, rfl⟩ <;> (simp only; omega)
  have hlt : ∀ p ∈ M.pivotElementIndices, ∀ r ∈ skip, r < p.1 := fun p hp r hr =>
    lt_of_lt_of_le (h.equality r hr) (hge p hp)
  unfold RemoveRows.pivotElementIndices
  rw [List.filter_eq_self.2 (fun p hp => by
    simpa using fun hc => lt_irrefl _ (hlt p hp _ hc))]
  rw [List.map_congr_left (g := fun p => (p.1 - skip.length, p.2)) (fun p hp => by
    rw [keptIndices_length h.nodup (hlt p hp)])]
  unfold pivotElementIndices
  simp only [List.map_append, List.map_map]
  congr 1
  · congr 1
    · apply List.map_congr_left
      intro j _
      simp only [Function.comp, Prod.mk.injEq]
      exact ⟨by omega, rfl⟩
    · apply List.map_congr_left
      intro j _
      simp only [Function.comp, Prod.mk.injEq]
      exact ⟨by omega, rfl⟩
  · apply List.map_congr_left
    intro j _
    simp only [Function.comp, Prod.mk.injEq]
    exact ⟨by omega, rfl⟩

/-! ### Validity -/

theorem keptIndices_lt {n r : ℕ} (hs : skip.Nodup) (hr : ∀ q ∈ skip, q < n) (h : r < n) (hn : r ∉ skip) :
    (keptIndices skip r).length < n - skip.length := by
  rw [← keptIndices_length hs hr]
  exact keptIndices_mono h hn

theorem without_valid (hM : M.Valid) (h : Removable M skip) : (M.without skip).Valid := by
  have hl := h.length
  have ht : M.nrEquality - skip.length + M.nrRange + M.nrUpper + M.nrLower =
      M.nrEquality + M.nrRange + M.nrUpper + M.nrLower - skip.length := by omega
  have hlt : ∀ q ∈ skip, q < M.nrEquality + M.nrRange + M.nrUpper + M.nrLower := fun q hq => by
    have := h.equality q hq
    omega
  refine ⟨?_, hM.major, ?_, ?_, ?_, hM.rangesLength, ?_, hM.ranges_nonneg, hM.upper_nonneg⟩
  · show (M.constraints.data.map _).length = _
    rw [List.length_map]
    exact hM.dataLength
  · intro v hv
    obtain ⟨w, hw, rfl⟩ := List.mem_map.1 hv
    exact wf_removeSparseTuples (hM.wf w hw) _
  · intro v hv p hp
    obtain ⟨w, hw, rfl⟩ := List.mem_map.1 hv
    obtain ⟨q, hq, rfl⟩ := List.mem_map.1 hp
    obtain ⟨h1, h2⟩ := List.mem_filter.1 hq
    show (keptIndices skip q.1).length < M.nrEquality - skip.length + M.nrRange + M.nrUpper + M.nrLower
    rw [ht]
    exact keptIndices_lt h.nodup hlt (hM.inRange w hw q h1) (by simpa using h2)
  · show (removeListIndices skip M.b).length = M.nrEquality - skip.length + M.nrRange + M.nrUpper + M.nrLower
    rw [ht, removeListIndices_eq, deleteAt_length, keptIndices_length h.nodup (fun r hr => by
      rw [hM.bLength]; exact hlt r hr), hM.bLength]
  · intro x hx
    change x ∈ removeListIndices skip M.b at hx
    unfold removeListIndices at hx
    obtain ⟨p, hp, rfl⟩ := List.mem_map.1 hx
    have h1 := (List.mem_filter.1 hp).1
    exact hM.b_nonneg _ (List.fst_mem_of_mem_zipIdx h1)

/-! ### The program -/

theorem without_sum (x : ℕ → ℚ) {r : ℕ} (hr : r ∉ skip) :
    (M.without skip).constraintSum x (keptIndices skip r).length = M.constraintSum x r := by
  unfold constraintSum
  refine Finset.sum_congr rfl fun j _ => ?_
  show SVec.val ((M.constraints.data.map (removeSparseTuples skip)).getD j []) _ * _ = _
  rw [getD_map_remove, val_removeSparseTuples _ hr]

theorem without_b {r : ℕ} (hr : r ∉ skip) (hb : r < M.b.length) :
    (M.without skip).b.getD (keptIndices skip r).length 0 = M.b.getD r 0 := by
  show (removeListIndices skip M.b).getD _ 0 = _
  rw [removeListIndices_eq, List.getD_eq_getElem?_getD, deleteAt_getElem?, keptIndices_getElem hb hr]
  rw [List.getD_eq_getElem?_getD]
  rfl

theorem without_relation (h : Removable M skip) {r : ℕ} (hr : r ∉ skip) :
    (M.without skip).relationOf (keptIndices skip r).length = M.relationOf r := by
  have hl := h.length
  unfold relationOf
  show (if (keptIndices skip r).length < M.nrEquality - skip.length then _
    else if (keptIndices skip r).length < M.nrEquality - skip.length + M.nrRange then
      ConstraintType.range (M.ranges.getD ((keptIndices skip r).length - (M.nrEquality - skip.length)) 0)
    else if (keptIndices skip r).length < M.nrEquality - skip.length + M.nrRange + M.nrUpper then _ else _) = _
  by_cases h1 : r < M.nrEquality
  · rw [if_pos h1, if_pos (keptIndices_lt h.nodup h.equality h1 hr)]
  · have hk : (keptIndices skip r).length = r - skip.length :=
      keptIndices_length h.nodup fun q hq => lt_of_lt_of_le (h.equality q hq) (by omega)
    rw [hk, if_neg h1, if_neg (by omega)]
    have e1 : (r - skip.length < M.nrEquality - skip.length + M.nrRange) ↔ r < M.nrEquality + M.nrRange := by omega
    have e2 : (r - skip.length < M.nrEquality - skip.length + M.nrRange + M.nrUpper) ↔
        r < M.nrEquality + M.nrRange + M.nrUpper := by omega
    have e3 : r - skip.length - (M.nrEquality - skip.length) = r - M.nrEquality := by omega
    simp only [e1, e2, e3]

/-- The program without the constraints. -/
theorem without_feasible (hM : M.Valid) (h : Removable M skip) (x : Fin M.vars.length → ℚ) :
    (M.without skip).toProgram.Feasible x ↔ M.toProgram.FeasibleExcept skip x := by
  have hl := h.length
  have hlt : ∀ q ∈ skip, q < M.nrEquality + M.nrRange + M.nrUpper + M.nrLower := fun q hq => by
    have := h.equality q hq
    omega
  have ht : M.nrEquality - skip.length + M.nrRange + M.nrUpper + M.nrLower =
      M.nrEquality + M.nrRange + M.nrUpper + M.nrLower - skip.length := by omega
  unfold Spec.Program.Feasible Spec.Program.FeasibleExcept
  refine and_congr ⟨fun hf i hi => ?_, fun hf i => ?_⟩ Iff.rfl
  · have hlt' := keptIndices_lt h.nodup hlt i.2 hi
    have hk : (keptIndices skip i.val).length <
        (M.without skip).nrEquality + (M.without skip).nrRange + (M.without skip).nrUpper + (M.without skip).nrLower := by
      show _ < M.nrEquality - skip.length + M.nrRange + M.nrUpper + M.nrLower
      rw [ht]
      exact hlt'
    have := hf ⟨_, hk⟩
    have e := toProgram_row (M := M.without skip) x ⟨_, hk⟩
    rw [toProgram_row]
    rw [e] at this
    change ((M.without skip).relationOf (keptIndices skip i.val).length).Holds
      ((M.without skip).b.getD (keptIndices skip i.val).length 0)
      ((M.without skip).constraintSum (extendFin x) (keptIndices skip i.val).length) at this
    rw [without_relation h hi, without_b hi (by rw [hM.bLength]; exact i.2), without_sum _ hi] at this
    exact this
  · have hi' := i.2
    obtain ⟨u, -, h2⟩ := RemoveRows.underlying_isOffset h.sorted i.val
    have hc := h2.count h.sorted
    have hn := h2.notMem
    have hr : i.val + u < M.nrEquality + M.nrRange + M.nrUpper + M.nrLower := by
      change i.val < M.nrEquality - skip.length + M.nrRange + M.nrUpper + M.nrLower at hi'
      by_contra hcc
      have : (keptIndices skip (i.val + u)).length = i.val + u - skip.length :=
        keptIndices_length h.nodup fun q hq => lt_of_lt_of_le (hlt q hq) (by omega)
      omega
    have := hf ⟨i.val + u, hr⟩ hn
    have e := toProgram_row (M := M.without skip) x i
    rw [toProgram_row] at this
    rw [e]
    change (M.relationOf (i.val + u)).Holds (M.b.getD (i.val + u) 0) (M.constraintSum (extendFin x) (i.val + u)) at this
    rw [← without_relation h hn, ← without_b hn (by rw [hM.bLength]; exact hr), ← without_sum _ hn, hc] at this
    exact this

/-! ### Solving -/

/-- A provider with these columns, cost and right-hand side. -/
def providerOf (m n : ℕ) (column : ℕ → DataColumn) (cost : ℕ → ℚ) (rhs : List ℚ) : Provider m n where
  column j := (column j).tuples.toFin m
  cost j := cost j
  rhs i := rhs.getD i 0
  filteredColumn rows j := ((column j).intoFiltered (rows.map (·.val))).tuples.toFin (keptLen rows)

/-- An initial basis with these pivots. -/
def basisOf (m n : ℕ) (pivots : List (ℕ × ℕ)) : InitialBasis m n :=
  .partially (pivots.filterMap fun p => if h : p.1 < m ∧ p.2 < n then some (⟨p.1, h.1⟩, ⟨p.2, h.2⟩) else none)

theorem providerOf_congr (m n : ℕ) {column column' : ℕ → DataColumn} (cost : ℕ → ℚ) (rhs : List ℚ)
    (h : ∀ j < n, column j = column' j) : providerOf m n column cost rhs = providerOf m n column' cost rhs := by
  unfold providerOf
  congr 1
  · funext j
    rw [h j j.2]
  · funext rows j
    rw [h j j.2]

theorem without_solve (hM : M.Valid) (h : Removable M skip) (inv : InverseName) (rule : RuleName) (fuel : ℕ) :
    solveRelaxation inv rule fuel (RemoveRows.toProvider M skip) (RemoveRows.initialBasis M skip) =
      solveRelaxation inv rule fuel (n := M.nrColumns) (M.without skip).toProvider (M.without skip).initialBasis := by
  have e1 : RemoveRows.toProvider M skip = providerOf (M.nrRows - skip.length) M.nrColumns
      (fun j => (M.column j).intoFiltered skip) M.costValue (RemoveRows.rightHandSide skip M.rightHandSide) := rfl
  have e2 : RemoveRows.initialBasis M skip = basisOf (M.nrRows - skip.length) M.nrColumns
      (RemoveRows.pivotElementIndices skip M.pivotElementIndices) := rfl
  have e3 : (M.without skip).toProvider = providerOf (M.without skip).nrRows M.nrColumns
      (M.without skip).column M.costValue (M.without skip).rightHandSide := rfl
  have e4 : (M.without skip).initialBasis = basisOf (M.without skip).nrRows M.nrColumns
      (M.without skip).pivotElementIndices := rfl
  rw [e1, e2, e3, e4, without_rightHandSide hM h, without_pivots h,
    providerOf_congr _ _ _ _ (without_column h), without_nrRows h]

end MatrixData

end Relp
