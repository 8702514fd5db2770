import Verif.Props.MatrixData
import Verif.Props.Network

/-!
# C22, C50: rows of bounds
-/

namespace Relp

namespace MatrixData

variable {M : MatrixData}

theorem Valid.entry_bound (h : M.Valid) {q j : ℕ} (hq : M.boundToVariable[q]? = some j) :
    ∀ k < M.nrColumns, M.entry (M.lowerEnd + q) k = if k = j ∨ k = M.lowerSlackEnd + q then 1 else 0 := by
  have hlt : q < M.nrBounds := (List.getElem?_eq_some_iff.1 hq).1
  have hj : j < M.vars.length := M.boundToVariable_lt (List.mem_of_getElem? hq)
  have d1 : M.rangeEnd = M.equalityEnd + M.nrRange := rfl
  have d2 : M.upperEnd = M.rangeEnd + M.nrUpper := rfl
  have d3 : M.lowerEnd = M.upperEnd + M.nrLower := rfl
  have d4 : M.variableBoundEnd = M.lowerEnd + M.nrBounds := rfl
  have c0 : M.normalColumnEnd = M.vars.length := rfl
  have c1 : M.rangeSlackEnd = M.normalColumnEnd + M.nrRange := rfl
  have c2 : M.upperSlackEnd = M.rangeSlackEnd + M.nrUpper := rfl
  have c3 : M.lowerSlackEnd = M.upperSlackEnd + M.nrLower := rfl
  have c4 : M.variableBoundSlackEnd = M.lowerSlackEnd + M.nrBounds := rfl
  rw [columns_cases (p := fun k => M.entry (M.lowerEnd + q) k = if k = j ∨ k = M.lowerSlackEnd + q then 1 else 0)]
  refine ⟨fun k hk => ?_, fun k hk => ?_, fun k hk => ?_, fun k hk => ?_, fun k hk => ?_, fun k hk => ?_⟩
  · rw [M.entry_normal hk, h.constraint_zero (by omega), zero_add, Nat.add_sub_cancel_left, hq]
    refine if_congr ⟨fun h => .inl (Option.some.inj h.2).symm, ?_⟩ rfl rfl
    rintro (rfl | hk')
    · exact ⟨by omega, rfl⟩
    · omega
  · rw [M.entry_range hk, if_neg (by omega), if_neg (by omega), if_neg (by omega), add_zero]
  · rw [M.entry_slack (M.column_upper hk), if_neg (by omega), if_neg (by omega)]
  · rw [M.entry_slack (M.column_lower hk), if_neg (by omega), if_neg (by omega)]
  · rw [M.entry_slack (M.column_variableBound hk)]
    exact if_congr (by omega) rfl rfl
  · rw [M.entry_slack M.column_slackBound, if_neg (by omega), if_neg (by omega)]

theorem Valid.entry_range_bound (h : M.Valid) {q : ℕ} (hq : q < M.nrRange) :
    ∀ k < M.nrColumns, M.entry (M.variableBoundEnd + q) k =
      if k = M.normalColumnEnd + q ∨ k = M.variableBoundSlackEnd + q then 1 else 0 := by
  have d1 : M.rangeEnd = M.equalityEnd + M.nrRange := rfl
  have d2 : M.upperEnd = M.rangeEnd + M.nrUpper := rfl
  have d3 : M.lowerEnd = M.upperEnd + M.nrLower := rfl
  have d4 : M.variableBoundEnd = M.lowerEnd + M.nrBounds := rfl
  have d5 : M.nrBounds = M.boundToVariable.length := rfl
  have c0 : M.normalColumnEnd = M.vars.length := rfl
  have c1 : M.rangeSlackEnd = M.normalColumnEnd + M.nrRange := rfl
  have c2 : M.upperSlackEnd = M.rangeSlackEnd + M.nrUpper := rfl
  have c3 : M.lowerSlackEnd = M.upperSlackEnd + M.nrLower := rfl
  have c4 : M.variableBoundSlackEnd = M.lowerSlackEnd + M.nrBounds := rfl
  rw [columns_cases (p := fun k => M.entry (M.variableBoundEnd + q) k =
      if k = M.normalColumnEnd + q ∨ k = M.variableBoundSlackEnd + q then 1 else 0)]
  refine ⟨fun k hk => ?_, fun k hk => ?_, fun k hk => ?_, fun k hk => ?_, fun k hk => ?_, fun k hk => ?_⟩
  · rw [M.entry_normal hk, h.constraint_zero (by omega), zero_add, if_neg, if_neg (by omega)]
    rintro ⟨-, h1⟩
    have := (List.getElem?_eq_some_iff.1 h1).1
    omega
  · rw [M.entry_range hk, if_neg (by omega), zero_add]
    exact if_congr (by omega) rfl rfl
  · rw [M.entry_slack (M.column_upper hk), if_neg (by omega), if_neg (by omega)]
  · rw [M.entry_slack (M.column_lower hk), if_neg (by omega), if_neg (by omega)]
  · rw [M.entry_slack (M.column_variableBound hk), if_neg (by omega), if_neg (by omega)]
  · rw [M.entry_slack M.column_slackBound]
    exact if_congr (by omega) rfl rfl

end MatrixData

/-- **C22** (rows of bounds). The row that is said to stand for the bound of a column stands for it: it says that the
column and one other, a slack, add up to the right-hand side. A variable has such a row exactly if it has an upper
bound, which is the right-hand side; the slack of a range constraint has one, with the range; other columns and lower
bounds have none. -/
theorem C22_bound_row (M : MatrixData) (h : M.Valid) (j : Fin M.nrColumns) :
    M.boundRowIndex j .lower = none ∧
    (∀ r, M.boundRowIndex j .upper = some r → ∃ (hr : r < M.nrRows) (slack : Fin M.nrColumns), slack ≠ j ∧
      M.vars.length ≤ slack ∧
      ∀ k, M.toProvider.toLP.A ⟨r, hr⟩ k = if k = j ∨ k = slack then 1 else 0) ∧
    (∀ hj : j.val < M.vars.length,
      (M.boundRowIndex j .upper).map (fun r => M.rightHandSide[r]?) = M.vars[j.val].upperBound.map some) ∧
    (M.vars.length ≤ j → j.val < M.vars.length + M.nrRange →
      (M.boundRowIndex j .upper).map (fun r => M.rightHandSide[r]?) = some M.ranges[j.val - M.vars.length]?) ∧
    (M.vars.length + M.nrRange ≤ j → M.boundRowIndex j .upper = none) := by
  have d4 : M.variableBoundEnd = M.lowerEnd + M.nrBounds := rfl
  have d5 : M.nrBounds = M.boundToVariable.length := rfl
  have d6 : M.nrRows = M.lowerEnd + (M.nrBounds + M.nrRange) := rfl
  have c0 : M.normalColumnEnd = M.vars.length := rfl
  have c1 : M.rangeSlackEnd = M.normalColumnEnd + M.nrRange := rfl
  have c2 : M.upperSlackEnd = M.rangeSlackEnd + M.nrUpper := rfl
  have c3 : M.lowerSlackEnd = M.upperSlackEnd + M.nrLower := rfl
  have c4 : M.variableBoundSlackEnd = M.lowerSlackEnd + M.nrBounds := rfl
  have c5 : M.nrColumns = M.variableBoundSlackEnd + M.nrRange := rfl
  have hrhs : M.rightHandSide.length = M.nrRows := by
    simp only [MatrixData.rightHandSide, List.length_append, List.length_map, h.bLength', h.rangesLength]
    omega
  have hget (i : ℕ) (hi : i < M.nrRows) : M.rightHandSide[i]? = some (M.rightHandSide.getD i 0) := by
    rw [List.getD_eq_getElem?_getD, List.getElem?_eq_getElem (by omega)]
    rfl
  have hrange (q : ℕ) (hq : q < M.nrRange) : M.ranges[q]? = some (M.ranges.getD q 0) := by
    rw [List.getD_eq_getElem?_getD, List.getElem?_eq_getElem (by rw [h.rangesLength]; exact hq)]
    rfl
  by_cases hn : j.val < M.vars.length
  · have hb : M.boundRowIndex j .upper = (M.variableToBound.getD j none).map fun index => M.lowerEnd + index := by
      simp only [MatrixData.boundRowIndex, M.columnType_normal hn]
    refine ⟨rfl, fun r hr => ?_, fun hj => ?_, fun h1 _ => absurd h1 (by omega), fun h1 => absurd h1 (by omega)⟩
    · rw [hb, Option.map_eq_some_iff] at hr
      obtain ⟨q, hq, rfl⟩ := hr
      rw [M.variableToBound_iff] at hq
      have hlt := (List.getElem?_eq_some_iff.1 hq).1
      refine ⟨by omega, ⟨M.lowerSlackEnd + q, by omega⟩, fun he => ?_, ?_, fun k => ?_⟩
      · have := congrArg Fin.val he
        dsimp only at this
        omega
      · change M.vars.length ≤ M.lowerSlackEnd + q
        omega
      · rw [M.toLP_entry, h.entry_bound hq k k.isLt]
        simp only [Fin.ext_iff]
    · rw [hb, Option.map_map]
      rcases hq : M.variableToBound.getD j none with _ | q
      · have hu : ¬M.vars[j.val].upperBound.isSome := by
          rw [M.bound_isSome hn]
          rintro ⟨k, hk⟩
          rw [← M.variableToBound_iff, hq] at hk
          cases hk
        rw [Option.not_isSome_iff_eq_none] at hu
        rw [hu]
        rfl
      · rw [M.variableToBound_iff] at hq
        have hlt := (List.getElem?_eq_some_iff.1 hq).1
        have hu : M.vars[j.val].upperBound.isSome := (M.bound_isSome hn).2 ⟨q, hq⟩
        obtain ⟨u, hu⟩ := Option.isSome_iff_exists.1 hu
        simp only [Option.map_some, Function.comp_apply]
        rw [hget _ (by omega), h.rhs_bound (by omega), List.getD_eq_getElem?_getD, hq, Option.getD_some,
          List.getElem?_eq_getElem hn, Option.bind_some, hu]
        rfl
  · by_cases hr : j.val < M.vars.length + M.nrRange
    · obtain ⟨q, hq⟩ : ∃ q, j.val = M.normalColumnEnd + q := ⟨j.val - M.vars.length, by omega⟩
      have hlt : q < M.nrRange := by omega
      have hb : M.boundRowIndex j .upper = some (M.variableBoundEnd + q) := by
        simp only [MatrixData.boundRowIndex, hq, M.columnType_range hlt]
      refine ⟨rfl, fun r hr => ?_, fun hj => absurd hj hn, fun _ _ => ?_, fun h1 => absurd h1 (by omega)⟩
      · rw [hb, Option.some.injEq] at hr
        subst hr
        refine ⟨by omega, ⟨M.variableBoundSlackEnd + q, by omega⟩, fun he => ?_, ?_, fun k => ?_⟩
        · have := congrArg Fin.val he
          dsimp only at this
          omega
        · change M.vars.length ≤ M.variableBoundSlackEnd + q
          omega
        · rw [M.toLP_entry, h.entry_range_bound hlt k k.isLt]
          simp only [Fin.ext_iff, hq]
      · rw [hb, Option.map_some, hget _ (by omega), h.rhs_range, show j.val - M.vars.length = q by omega, hrange q hlt]
    · have hb : M.boundRowIndex j .upper = none := by
        have key : ∀ k < M.nrColumns, M.vars.length + M.nrRange ≤ k → M.boundRowIndex k .upper = none := by
          rw [MatrixData.columns_cases (p := fun k => M.vars.length + M.nrRange ≤ k → M.boundRowIndex k .upper = none)]
          refine ⟨fun k hk h1 => by omega, fun k hk h1 => by omega, fun k hk _ => ?_, fun k hk _ => ?_, fun k hk _ => ?_,
            fun k hk _ => ?_⟩
          · simp only [MatrixData.boundRowIndex, M.columnType_upper hk]
          · simp only [MatrixData.boundRowIndex, M.columnType_lower hk]
          · simp only [MatrixData.boundRowIndex, M.columnType_variableBound hk]
          · simp only [MatrixData.boundRowIndex, M.columnType_slackBound]
        exact key j j.isLt (by omega)
      refine ⟨rfl, fun r hr => ?_, fun hj => absurd hj hn, fun _ h2 => absurd h2 hr, fun _ => hb⟩
      rw [hb] at hr
      cases hr

/-- Variable 2 of the example has an upper bound of 2, in row 6, and the range is in row 7; variable 1 has no bound. -/
example : Example.data.Valid ∧ Example.data.boundRowIndex 2 .upper = some 6 ∧ Example.data.rightHandSide[6]? = some 2 ∧
    Example.data.boundRowIndex 3 .upper = some 7 ∧ Example.data.rightHandSide[7]? = some 2 ∧
    Example.data.boundRowIndex 1 .upper = none :=
  ⟨Example.data_valid, by decide +kernel⟩

open Spec Network in
/-- **C50** (rows of bounds). In the maximum flow problem, every arc has a row that bounds its flow, in which the
column of the arc and one other add up to the capacity; the other columns have none. -/
theorem C50_bound_row {A : SparseMatrix} (hA : Adjacency A) {s t : ℕ} (hs : s < A.major) (ht : t < A.major)
    (hst : s ≠ t) (k : Fin (arcs A).length) :
    let P := MaxFlow.new A s t
    (∃ (r : Fin P.nrRows) (slack : Fin P.nrColumns), P.boundRowIndex k .upper = some r.val ∧
      (arcs A).length ≤ slack ∧
      (∀ j, P.toProvider.toLP.A r j = if j = MaxFlow.arcColumn k ∨ j = slack then 1 else 0) ∧
      P.toProvider.toLP.b r = (arcs A)[k].value) ∧
    (∀ j, (arcs A).length ≤ j → P.boundRowIndex j .upper = none) ∧ ∀ j, P.boundRowIndex j .lower = none := by
  intro P
  have hE : (arcs A).length = P.matrix.nrEdges := MaxFlow.nrEdges_eq
  have hrow : P.nrConstraints + k.val < P.nrRows := by
    have := k.isLt
    change P.nrConstraints + k.val < P.nrConstraints + P.matrix.nrEdges
    omega
  refine ⟨⟨⟨P.nrConstraints + k, hrow⟩, MaxFlow.slackColumn k, ?_, ?_, ?_, MaxFlow.rhs_bound k⟩, ?_, fun _ => rfl⟩
  · have := k.isLt
    simp only [MaxFlow.boundRowIndex]
    rw [if_pos (by omega)]
  · change (arcs A).length ≤ P.matrix.nrEdges + k.val
    omega
  · have hA' (j : Fin P.nrColumns) : P.toProvider.toLP.A ⟨P.nrConstraints + k, hrow⟩ j =
        SVec.val (P.column j).tuples (P.nrConstraints + k) := SVec.val_toFin _ _ _
    have hval (l : Fin (arcs A).length) : (MaxFlow.arcColumn (s := s) (t := t) l).val = l.val := rfl
    have hval' (l : Fin (arcs A).length) : (MaxFlow.slackColumn (s := s) (t := t) l).val = P.matrix.nrEdges + l.val := rfl
    refine MaxFlow.columns_cases.2 ⟨fun l => ?_, fun l => ?_⟩
    · rw [hA']
      refine (MaxFlow.arc_bound hA hs ht hst l k).trans (if_congr ?_ rfl rfl)
      have := l.isLt
      rw [Fin.ext_iff, Fin.ext_iff, Fin.ext_iff, hval, hval, hval']
      omega
    · rw [hA']
      refine (MaxFlow.slack_bound l k).trans (if_congr ?_ rfl rfl)
      have := k.isLt
      rw [Fin.ext_iff, Fin.ext_iff, Fin.ext_iff, hval', hval, hval']
      omega
  · intro j hj
    simp only [MaxFlow.boundRowIndex]
    rw [if_neg (by omega)]

open Spec Network in
example : Adjacency Example.pipes ∧ (MaxFlow.new Example.pipes 0 3).boundRowIndex 1 .upper = some 3 :=
  ⟨Example.pipes_ok, by decide +kernel⟩

end Relp
