import Verif.Props.DisplayProblem

/-!
# C81: the groups of rows and columns in the text of a problem

The text of a problem has a separator before the first row of each group, and a bar before the first column of each
group. The specification is `rowGroup` and `columnGroup`, by the numbers of constraints, variables and bounds.
-/

namespace Relp.Display

/-- To which group a row belongs: equalities, ranges, `≤`, `≥`, bounds of variables, bounds of the slacks of ranges. -/
def rowGroup (M : MatrixData) (i : ℕ) : ℕ :=
  let bounded := M.vars.countP fun v => v.upperBound.isSome
  if i < M.nrEquality then 0
  else if i < M.nrEquality + M.nrRange then 1
  else if i < M.nrEquality + M.nrRange + M.nrUpper then 2
  else if i < M.nrEquality + M.nrRange + M.nrUpper + M.nrLower then 3
  else if i < M.nrEquality + M.nrRange + M.nrUpper + M.nrLower + bounded then 4
  else 5

/-- To which group a column belongs: variables of the problem, and slacks of the five groups of inequalities. -/
def columnGroup (M : MatrixData) (j : ℕ) : ℕ :=
  let bounded := M.vars.countP fun v => v.upperBound.isSome
  if j < M.vars.length then 0
  else if j < M.vars.length + M.nrRange then 1
  else if j < M.vars.length + M.nrRange + M.nrUpper then 2
  else if j < M.vars.length + M.nrRange + M.nrUpper + M.nrLower then 3
  else if j < M.vars.length + M.nrRange + M.nrUpper + M.nrLower + bounded then 4
  else 5

theorem boundIndices_count (vars : List Variable) (k : ℕ) (acc : List (Option ℕ) × List ℕ) :
    ((vars.zipIdx k).foldl (fun acc p =>
      if p.1.upperBound.isSome then (acc.1 ++ [some acc.2.length], acc.2 ++ [p.2])
      else (acc.1 ++ [none], acc.2)) acc).2.length = acc.2.length + vars.countP fun v => v.upperBound.isSome := by
  induction vars generalizing k acc with
  | nil => rfl
  | cons v vars ih =>
    rw [List.zipIdx_cons, List.foldl_cons, ih, List.countP_cons]
    by_cases hv : v.upperBound.isSome
    · simp [hv]; omega
    · simp [hv]

theorem nrBounds_count (M : MatrixData) : M.nrBounds = M.vars.countP fun v => v.upperBound.isSome := by
  have := boundIndices_count M.vars 0 ([], [])
  simpa [MatrixData.nrBounds, MatrixData.boundToVariable, MatrixData.boundIndices] using this

theorem rowSeparator_group (M : MatrixData) (i : ℕ) (hi : i < M.nrRows) :
    rowSeparator M i = if i = 0 ∨ rowGroup M i ≠ rowGroup M (i - 1) then List.replicate (separatorWidth M) '-' else [] := by
  have hn : M.nrRows = M.lowerEnd + (M.nrBounds + M.nrRange) := rfl
  unfold rowSeparator
  refine if_congr ?_ rfl rfl
  simp only [List.mem_cons, List.not_mem_nil, or_false]
  simp only [rowGroup, MatrixData.slackBoundEnd, MatrixData.variableBoundEnd, MatrixData.lowerEnd, MatrixData.upperEnd,
    MatrixData.rangeEnd, MatrixData.equalityEnd, ← nrBounds_count] at hn ⊢
  constructor
  · intro h
    by_cases h0 : i = 0
    · exact .inl h0
    · right
      split_ifs <;> omega
  · intro h
    by_contra hno
    apply h.elim (fun h => hno (.inl h))
    push Not at hno
    split_ifs <;> omega

theorem columnMark_group (M : MatrixData) (j : ℕ) (hj : j < M.nrColumns) :
    columnMark M j = if j = 0 ∨ columnGroup M j ≠ columnGroup M (j - 1) then ['|'] else [] := by
  have hn : M.nrColumns = M.slackBoundSlackEnd := rfl
  unfold columnMark
  refine if_congr ?_ rfl rfl
  simp only [List.mem_cons, List.not_mem_nil, or_false]
  simp only [columnGroup, MatrixData.slackBoundSlackEnd, MatrixData.variableBoundSlackEnd, MatrixData.lowerSlackEnd,
    MatrixData.upperSlackEnd, MatrixData.rangeSlackEnd, MatrixData.normalColumnEnd, ← nrBounds_count] at hn ⊢
  constructor
  · intro h
    by_cases h0 : j = 0
    · exact .inl h0
    · right
      split_ifs <;> omega
  · intro h
    by_contra hno
    apply h.elim (fun h => hno (.inl h))
    push Not at hno
    split_ifs <;> omega

theorem marks_length (M : MatrixData) : ∑ k ∈ Finset.range M.nrColumns, (columnMark M k).length ≤ 6 := by
  have hn : M.nrColumns = M.slackBoundSlackEnd := rfl
  have hmark (k : ℕ) (hk : k ∈ Finset.range M.nrColumns) : (columnMark M k).length =
      if k ∈ ({0, M.normalColumnEnd, M.rangeSlackEnd, M.upperSlackEnd, M.lowerSlackEnd, M.variableBoundSlackEnd} :
        Finset ℕ) then 1 else 0 := by
    have hk' := Finset.mem_range.1 hk
    unfold columnMark
    rw [apply_ite List.length]
    refine if_congr ?_ rfl rfl
    simp only [List.mem_cons, List.not_mem_nil, or_false, Finset.mem_insert, Finset.mem_singleton]
    omega
  rw [Finset.sum_congr rfl hmark, ← Finset.card_filter]
  refine (Finset.card_le_card (fun k hk => (Finset.mem_filter.1 hk).2)).trans ?_
  exact Finset.card_le_six

variable (text : ℚ → Line)

/-- **C81** (groups). The line of a row consists of the number of the row and cells of eight characters, with a bar
before the first column of each group of columns. Before that, there is a separator if it is the first row of a group
of rows. Separators are at least as wide as the table, by at most six characters. -/
theorem C81_groups_partial (M : MatrixData) (h : M.Valid) (hrows : M.nrRows ≤ 1000000)
    (htext : ∀ i j, (text (M.toProvider.toLP.A i j)).length ≤ 7) :
    ∃ (width : ℕ) (counter : Fin M.nrRows → Line) (cell : Fin M.nrRows → ℕ → Line) (row : Fin M.nrRows → Line),
      (∀ i : Fin M.nrRows, (problem text M)[2 + i.val]? = some (
        (if i.val = 0 then List.replicate width '=' else []) ++
        (if i.val = 0 ∨ rowGroup M i ≠ rowGroup M (i - 1) then List.replicate width '-' else []) ++ row i)) ∧
      (∀ i, row i = counter i ++ (List.range M.nrColumns).flatMap fun j =>
        (if j = 0 ∨ columnGroup M j ≠ columnGroup M (j - 1) then ['|'] else []) ++ cell i j) ∧
      (∀ i, (counter i).length = 8) ∧ (∀ i, ∀ j < M.nrColumns, (cell i j).length = 8) ∧
      (∀ i, (row i).length ≤ width ∧ width ≤ (row i).length + 6) := by
  have htext' (i : Fin M.nrRows) (j : ℕ) (hj : j < M.nrColumns) :
      (elementText text (M.column j).tuples i).length ≤ 7 := by
    have he : M.toProvider.toLP.A i ⟨j, hj⟩ = SVec.val (M.column j).tuples i := M.toLP_entry i ⟨j, hj⟩
    rw [elementText_eq text (h.wf_tuples j hj), ← he]
    split_ifs
    · simp
    · exact htext _ _
  have hcells (i : Fin M.nrRows) : (problemCells M fun j => elementText text (M.column j).tuples i) =
      (List.range M.nrColumns).flatMap fun j =>
        (if j = 0 ∨ columnGroup M j ≠ columnGroup M (j - 1) then ['|'] else []) ++
          center 8 (elementText text (M.column j).tuples i) := by
    unfold problemCells
    rw [List.flatMap_def, List.flatMap_def]
    congr 1
    refine List.map_congr_left fun j hj => ?_
    rw [columnMark_group M j (List.mem_range.1 hj)]
  refine ⟨separatorWidth M, fun i => rowCounter i, fun i j => center 8 (elementText text (M.column j).tuples i),
    fun i => rowCounter i ++ problemCells M fun j => elementText text (M.column j).tuples i, ?_, ?_, ?_, ?_, ?_⟩
  · intro i
    rw [← rowSeparator_group M i i.isLt, show 2 + i.val = i.val + 1 + 1 by omega]
    change (beforeFirst _ _)[i.val]? = _
    rw [beforeFirst_get (line := rowSeparator M i ++ rowCounter i ++
      problemCells M fun j => elementText text (M.column j).tuples i)]
    · simp only [List.append_assoc]
    · rw [List.getElem?_append_left (by simp)]
      simp
  · intro i
    dsimp only
    rw [hcells i]
  · exact fun i => (rowCounter_shown (show i.val < 10 ^ 6 by omega)).1
  · exact fun i j hj => length_center (by have := htext' i j hj; omega)
  · intro i
    have hlen := cells_length (columnMark M) (fun j => elementText text (M.column j).tuples i) M.nrColumns (htext' i)
    rw [Finset.sum_add_distrib, Finset.sum_const, Finset.card_range, smul_eq_mul] at hlen
    have := marks_length M
    have hc := (rowCounter_shown (show i.val < 10 ^ 6 by omega)).1
    have hrow : (problemCells M fun j => elementText text (M.column j).tuples i).length =
        ∑ k ∈ Finset.range M.nrColumns, (columnMark M k).length + M.nrColumns * 8 := hlen
    rw [List.length_append, hc, hrow]
    unfold separatorWidth
    constructor <;> omega

example : Example.data.Valid ∧ (∀ i j, (exampleText (Example.data.toProvider.toLP.A i j)).length ≤ 7) ∧
    (List.range Example.data.nrRows).map (rowGroup Example.data) = [0, 0, 1, 2, 3, 4, 4, 5] :=
  ⟨Example.data_valid, by decide +kernel, by decide +kernel⟩

end Relp.Display
