import Verif.Proof.Filter
import Verif.Proof.Fuel
import Verif.Spec.Vector

/-!
# Properties of constrained problems in tabular form and of row filtering (C22 to C26, C42)

`M.toProgram` is the program that the fields of a `MatrixData` describe; `M.toProvider.toLP` is the
linear program `A z = b`, `z ≥ 0` that the solver sees through its interface. `M.Valid` says that the
dimensions match and that `b`, ranges and upper bounds are non-negative.
-/

namespace Relp

open Matrix

/-! ### A concrete problem -/

/-- `minimise x₀ - 2 x₁` subject to `x₀ + x₁ + x₂ = 4`, twice that, `1 ≤ x₀ - x₁ + x₂ ≤ 3`,
`x₁ + 3 x₂ ≤ 9`, `x₀ + x₁ ≥ 1`, `x₀ ≤ 3`, `x₂ ≤ 2`. -/
def Example.data : MatrixData where
  constraints := ⟨[[(0, 1), (1, 2), (2, 1), (4, 1)], [(0, 1), (1, 2), (2, -1), (3, 1), (4, 1)],
    [(0, 1), (1, 2), (2, 1), (3, 3)]], 3, 5⟩
  b := [4, 8, 3, 9, 1]
  ranges := [2]
  nrEquality := 2
  nrRange := 1
  nrUpper := 1
  nrLower := 1
  vars := [⟨.continuous, 1, some 0, some 3, 0, false⟩, ⟨.continuous, -2, some 0, none, 0, false⟩,
    ⟨.continuous, 0, some 0, some 2, 0, false⟩]

theorem Example.data_valid : Example.data.Valid :=
  ⟨rfl, rfl, by decide +kernel, by decide +kernel, rfl, rfl, by decide +kernel, by decide +kernel,
    by decide +kernel⟩

instance : NeZero Example.data.nrColumns := ⟨by decide⟩

theorem Example.data_solved : solveRelaxation .lu .steepestDescentAlongObjective 20
    Example.data.toProvider Example.data.initialBasis =
    .ok (.finiteOptimum [(0, 1/2), (1, 3/2), (2, 2), (3, 2), (4, 3/2), (5, 1), (6, 5/2)]) := by
  decide +kernel

/-! ### C22 -/

/-- **C22.** A point satisfies all constraints and bounds of the program iff it extends to a
non-negative solution of the equality system that the solver sees. -/
theorem C22_tabular_form (M : MatrixData) (h : M.Valid) (x : Fin M.vars.length → ℚ) :
    M.toProgram.Feasible x ↔
      ∃ z, M.toProvider.toLP.Feasible z ∧ ∀ j, z (Fin.castLE M.vars_le_columns j) = x j := by
  constructor
  · intro hx
    refine ⟨fun j => M.slackValues (MatrixData.extendFin x) j, ?_⟩
    have hj : ∀ j : Fin M.vars.length,
        M.slackValues (MatrixData.extendFin x) (Fin.castLE M.vars_le_columns j) = x j := by
      intro j
      simp only [MatrixData.slackValues, Fin.val_castLE, M.columnType_normal j.2,
        MatrixData.extendFin_val]
    refine ⟨(h.feasible_iff' _).2 ?_, hj⟩
    have hr : M.restrict (fun j => M.slackValues (MatrixData.extendFin x) j) = x := funext hj
    rw [hr]
    exact ⟨hx, fun _ => rfl⟩
  · rintro ⟨z, h1, h2⟩
    have hr : M.restrict z = x := funext h2
    rw [← hr]
    exact ((h.feasible_iff' z).1 h1).1

/-- The extension is unique. -/
theorem C22_unique (M : MatrixData) (h : M.Valid) (z z' : Fin M.nrColumns → ℚ)
    (hz : M.toProvider.toLP.Feasible z) (hz' : M.toProvider.toLP.Feasible z')
    (he : ∀ j, z (Fin.castLE M.vars_le_columns j) = z' (Fin.castLE M.vars_le_columns j)) :
    z = z' := by
  have h1 := ((h.feasible_iff' z).1 hz).2
  have h2 := ((h.feasible_iff' z').1 hz').2
  have hr : M.restrict z = M.restrict z' := funext he
  funext j
  rw [h1, h2, hr]

/-- The extension costs the same. -/
theorem C22_objective (M : MatrixData) (z : Fin M.nrColumns → ℚ) :
    M.toProvider.toLP.objective z =
      M.toProgram.objective fun j => z (Fin.castLE M.vars_le_columns j) :=
  MatrixData.objective_eq z

/-- `reconstruct_solution` recovers the point, as a valid sparse vector. -/
theorem C22_reconstruct (M : MatrixData) (h : M.Valid) (x : SVec (Fin M.nrColumns))
    (hx : SVec.WF x) :
    Spec.Represents (M.reconstructSolution x.toVector)
      (List.ofFn fun j => SVec.val x (Fin.castLE M.vars_le_columns j)) := by
  obtain ⟨h1, h2, h3, h4⟩ := h.reconstruct hx
  refine Spec.Represents.of_val h2 (fun p hp => h1 ▸ h3 p hp) (by rw [h1, List.length_ofFn])
    fun i hi => ?_
  rw [h1] at hi
  rw [List.getD_eq_getElem?_getD, List.getElem?_ofFn, dif_pos hi]
  exact h4 ⟨i, hi⟩

example : ∃ z, Example.data.toProvider.toLP.Feasible z ∧
    ∀ j, z (Fin.castLE Example.data.vars_le_columns j) = ![1/2, 3/2, 2] j :=
  (C22_tabular_form _ Example.data_valid _).1
    ⟨by decide +kernel, by decide +kernel⟩

/-! ### C23 -/

/-- **C23.** The offered initial basis elements are in range, sorted by row, as many as announced;
each of the columns is the unit vector of its row, and costs nothing. -/
theorem C23_initial_basis (M : MatrixData) :
    (M.pivotElementIndices.map (·.1)).Pairwise (· < ·) ∧
    M.pivotElementIndices.length = M.nrInitialElements ∧
    ∀ p ∈ M.pivotElementIndices, ∃ (hr : p.1 < M.nrRows) (hc : p.2 < M.nrColumns),
      (∀ i, M.toProvider.toLP.A i ⟨p.2, hc⟩ = if i = ⟨p.1, hr⟩ then 1 else 0) ∧
      M.toProvider.toLP.c ⟨p.2, hc⟩ = 0 := by
  refine ⟨MatrixData.pivots_sorted, ?_, fun p hp => ?_⟩
  · simp [MatrixData.pivotElementIndices, MatrixData.nrInitialElements,
      MatrixData.nrVariableBounds]
  · obtain ⟨h1, h2, h3, h4⟩ := MatrixData.pivot_cases hp
    refine ⟨h1, h2, fun i => ?_, h4⟩
    rw [MatrixData.toLP_entry, M.entry_slack h3]
    simp only [Fin.ext_iff]

/-- The basis that the solver is started with consists of exactly these elements, and meets what the
solver asks for. -/
theorem C23_start (M : MatrixData) : StartOk M.toProvider M.initialBasis ∧
    ∃ pivots, M.initialBasis = .partially pivots ∧
      pivots.map (fun p => (p.1.val, p.2.val)) = M.pivotElementIndices := by
  refine ⟨MatrixData.initialBasis_ok, _, rfl, ?_⟩
  have h : ∀ l : List (ℕ × ℕ), (∀ p ∈ l, p.1 < M.nrRows ∧ p.2 < M.nrColumns) →
      (l.filterMap fun p => if h : p.1 < M.nrRows ∧ p.2 < M.nrColumns then
        some ((⟨p.1, h.1⟩, ⟨p.2, h.2⟩) : Fin M.nrRows × Fin M.nrColumns) else none).map
        (fun p => (p.1.val, p.2.val)) = l := by
    intro l hl
    induction l with
    | nil => rfl
    | cons p l ih =>
      rw [List.filterMap_cons]
      rw [dif_pos (hl p (by simp))]
      simp only [List.map_cons]
      rw [ih fun q hq => hl q (by simp [hq])]
  exact h _ fun p hp => ⟨(MatrixData.pivot_cases hp).1, (MatrixData.pivot_cases hp).2.1⟩

example : Example.data.pivotElementIndices = [(3, 4), (5, 6), (6, 7), (7, 8)] := by decide +kernel

/-! ### C24 -/

/-- **C24.** A reported optimum reconstructs to a valid sparse vector of the values of an optimal point
of the program. -/
theorem C24_optimum (inv : InverseName) (rule : RuleName) (fuel : ℕ) (M : MatrixData) (h : M.Valid)
    (x : SVec (Fin M.nrColumns))
    (hx : solveRelaxation inv rule fuel M.toProvider M.initialBasis = .ok (.finiteOptimum x)) :
    ∃ point : Fin M.vars.length → ℚ, M.toProgram.Optimal point ∧
      Spec.Represents (M.reconstructSolution x.toVector) (List.ofFn point) := by
  obtain ⟨h1, h2, -⟩ := solveRelaxation_answer h.ok MatrixData.initialBasis_ok hx
  refine ⟨_, ⟨?_, fun y hy => ?_⟩, C22_reconstruct M h x h2⟩
  · exact (C22_tabular_form M h _).2 ⟨_, h1.1, fun _ => rfl⟩
  · obtain ⟨z, hz, he⟩ := (C22_tabular_form M h y).1 hy
    have := h1.2 z hz
    rw [C22_objective, C22_objective, funext he] at this
    exact this

/-- If `Unbounded` is reported, the program has feasible points of arbitrarily low cost. -/
theorem C24_unbounded (inv : InverseName) (rule : RuleName) (fuel : ℕ) (M : MatrixData) (h : M.Valid)
    (hx : solveRelaxation inv rule fuel M.toProvider M.initialBasis = .ok .unbounded) :
    M.toProgram.Unbounded := by
  intro bound
  obtain ⟨z, h1, h2⟩ := solveRelaxation_answer h.ok MatrixData.initialBasis_ok hx bound
  refine ⟨_, (C22_tabular_form M h _).2 ⟨z, h1, fun _ => rfl⟩, ?_⟩
  rw [← C22_objective]
  exact h2

/-- If `Infeasible` is reported, the program has no feasible point. -/
theorem C24_infeasible (inv : InverseName) (rule : RuleName) (fuel : ℕ) (M : MatrixData) (h : M.Valid)
    (hx : solveRelaxation inv rule fuel M.toProvider M.initialBasis = .ok .infeasible) :
    M.toProgram.Infeasible := by
  intro x hf
  obtain ⟨z, hz, -⟩ := (C22_tabular_form M h x).1 hf
  exact solveRelaxation_answer h.ok MatrixData.initialBasis_ok hx z hz

/-- With the row-wise basis inverse, solving never aborts. -/
theorem C24_never_panics (rule : RuleName) (fuel : ℕ) (M : MatrixData) (h : M.Valid) (p : Panic) :
    solveRelaxation .rows rule fuel M.toProvider M.initialBasis ≠ .error (.panic p) := by
  rcases solveRows_spec rule fuel h.ok MatrixData.initialBasis_ok
    (fun _ pivots he => by cases he) with h | ⟨a, h, -⟩
  · rw [h]; simp
  · rw [h]; simp

example : ∃ point, Example.data.toProgram.Optimal point ∧
    Spec.Represents ⟨[(0, 1/2), (1, 3/2), (2, 2)], 3⟩ (List.ofFn point) :=
  C24_optimum .lu _ _ _ Example.data_valid _ Example.data_solved

/-! ### C25 -/

/-- **C25.** The `i`-th row of the filtered problem is the `i`-th row of the original that was not
removed. `keptIndices skip n` lists the rows below `n` that are not in `skip`, in order. -/
theorem C25_row_index (skip : List ℕ) (hs : skip.Pairwise (· < ·)) (n : ℕ) (hr : ∀ r ∈ skip, r < n)
    (i : ℕ) (hi : i < n - skip.length) :
    (keptIndices skip n)[i]? = some (RemoveRows.getUnderlyingIndex skip i) :=
  RemoveRows.underlying_eq hs hr hi

/-- `keptIndices` is what it is called. -/
theorem keptIndices_spec (skip : List ℕ) (n : ℕ) : (keptIndices skip n).Pairwise (· < ·) ∧
    ∀ i, i ∈ keptIndices skip n ↔ i < n ∧ i ∉ skip :=
  ⟨List.pairwise_lt_range.sublist List.filter_sublist, fun _ => mem_keptIndices⟩

/-- The right-hand side. -/
theorem C25_right_hand_side (skip : List ℕ) (hs : skip.Pairwise (· < ·)) (b : List ℚ)
    (hr : ∀ r ∈ skip, r < b.length) :
    (RemoveRows.rightHandSide skip b).length = b.length - skip.length ∧
    ∀ i < b.length - skip.length,
      (RemoveRows.rightHandSide skip b)[i]? = b[RemoveRows.getUnderlyingIndex skip i]? := by
  rw [RemoveRows.rightHandSide, removeListIndices_eq]
  refine ⟨?_, fun i hi => ?_⟩
  · rw [deleteAt_length, keptIndices_length (hs.imp fun h => ne_of_lt h) hr]
  · rw [deleteAt_getElem?, C25_row_index skip hs b.length hr i hi]
    rfl

/-- The columns: the filtered column of a problem of which only equality rows are removed has in row
`i` the element of the original column in the row that `i` stands for. -/
theorem C25_column (M : MatrixData) (h : M.Valid) (skip : List ℕ) (hs : skip.Pairwise (· < ·))
    (hr : ∀ r ∈ skip, r < M.nrEquality) (j : ℕ) (hj : j < M.nrColumns) :
    SVec.WF ((M.column j).intoFiltered skip).tuples ∧
    ∀ i, SVec.val ((M.column j).intoFiltered skip).tuples i =
      SVec.val (M.column j).tuples (RemoveRows.getUnderlyingIndex skip i) := by
  rw [MatrixData.intoFiltered_tuples (hs.imp fun h => ne_of_lt h) hr j hj]
  refine ⟨wf_removeSparseTuples (h.wf_tuples j hj) skip, fun i => ?_⟩
  obtain ⟨u, h1, h2⟩ := RemoveRows.underlying_isOffset hs i
  rw [h1, ← val_removeSparseTuples _ h2.notMem, h2.count hs]

/-- The rows of variable bounds. -/
theorem C25_bound_row (M : MatrixData) (skip : List ℕ) (hs : skip.Pairwise (· < ·))
    (hr : ∀ r ∈ skip, r < M.nrEquality) (j : ℕ) (hj : j < M.nrColumns) (d : BoundDirection) (i : ℕ)
    (hi : RemoveRows.boundRowIndex skip (M.boundRowIndex j d) = some i) :
    i < M.nrRows - skip.length ∧
    M.boundRowIndex j d = some (RemoveRows.getUnderlyingIndex skip i) := by
  rcases hb : M.boundRowIndex j d with _ | r
  · rw [hb] at hi; cases hi
  rw [hb] at hi
  have hri : r - skip.length = i := Option.some.inj hi
  have hrow := MatrixData.boundRow_range j hj d r hb
  have hn : skip.Nodup := hs.imp fun h => ne_of_lt h
  have hlt : ∀ q ∈ skip, q < r := fun q hq => lt_of_lt_of_le (hr q hq) hrow.1
  have hlen := keptIndices_length hn hlt
  have hmem : r ∉ skip := fun hc => lt_irrefl _ (hlt r hc)
  have hsl : skip.length ≤ r := MatrixData.length_le_of_lt hn hlt
  have hi' : i < M.nrRows - skip.length := by omega
  refine ⟨hi', ?_⟩
  have h1 := C25_row_index skip hs M.nrRows (fun q hq => lt_trans (hlt q hq) hrow.2) i hi'
  have h2 := keptIndices_getElem hrow.2 hmem
  rw [hlen, hri, h1] at h2
  exact h2.symm

/-- Rows 0 and 2 of five are removed: the remaining rows are 1, 3 and 4. -/
example : keptIndices [0, 2] 5 = [1, 3, 4] ∧
    (List.range 3).map (RemoveRows.getUnderlyingIndex [0, 2]) = [1, 3, 4] := by decide +kernel

example : ∀ i, SVec.val ((Example.data.column 2).intoFiltered [1]).tuples i =
    SVec.val (Example.data.column 2).tuples (RemoveRows.getUnderlyingIndex [1] i) :=
  (C25_column _ Example.data_valid [1] (by simp) (by decide) 2 (by decide)).2

example : RemoveRows.boundRowIndex [1] (Example.data.boundRowIndex 2 .upper) = some 5 ∧
    RemoveRows.getUnderlyingIndex [1] 5 = 6 := by decide +kernel

/-! ### C26 -/

/-- **C26.** Only equality rows are redundant. -/
theorem C26_only_equality_rows (M : MatrixData) (rows : List (Fin M.nrRows))
    (h : M.toProvider.toLP.Redundant rows) : ∀ i ∈ rows, i.val < M.nrEquality :=
  MatrixData.redundant_equality h

/-- For redundant rows, the filtered column is the column with these rows deleted. -/
theorem C26_filtered_column (M : MatrixData) (h : M.Valid) (rows : List (Fin M.nrRows))
    (hr : M.toProvider.toLP.Redundant rows) (j : Fin M.nrColumns) :
    M.toProvider.filteredColumn rows j = removeSparseIndices rows (M.toProvider.column j) :=
  h.ok.filter rows hr j

/-- Phase one can remove the second row of the example. -/
theorem Example.data_redundant :
    Example.data.toProvider.toLP.Redundant [⟨1, by decide +kernel⟩] := by
  refine ⟨by simp, fun i hi => ?_⟩
  rw [List.mem_singleton] at hi
  subst hi
  exact ⟨fun i => if i.val = 0 then -2 else if i.val = 1 then 1 else 0, by decide +kernel,
    by decide +kernel, by decide +kernel, by decide +kernel⟩

example (j : Fin Example.data.nrColumns) :
    Example.data.toProvider.filteredColumn [⟨1, by decide +kernel⟩] j =
    removeSparseIndices [⟨1, by decide +kernel⟩] (Example.data.toProvider.column j) :=
  C26_filtered_column _ Example.data_valid _ Example.data_redundant j

/-! ### C42 -/

/-- **C42, without debug assertions.** Deleting row `i` of a filtered problem adds exactly the row of the
original that `i` stands for to the removed rows, which stay sorted. -/
theorem C42_delete_row_partial (skip : List ℕ) (hs : skip.Pairwise (· < ·)) (i : ℕ) :
    ∃ skip', RemoveRows.deleteRow false skip i = .deleted skip' ∧ skip'.Pairwise (· < ·) ∧
      ∀ r, r ∈ skip' ↔ r = RemoveRows.getUnderlyingIndex skip i ∨ r ∈ skip := by
  have hn := RemoveRows.underlying_notMem hs i
  refine ⟨_, (by
    simp only [RemoveRows.deleteRow, Bool.false_eq_true, false_and, if_false, if_neg hn]
    rfl), ?_, fun r => ?_⟩
  · have h1 : ∀ a ∈ skip.takeWhile (· < RemoveRows.getUnderlyingIndex skip i),
        a < RemoveRows.getUnderlyingIndex skip i := fun a ha => by
      have := List.all_takeWhile (l := skip)
        (p := fun x => decide (x < RemoveRows.getUnderlyingIndex skip i))
      simpa using List.all_eq_true.1 this a ha
    have h2 : ∀ a ∈ skip.dropWhile (· < RemoveRows.getUnderlyingIndex skip i),
        RemoveRows.getUnderlyingIndex skip i < a := by
      intro a ha
      have hsd : (skip.dropWhile (· < RemoveRows.getUnderlyingIndex skip i)).Pairwise (· < ·) :=
        hs.sublist (List.dropWhile_sublist _)
      rcases hd : skip.dropWhile (· < RemoveRows.getUnderlyingIndex skip i) with _ | ⟨b, t⟩
      · rw [hd] at ha; cases ha
      · have hb : ¬ b < RemoveRows.getUnderlyingIndex skip i := by
          have := List.head_dropWhile_not (p := fun x => decide (x <
            RemoveRows.getUnderlyingIndex skip i)) (l := skip) (by rw [hd]; simp)
          simp only [hd, List.head_cons] at this
          simpa using this
        have hbm : b ∈ skip := (List.dropWhile_sublist _).subset (by rw [hd]; simp)
        have hne : b ≠ RemoveRows.getUnderlyingIndex skip i := fun he => hn (he ▸ hbm)
        rw [hd] at ha hsd
        rcases List.mem_cons.1 ha with rfl | ha
        · omega
        · have := (List.pairwise_cons.1 hsd).1 a ha
          omega
    rw [List.pairwise_append, List.pairwise_cons]
    refine ⟨hs.sublist (List.takeWhile_sublist _), ⟨h2, hs.sublist (List.dropWhile_sublist _)⟩, ?_⟩
    intro a ha b hb
    rcases List.mem_cons.1 hb with rfl | hb
    · exact h1 a ha
    · exact lt_trans (h1 a ha) (h2 b hb)
  · have := List.takeWhile_append_dropWhile (p := fun x => decide (x <
      RemoveRows.getUnderlyingIndex skip i)) (l := skip)
    have hm : r ∈ skip ↔ r ∈ skip.takeWhile (· < RemoveRows.getUnderlyingIndex skip i) ∨
        r ∈ skip.dropWhile (· < RemoveRows.getUnderlyingIndex skip i) := by
      rw [← List.mem_append, this]
    rw [hm]
    simp only [List.mem_append, List.mem_cons]
    tauto

/-- The full statement is false of the code: with debug assertions, every deletion aborts, because the
assertion demands that the row is already deleted. -/
theorem C42_debug_aborts (skip : List ℕ) (hs : skip.Pairwise (· < ·)) (i : ℕ) :
    RemoveRows.deleteRow true skip i = .assertionFailed := by
  have hn := RemoveRows.underlying_notMem hs i
  simp only [RemoveRows.deleteRow, true_and, if_pos hn]

example : RemoveRows.deleteRow false [0, 2] 1 = .deleted [0, 2, 3] ∧
    RemoveRows.deleteRow true [0, 2] 1 = .assertionFailed := by decide +kernel

end Relp
