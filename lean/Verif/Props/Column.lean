import Verif.Proof.Column
import Verif.Props.MatrixData

/-!
# Properties of iterating over columns (C65)

`Spec.Yields next s l` says that an iterator in state `s` gives the items `l` and no more. `Spec.EntriesOf column l`
says that `l` has exactly the entries of a column that are not zero, in the order of their rows.
-/

namespace Relp

open Spec Iterate

/-- Entries of the problem that the solver sees are zero outside its rows. -/
theorem MatrixData.Valid.entry_zero {M : MatrixData} (h : M.Valid) : ∀ j < M.nrColumns, ∀ i, M.nrRows ≤ i →
    M.entry i j = 0 := by
  have d0 : M.equalityEnd = M.nrEquality := rfl
  have d1 : M.rangeEnd = M.equalityEnd + M.nrRange := rfl
  have d2 : M.upperEnd = M.rangeEnd + M.nrUpper := rfl
  have d3 : M.lowerEnd = M.upperEnd + M.nrLower := rfl
  have d4 : M.variableBoundEnd = M.lowerEnd + M.nrBounds := rfl
  have e : M.nrRows = M.lowerEnd + (M.nrBounds + M.nrRange) := rfl
  rw [columns_cases (p := fun j => ∀ i, M.nrRows ≤ i → M.entry i j = 0)]
  refine ⟨fun j hj i hi => ?_, fun k hk i hi => ?_, fun k hk i hi => ?_, fun k hk i hi => ?_, fun k hk i hi => ?_,
    fun k hk i hi => ?_⟩
  · rw [M.entry_normal hj, h.constraint_zero (by omega), if_neg, add_zero]
    rintro ⟨-, h1⟩
    have := (List.getElem?_eq_some_iff.1 h1).1
    have e' : M.nrBounds = M.boundToVariable.length := rfl
    omega
  · rw [M.entry_range hk, if_neg (by omega), if_neg (by omega), add_zero]
  · rw [M.entry_slack (M.column_upper hk), if_neg (by omega)]
  · rw [M.entry_slack (M.column_lower hk), if_neg (by omega)]
  · rw [M.entry_slack (M.column_variableBound hk), if_neg (by omega)]
  · rw [M.entry_slack M.column_slackBound, if_neg (by omega)]

theorem MatrixData.Valid.column_entry {M : MatrixData} (h : M.Valid) (j : Fin M.nrColumns) :
    Spec.matrixColumn M.toProvider.toLP.A j = SVec.val (M.column j).tuples := by
  funext i
  unfold Spec.matrixColumn
  split_ifs with hi
  · exact toLP_entry _ _ _
  · exact (h.entry_zero j j.2 i (by omega)).symm

/-- **C65.** Iterating over a column of a problem, by reference or by value, gives the entries of the matrix that are
not zero: all of them, each once, by row, and nothing after that. What is shown for a row is the entry. -/
theorem C65_columns (M : MatrixData) (h : M.Valid) (j : Fin M.nrColumns) :
    (∃ items, Yields DataColumn.Iterator.next (M.column j).iter items ∧
      Yields DataColumn.IntoIterator.next (M.column j).intoIter items ∧
      EntriesOf (matrixColumn M.toProvider.toLP.A j) items) ∧
    ∀ i, (M.column j).indexValue i = matrixColumn M.toProvider.toLP.A j i := by
  rw [h.column_entry]
  exact ⟨⟨_, DataColumn.yields_iter _, DataColumn.yields_intoIter _, entries_of_wf (h.wf_tuples j j.2)⟩,
    DataColumn.indexValue_eq (h.wf_tuples j j.2)⟩

/-- The same for a column without some rows: the entries of the rows that are left, with their new indices. -/
theorem C65_filtered_columns (M : MatrixData) (h : M.Valid) (skip : List ℕ) (hs : skip.Pairwise (· < ·))
    (hr : ∀ r ∈ skip, r < M.nrEquality) (j : Fin M.nrColumns) :
    (∃ items, Yields DataColumn.Iterator.next ((M.column j).intoFiltered skip).iter items ∧
      Yields DataColumn.IntoIterator.next ((M.column j).intoFiltered skip).intoIter items ∧
      EntriesOf (fun i => matrixColumn M.toProvider.toLP.A j (RemoveRows.getUnderlyingIndex skip i)) items) ∧
    ∀ i, ((M.column j).intoFiltered skip).indexValue i =
      matrixColumn M.toProvider.toLP.A j (RemoveRows.getUnderlyingIndex skip i) := by
  obtain ⟨h1, h2⟩ := C25_column M h skip hs hr j j.2
  rw [h.column_entry]
  simp only [← h2]
  exact ⟨⟨_, DataColumn.yields_iter _, DataColumn.yields_intoIter _, entries_of_wf h1⟩, DataColumn.indexValue_eq h1⟩

/-- **C65.** At every moment, the number of items that are left is within the bounds that the iterators give, and
counting and folding work on these items. -/
theorem C65_left {β : Type} (f : β → ℕ × ℚ → β) (b : β) (items : List (ℕ × ℚ)) :
    (∀ s : DataColumn.Iterator, Yields DataColumn.Iterator.next s items →
      s.sizeHint.1 ≤ items.length ∧ (∀ upper, s.sizeHint.2 = some upper → items.length ≤ upper) ∧
      s.count = items.length ∧ s.fold f b = items.foldl f b) ∧
    ∀ s : DataColumn.IntoIterator, Yields DataColumn.IntoIterator.next s items →
      s.sizeHint = (items.length, some items.length) ∧ s.count = items.length ∧ s.fold f b = items.foldl f b := by
  refine ⟨fun s hs => ?_, fun s hs => ?_⟩
  · match s with
    | .sparse ⟨none, o⟩ =>
      have h := yields_unique hs (yields_map (next := Chain.next SparseSliceIterator.next SparseOptionIterator.next)
        DataColumn.Iterator.sparse (fun _ => rfl) (yields_second (yields_sparseOption o.creator)))
      subst h
      rcases o with ⟨_ | a⟩ <;>
        simp [DataColumn.Iterator.sizeHint, DataColumn.Iterator.count, DataColumn.Iterator.fold, Chain.sizeHint,
          Chain.count, Chain.fold, optionFold]
    | .sparse ⟨some v, o⟩ =>
      have h := yields_unique hs (yields_map (next := Chain.next SparseSliceIterator.next SparseOptionIterator.next)
        DataColumn.Iterator.sparse (fun _ => rfl) (yields_chain (yields_slice_at v) (yields_sparseOption o.creator)))
      subst h
      rcases o with ⟨_ | a⟩ <;>
        simp [DataColumn.Iterator.sizeHint, DataColumn.Iterator.count, DataColumn.Iterator.fold, Chain.sizeHint,
          Chain.count, Chain.fold, optionFold, slice_fold, foldl_count]
    | .slack o =>
      have h := yields_unique hs (yields_map (next := optionNext) DataColumn.Iterator.slack (fun _ => rfl) (yields_option o))
      subst h
      cases o <;> simp [DataColumn.Iterator.sizeHint, DataColumn.Iterator.count, DataColumn.Iterator.fold, optionFold,
        optionSizeHint, optionCount]
    | .twoSlack ⟨none, o⟩ =>
      have h := yields_unique hs (yields_map (next := Chain.next optionNext optionNext) DataColumn.Iterator.twoSlack
        (fun _ => rfl) (yields_second (yields_option o)))
      subst h
      cases o <;> simp [DataColumn.Iterator.sizeHint, DataColumn.Iterator.count, DataColumn.Iterator.fold, optionFold,
        optionSizeHint, optionCount, Chain.sizeHint, Chain.count, Chain.fold]
    | .twoSlack ⟨some o, o'⟩ =>
      have h := yields_unique hs (yields_map (next := Chain.next optionNext optionNext) DataColumn.Iterator.twoSlack
        (fun _ => rfl) (yields_chain (yields_option o) (yields_option o')))
      subst h
      cases o <;> cases o' <;> simp [DataColumn.Iterator.sizeHint, DataColumn.Iterator.count,
        DataColumn.Iterator.fold, optionFold, optionSizeHint, optionCount, Chain.sizeHint, Chain.count, Chain.fold]
  · match s with
    | .sparse ⟨none, o⟩ =>
      have h := yields_unique hs (yields_map (next := Chain.next listNext optionNext)
        DataColumn.IntoIterator.sparse (fun _ => rfl) (yields_second (yields_option o)))
      subst h
      cases o <;>
        simp [DataColumn.IntoIterator.sizeHint, DataColumn.IntoIterator.count, DataColumn.IntoIterator.fold,
          Chain.sizeHint, Chain.count, Chain.fold, optionFold, optionCount, optionSizeHint]
    | .sparse ⟨some v, o⟩ =>
      have h := yields_unique hs (yields_map (next := Chain.next listNext optionNext)
        DataColumn.IntoIterator.sparse (fun _ => rfl) (yields_chain (yields_list v) (yields_option o)))
      subst h
      cases o <;>
        simp [DataColumn.IntoIterator.sizeHint, DataColumn.IntoIterator.count, DataColumn.IntoIterator.fold,
          Chain.sizeHint, Chain.count, Chain.fold, optionFold, optionCount, optionSizeHint]
    | .slack o =>
      have h := yields_unique hs (yields_map (next := optionNext) DataColumn.IntoIterator.slack (fun _ => rfl) (yields_option o))
      subst h
      cases o <;> simp [DataColumn.IntoIterator.sizeHint, DataColumn.IntoIterator.count, DataColumn.IntoIterator.fold,
        optionFold, optionSizeHint, optionCount]
    | .twoSlack ⟨none, o⟩ =>
      have h := yields_unique hs (yields_map (next := Chain.next optionNext optionNext) DataColumn.IntoIterator.twoSlack
        (fun _ => rfl) (yields_second (yields_option o)))
      subst h
      cases o <;> simp [DataColumn.IntoIterator.sizeHint, DataColumn.IntoIterator.count, DataColumn.IntoIterator.fold,
        optionFold, optionSizeHint, optionCount, Chain.sizeHint, Chain.count, Chain.fold]
    | .twoSlack ⟨some o, o'⟩ =>
      have h := yields_unique hs (yields_map (next := Chain.next optionNext optionNext) DataColumn.IntoIterator.twoSlack
        (fun _ => rfl) (yields_chain (yields_option o) (yields_option o')))
      subst h
      cases o <;> cases o' <;> simp [DataColumn.IntoIterator.sizeHint, DataColumn.IntoIterator.count,
        DataColumn.IntoIterator.fold, optionFold, optionSizeHint, optionCount, Chain.sizeHint, Chain.count, Chain.fold]

/-- There is one list of items. -/
theorem C65_unique {S α : Type} (next : S → Option α × S) (s : S) (l l' : List α) (h : Yields next s l)
    (h' : Yields next s l') : l = l' := yields_unique h h'

/-- Columns of other kinds: sparse ones, which graphs have as well, dense ones by reference, and those of the
identity. -/
theorem C65_kinds (sparse : SVec ℕ) (h : SVec.WF sparse) (dense : List ℚ) (index : ℕ) :
    (Yields SparseSliceIterator.next (sparseIter sparse) sparse ∧ Yields listNext (sparseIntoIter sparse) sparse ∧
      EntriesOf (findValue sparse) sparse) ∧
    (∃ items, Yields DenseSliceIterator.next (denseIter dense) items ∧
      EntriesOf (fun i => (denseValue dense i).getD 0) items) ∧
    (∃ items, Yields optionNext (identityIter index) items ∧
      EntriesOf (fun i => identityValue index i) items) := by
  refine ⟨⟨yields_slice _, yields_list _, ?_⟩, ⟨_, yields_dense _, ?_⟩, ⟨_, yields_option _, ?_⟩⟩
  · rw [funext (findValue_eq h)]
    exact entries_of_wf h
  · obtain ⟨h1, h2⟩ := denseEntries_entries dense 0
    refine ⟨h1, fun i x => ?_⟩
    rw [h2]
    simp [denseValue, List.getD_eq_getElem?_getD]
  · refine ⟨by simp [identityIter], fun i x => ?_⟩
    simp only [identityIter, identityValue, Option.toList_some, List.mem_singleton, Prod.mk.injEq]
    constructor
    · rintro ⟨rfl, rfl⟩
      simp
    · rintro ⟨h1, h2⟩
      split_ifs at h1 with hi
      · exact ⟨hi, h1.symm⟩
      · exact absurd h1.symm h2

/-- A unit column of the identity, as a column of a problem, if the index is in range. -/
theorem C65_identity (i len : ℕ) (h : i < len) : ∃ column, DataColumn.identity i len = .ok column ∧
    Yields DataColumn.Iterator.next column.iter [(i, 1)] :=
  ⟨_, if_pos h, DataColumn.yields_iter _⟩

/-- A dense column that is iterated over by value gives its zeros as well. -/
theorem C65_not_dense : ∃ (dense : List ℚ) (items : List (ℕ × ℚ)),
    Yields (enumerateNext listNext) (denseIntoIter dense) items ∧
      ¬ EntriesOf (fun i => (denseValue dense i).getD 0) items := by
  refine ⟨[3, 0, 1], _, yields_enumerate _ 0, fun h => ?_⟩
  have := (h.mem 1 0).1 (by decide +kernel)
  exact this.2 rfl

/-- The column of the third variable, with its bound, and the range slack. -/
example : Yields DataColumn.Iterator.next (Example.data.column 2).iter [(0, 1), (1, 2), (2, 1), (3, 3), (6, 1)] ∧
    Yields DataColumn.IntoIterator.next (Example.data.column 3).intoIter [(2, 1), (7, 1)] ∧
    (Example.data.column 2).indexValue 6 = 1 :=
  ⟨DataColumn.yields_iter _, DataColumn.yields_intoIter _, by decide +kernel⟩

example : ∃ items, Yields DataColumn.Iterator.next (Example.data.column 2).iter items ∧
    Yields DataColumn.IntoIterator.next (Example.data.column 2).intoIter items ∧
    EntriesOf (matrixColumn Example.data.toProvider.toLP.A ⟨2, by decide⟩) items :=
  (C65_columns _ Example.data_valid ⟨2, by decide⟩).1

example : (((Example.data.column 2).intoFiltered [1]).indexValue 5) = 1 := by decide +kernel

/-- The column of the third variable has five entries, and the bounds that are given say less by reference. -/
example : (Example.data.column 2).intoIter.sizeHint = (5, some 5) ∧ (Example.data.column 2).iter.sizeHint = (0, none) ∧
    (Example.data.column 2).iter.count = 5 ∧ (Example.data.column 2).iter.fold (fun total p => total + p.2) 0 = 8 :=
  ⟨by decide +kernel, by decide +kernel, by decide +kernel, by decide +kernel⟩

end Relp
