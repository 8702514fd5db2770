import Verif.Model.Sparse
import Mathlib.Data.List.Sort
import Mathlib.Data.Fin.Tuple.Basic

/-!
# Error values, removal of indices, providers
-/

namespace Relp

/-- Places where the Rust program aborts. -/
inductive Panic
  /-- `panic!("Artificial cost can not be unbounded.")` (phase_one.rs:151) -/
  | artificialUnbounded
  /-- `expect("Pivot value can't be zero.")` (carry/mod.rs:303, basis_inverse_rows.rs:48) or
  `.get(pivot_row_index).unwrap()` (pivot_rule.rs:293) -/
  | pivotZero
  /-- `self.gamma[*j].as_ref().unwrap()` (pivot_rule.rs:239) -/
  | missingWeight
  /-- subtraction of `usize`s below zero -/
  | underflow
  /-- `row.next().unwrap()` on an empty row (basis_inverse_rows.rs:168) -/
  | emptyRow
  /-- `find(..).unwrap()` in `variable_value` (tableau/mod.rs:171) -/
  | notInBasis
  /-- an index outside of a vector -/
  | indexOutOfBounds
  /-- `min_by_key(..).unwrap()` without any candidate (pivoting.rs:80): singular matrix -/
  | singular
  /-- division of exact numbers by zero -/
  | divisionByZero
  /-- a failing `debug_assert!`, in a debug build only (`Model/Debug.lean`) -/
  | debugAssertion
  deriving DecidableEq, Repr

/-- Outcome of a computation that does not return a value. -/
inductive Fault
  /-- the program aborts -/
  | panic (p : Panic)
  /-- the fuel of a `loop {}` is used up (no counterpart in the program: it keeps running) -/
  | outOfFuel
  deriving DecidableEq, Repr

/-- Results of modelled computations. -/
abbrev Res (α : Type) := Except Fault α

/-- Abort. -/
def panic {α : Type} (p : Panic) : Res α := .error (.panic p)

section Removal

variable {m : ℕ}

/-- The rows that remain after deletion of `rows`, in order. -/
def kept (rows : List (Fin m)) : List (Fin m) := (List.finRange m).filter (· ∉ rows)

/-- Number of rows that remain. -/
abbrev keptLen (rows : List (Fin m)) : ℕ := (kept rows).length

/-- `index_utils::remove_indices(vec, rows)` and `DenseVector::remove_indices` (dense.rs:141-149):
delete the elements at the given positions. -/
def removeIndices {α : Type} (rows : List (Fin m)) (v : Fin m → α) : Fin (keptLen rows) → α :=
  fun i => v ((kept rows).get i)

theorem mem_kept {rows : List (Fin m)} {i : Fin m} : i ∈ kept rows ↔ i ∉ rows := by
  simp [kept]

/-- `SparseVector::remove_indices` (sparse.rs:149-158), which calls
`index_utils::remove_sparse_indices`: delete the tuples with the given indices, and renumber the
others to their position among the remaining indices. -/
def removeSparseIndices (rows : List (Fin m)) (v : Sparse m) : Sparse (keptLen rows) :=
  v.filterMap fun p =>
    if h : p.1 ∈ rows then none
    else some (⟨(kept rows).idxOf p.1, List.idxOf_lt_length_of_mem (mem_kept.2 h)⟩, p.2)

end Removal

/-- `MatrixProvider` (matrix_provider/mod.rs:37-134), reduced to what the solver uses: columns,
costs and right-hand side of `minimise c x, A x = b, x ≥ 0`, and the `IntoFilteredColumn`
conversion of its columns (filter/mod.rs) that `RemoveRows` uses. -/
structure Provider (m n : ℕ) where
  /-- `column` -/
  column : Fin n → Sparse m
  /-- `cost_value` -/
  cost : Fin n → ℚ
  /-- `right_hand_side` -/
  rhs : Fin m → ℚ
  /-- `column(j).into_filtered(rows)`; by default the stored tuples are filtered
  (column/mod.rs, `IntoFilteredColumn for SparseColumn`). -/
  filteredColumn : (rows : List (Fin m)) → Fin n → Sparse (keptLen rows) :=
    fun rows j => removeSparseIndices rows (column j)

/-- `RemoveRows` (filter/generic_wrapper.rs:224-284) as a `MatrixProvider`. -/
def Provider.removeRows {m n : ℕ} (P : Provider m n) (rows : List (Fin m)) :
    Provider (keptLen rows) n where
  column := P.filteredColumn rows
  cost := P.cost
  rhs := removeIndices rows P.rhs

/-- `BasisInverse` (carry/mod.rs:69-169) and, through `removeBasis`, the choice between the two
versions of `from_artificial_remove_rows` (carry/mod.rs:527 and 673). -/
class BasisInverse (BI : ℕ → Type) where
  /-- `ColumnComputationInfo` -/
  Info : ℕ → Type
  /-- `ColumnComputationInfo::column`, `into_column` -/
  infoColumn : {m : ℕ} → Info m → Sparse m
  /-- `identity` -/
  identity : (m : ℕ) → Res (BI m)
  /-- `invert` -/
  invert : {m : ℕ} → (Fin m → Sparse m) → Res (BI m)
  /-- `change_basis`; returns also the column -/
  changeBasis : {m : ℕ} → BI m → Fin m → Info m → Res (BI m × Sparse m)
  /-- `left_multiply_by_basis_inverse` -/
  leftMultiply : {m : ℕ} → BI m → Sparse m → Res (Info m)
  /-- `right_multiply_by_basis_inverse` -/
  rightMultiply : {m : ℕ} → BI m → Sparse m → Res (Sparse m)
  /-- `generate_element` -/
  generateElement : {m : ℕ} → BI m → Fin m → Sparse m → Res (Option ℚ)
  /-- `should_refactor` -/
  shouldRefactor : {m : ℕ} → BI m → Bool
  /-- `basis_inverse_row` -/
  basisInverseRow : {m : ℕ} → BI m → Fin m → Res (Sparse m)
  /-- The basis inverse after deletion of rows: `BI::invert(..)` of the given remaining columns
  (carry/mod.rs:542) or `remove_basis_part` (carry/mod.rs:689). -/
  removeBasis : {m : ℕ} → (rows : List (Fin m)) → BI m →
    (Fin (keptLen rows) → Sparse (keptLen rows)) → Res (BI (keptLen rows))

end Relp
