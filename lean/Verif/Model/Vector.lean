import Verif.Model.Sparse
import Mathlib.Data.List.Range

/-!
# Model of sparse and dense vectors with a length, and of sparse matrices

Models `/repo/src/data/linear_algebra/vector/{sparse,dense}.rs` and
`/repo/src/data/linear_algebra/matrix.rs`. Here indices are natural numbers and the length is a field,
as in the code; `Verif/Model/Sparse.lean` has the operations on the tuples.

The functions of the external crate `index_utils` are modelled by their documented effect:
`remove_indices` deletes the elements at the given positions, `remove_sparse_indices` deletes the
tuples with the given indices and renumbers the remaining ones to their position among the remaining
indices, `inner_product_slice_iter` multiplies the values of matching indices (`SVec.innerProduct`).

Violations of `debug_assert`s are not modelled: the theorems about these functions have the asserted
conditions as hypotheses.
-/

namespace Relp

/-- The indices below `n` that are not in `indices`, in order. -/
def keptIndices (indices : List ℕ) (n : ℕ) : List ℕ := (List.range n).filter (· ∉ indices)

/-- `index_utils::remove_indices`. -/
def removeListIndices {α : Type} (indices : List ℕ) (v : List α) : List α :=
  (v.zipIdx.filter fun p => p.2 ∉ indices).map (·.1)

/-- `index_utils::remove_sparse_indices`. -/
def removeSparseTuples (indices : List ℕ) (v : SVec ℕ) : SVec ℕ :=
  (v.filter fun p => p.1 ∉ indices).map fun p => ((keptIndices indices p.1).length, p.2)

/-- `Sparse<F, C>` (sparse.rs:28-35). -/
structure SparseVector where
  data : SVec ℕ
  len : ℕ

namespace SparseVector

/-- `extend` (sparse.rs:48-51). -/
def extend (v : SparseVector) (extraLen : ℕ) : SparseVector := { v with len := v.len + extraLen }

/-- `push_value` (sparse.rs:113-118). -/
def pushValue (v : SparseVector) (value : ℚ) : SparseVector where
  data := v.data ++ [(v.len, value)]
  len := v.len + 1

/-- `set` (sparse.rs:120-136). -/
def set (v : SparseVector) (i : ℕ) (value : ℚ) : SparseVector :=
  { v with data := SVec.set v.data i value }

/-- `get` (sparse.rs:138-142). -/
def get (v : SparseVector) (i : ℕ) : Option ℚ := SVec.get? v.data i

/-- `remove_indices` (sparse.rs:144-158). -/
def removeIndices (v : SparseVector) (indices : List ℕ) : SparseVector where
  data := removeSparseTuples indices v.data
  len := v.len - indices.length

/-- `from_iter` (sparse.rs:185-197). -/
def fromList (items : List ℚ) : SparseVector where
  data := (items.zipIdx.filter fun p => p.1 ≠ 0).map fun p => (p.2, p.1)
  len := items.length

/-- `standard_basis_vector` (sparse.rs:231-240). -/
def standardBasis (i len : ℕ) : SparseVector := ⟨SVec.standardBasis i, len⟩

/-- `add_multiple_of_row` (sparse.rs:242-291). -/
def addMultiple (v : SparseVector) (multiple : ℚ) (other : SparseVector) : SparseVector :=
  { v with data := SVec.addMultiple multiple v.data other.data }

/-- `shift_value` (sparse.rs:293-320). -/
def shiftValue (v : SparseVector) (i : ℕ) (value : ℚ) : SparseVector :=
  { v with data := SVec.shiftValue v.data i value }

/-- `element_wise_multiply` (sparse.rs:322-332). -/
def multiply (v : SparseVector) (value : ℚ) : SparseVector :=
  { v with data := SVec.scale v.data value }

/-- `element_wise_divide` (sparse.rs:334-344). -/
def divide (v : SparseVector) (value : ℚ) : SparseVector :=
  { v with data := SVec.divide v.data value }

/-- `sparse_inner_product` (sparse.rs:105-111). -/
def innerProduct (v : SparseVector) (column : SVec ℕ) : ℚ := SVec.innerProduct v.data column

/-- `inner_product_with_dense` (sparse.rs:362-372). -/
def innerProductWithDense (v : SparseVector) (other : List ℚ) : ℚ :=
  (v.data.map fun p => other.getD p.1 0 * p.2).sum

/-- `squared_norm` (sparse.rs:380-384). -/
def squaredNorm (v : SparseVector) : ℚ := SVec.squaredNorm v.data

end SparseVector

/-- `Dense::sparse_inner_product` (dense.rs:101-112). The other operations of a dense vector
(dense.rs) are those of a list. -/
def denseSparseInnerProduct (v : List ℚ) (column : SVec ℕ) : ℚ :=
  column.foldl (fun total p => total + v.getD p.1 0 * p.2) 0

/-! ### Matrices -/

/-- `SparseMatrix` (matrix.rs:23-30). The order (`RowMajor`, `ColumnMajor`) decides only whether the
major index is called row or column. -/
structure SparseMatrix where
  data : List (SVec ℕ)
  major : ℕ
  minor : ℕ

namespace SparseMatrix

/-- `from_minor_ordered_tuples` (matrix.rs:421-442): pass over the tuples, pushing each of them on the
vector of its minor index. -/
def fromMinorOrdered (data : List (SVec ℕ)) (currentMinor : ℕ) : SparseMatrix where
  data := data.zipIdx.foldl (fun majors minor =>
      minor.1.foldl (fun majors p => majors.modify p.1 (· ++ [(minor.2, p.2)])) majors)
    (List.replicate currentMinor [])
  major := currentMinor
  minor := data.length

/-- `concatenate_major_indices` (matrix.rs:464-472). -/
def concatenate (A B : SparseMatrix) : SparseMatrix where
  data := A.data ++ B.data
  major := A.major + B.major
  minor := A.minor

/-- `remove_major_indices` (matrix.rs:474-488). -/
def removeMajor (A : SparseMatrix) (indices : List ℕ) : SparseMatrix where
  data := removeListIndices indices A.data
  major := A.major - indices.length
  minor := A.minor

/-- `remove_minor_indices` (matrix.rs:490-506). -/
def removeMinor (A : SparseMatrix) (indices : List ℕ) : SparseMatrix where
  data := A.data.map (removeSparseTuples indices)
  major := A.major
  minor := A.minor - indices.length

/-- `inner_set_value` (matrix.rs:514-530). -/
def setValue (A : SparseMatrix) (major minor : ℕ) (value : ℚ) : SparseMatrix :=
  { A with data := A.data.modify major fun v => SVec.set v minor value }

/-- `change_row_signs` (matrix.rs:264-274), of a column-major matrix. -/
def changeMinorSigns (A : SparseMatrix) (rows : List ℕ) : SparseMatrix :=
  { A with data := A.data.map fun v => v.map fun p => if p.1 ∈ rows then (p.1, p.2 * -1) else p }

/-- `identity` (matrix.rs:546-556). -/
def identity (len : ℕ) : SparseMatrix where
  data := (List.range len).map fun i => [(i, 1)]
  major := len
  minor := len

end SparseMatrix

end Relp
