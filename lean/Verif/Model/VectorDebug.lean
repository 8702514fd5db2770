import Verif.Model.DebugForm

/-!
# Model of vectors and matrices in a debug build

The definitions here are those of `Model/Vector.lean` with the checks (`debug_assert!`) that a debug build makes
in them. `remove_indices` of a sparse vector, `new` and `concatenate_horizontally` of a matrix are in
`Model/DebugForm.lean`.
-/

namespace Relp

namespace SparseVector

/-- `new` (sparse.rs:90-103). -/
def newDebug (data : SVec ℕ) (len : ℕ) : Res SparseVector := do
  debugAssert (decide (∀ p ∈ data, p.1 < len))
  debugAssert (decide (data.Pairwise fun p q => p.1 ≤ q.1))
  debugAssert (decide (∀ p ∈ data, p.2 ≠ 0))
  debugAssert (len ≠ 0)
  debugAssert (data.length ≤ len)
  pure ⟨data, len⟩

/-- `from_iter` (sparse.rs:185-197). -/
def fromListDebug (items : List ℚ) : Res SparseVector :=
  newDebug (fromList items).data (fromList items).len

/-- `standard_basis_vector` (sparse.rs:231-240). -/
def standardBasisDebug (i len : ℕ) : Res SparseVector := do
  debugAssert (i < len)
  newDebug (SVec.standardBasis i) len

/-- `push_value` (sparse.rs:114-118). -/
def pushValueDebug (v : SparseVector) (value : ℚ) : Res SparseVector := do
  debugAssert (value ≠ 0)
  pure (v.pushValue value)

/-- `set` (sparse.rs:128-136). -/
def setDebug (v : SparseVector) (i : ℕ) (value : ℚ) : Res SparseVector := do
  debugAssert (i < v.len)
  debugAssert (value ≠ 0)
  pure (v.set i value)

/-- `get` (sparse.rs:138-142). -/
def getDebug (v : SparseVector) (i : ℕ) : Res (Option ℚ) := do
  debugAssert (i < v.len)
  pure (v.get i)

/-- `add_multiple_of_row` (sparse.rs:258-291). -/
def addMultipleDebug (v : SparseVector) (multiple : ℚ) (other : SparseVector) : Res SparseVector := do
  debugAssert (other.len = v.len)
  pure (v.addMultiple multiple other)

/-- `shift_value` (sparse.rs:300-320). -/
def shiftValueDebug (v : SparseVector) (i : ℕ) (value : ℚ) : Res SparseVector := do
  debugAssert (i < v.len)
  pure (v.shiftValue i value)

/-- `element_wise_multiply` (sparse.rs:323-332). -/
def multiplyDebug (v : SparseVector) (value : ℚ) : Res SparseVector := do
  debugAssert (value ≠ 0)
  pure (v.multiply value)

/-- `element_wise_divide` (sparse.rs:335-344). -/
def divideDebug (v : SparseVector) (value : ℚ) : Res SparseVector := do
  debugAssert (value ≠ 0)
  pure (v.divide value)

/-- `inner_product_with_dense` (sparse.rs:362-372). -/
def innerProductWithDenseDebug (v : SparseVector) (other : List ℚ) : Res ℚ := do
  debugAssert (other.length = v.len)
  pure (v.innerProductWithDense other)

end SparseVector

namespace SparseMatrix

/-- `from_minor_ordered_tuples` (matrix.rs:421-442). -/
def fromMinorOrderedDebug (data : List (SVec ℕ)) (currentMinor : ℕ) : Res SparseMatrix := do
  debugAssert (decide (∀ v ∈ data, v.Pairwise fun p q => p.1 ≤ q.1))
  debugAssert (decide (∀ v ∈ data, ∀ p ∈ v, p.1 < currentMinor))
  newDebug (fromMinorOrdered data currentMinor).data currentMinor data.length

/-- `remove_major_indices` (matrix.rs:479-488). -/
def removeMajorDebug (A : SparseMatrix) (indices : List ℕ) : Res SparseMatrix := do
  debugAssert (indices.length ≤ A.major)
  debugAssert (decide (indices.Pairwise (· ≤ ·)))
  debugAssert (indices.toFinset.card = indices.length)
  debugAssert (decide (∀ i ∈ indices, i < A.major))
  pure (A.removeMajor indices)

/-- `remove_minor_indices` (matrix.rs:495-506). -/
def removeMinorDebug (A : SparseMatrix) (indices : List ℕ) : Res SparseMatrix := do
  debugAssert (indices.length ≤ A.minor)
  debugAssert (decide (indices.Pairwise (· ≤ ·)))
  debugAssert (indices.toFinset.card = indices.length)
  debugAssert (decide (∀ i ∈ indices, i < A.minor))
  pure (A.removeMinor indices)

/-- `inner_set_value` (matrix.rs:522-530). -/
def setValueDebug (A : SparseMatrix) (major minor : ℕ) (value : ℚ) : Res SparseMatrix := do
  debugAssert (major < A.major)
  debugAssert (minor < A.minor)
  pure (A.setValue major minor value)

/-- `identity` (matrix.rs:546-556). -/
def identityDebug (len : ℕ) : Res SparseMatrix := do
  debugAssert (len ≠ 0)
  newDebug (identity len).data len len

end SparseMatrix

end Relp
