import Mathlib.Data.Rat.Defs
import Mathlib.Algebra.Order.Ring.Rat
import Mathlib.Data.Fin.Basic
import Mathlib.Order.Fin.Basic
import Mathlib.Algebra.BigOperators.Group.List.Basic

/-!
# Model of the sparse vector

Models `/repo/src/data/linear_algebra/vector/sparse.rs`.

`Sparse<F, C>` holds a `Vec<(usize, F)>` and a length.  The model is the list of tuples in storage
order; the index type `ι` is `Fin m` when the length is `m` (so the length is part of the type) or
`ℕ` where the code works with bare index lists.  Numbers are exact rationals.
`binary_search_by_key` of the standard library is modelled by its contract on sorted input
(position of the matching tuple, or the insertion point).
-/

namespace Relp

/-- `Sparse<F, C>` (sparse.rs:28-35): tuples in storage order. The length is in the index type. -/
abbrev SVec (ι : Type) := List (ι × ℚ)

/-- A sparse vector of length `m` (sparse.rs:28-35). -/
abbrev Sparse (m : ℕ) := SVec (Fin m)

namespace SVec

variable {ι : Type} [LinearOrder ι]

/-- `get` (sparse.rs:138-142): `None` for an index that is not stored. -/
def get? (v : SVec ι) (i : ι) : Option ℚ :=
  match v with
  | [] => none
  | (j, x) :: v => if j = i then some x else get? v i

/-- `set_zero` (sparse.rs:42-46): delete the tuple with this index, if there is one. -/
def setZero (v : SVec ι) (i : ι) : SVec ι :=
  match v with
  | [] => []
  | (j, x) :: v => if j = i then v else (j, x) :: setZero v i

/-- `set` (sparse.rs:128-136): overwrite the stored value, or insert at the insertion point. -/
def set (v : SVec ι) (i : ι) (value : ℚ) : SVec ι :=
  match v with
  | [] => [(i, value)]
  | (j, x) :: v =>
    if j < i then (j, x) :: set v i value
    else if j = i then (i, value) :: v
    else (i, value) :: (j, x) :: v

/-- `shift_value` (sparse.rs:300-320). -/
def shiftValue (v : SVec ι) (i : ι) (value : ℚ) : SVec ι :=
  if value ≠ 0 then
    match get? v i with
    | some x => if x = -value then setZero v i else set v i (x + value)
    | none => set v i value
  else v

/-- `add_multiple_of_row` (sparse.rs:258-291): merge of the two sorted tuple lists. The `while`
loop is the first branch, the `if`/`else` the other two, the trailing `for` the `[]` case. -/
def addMultiple (multiple : ℚ) : SVec ι → SVec ι → SVec ι
  | [], w => w.map fun p => (p.1, p.2 * multiple)
  | (i, x) :: v, [] => (i, x) :: addMultiple multiple v []
  | (i, x) :: v, (j, y) :: w =>
    if j < i then (j, y * multiple) :: addMultiple multiple ((i, x) :: v) w
    else if i = j then
      if x + y * multiple ≠ 0 then (i, x + y * multiple) :: addMultiple multiple v w
      else addMultiple multiple v w
    else (i, x) :: addMultiple multiple v ((j, y) :: w)
termination_by v w => v.length + w.length

/-- `element_wise_multiply` (sparse.rs:323-332), also `Mul<&F>` on rows as used at
basis_inverse_rows.rs:162-177. -/
def scale (v : SVec ι) (value : ℚ) : SVec ι := v.map fun p => (p.1, p.2 * value)

/-- `element_wise_divide` (sparse.rs:335-344). -/
def divide (v : SVec ι) (value : ℚ) : SVec ι := v.map fun p => (p.1, p.2 / value)

/-- `squared_norm` (sparse.rs:380-384). -/
def squaredNorm (v : SVec ι) : ℚ := (v.map fun p => p.2 * p.2).sum

/-- `sparse_inner_product` (sparse.rs:105-111): calls `index_utils::inner_product_slice_iter`, which
multiplies the values whose indices occur in both lists. -/
def innerProduct (v w : SVec ι) : ℚ :=
  (w.map fun p => match get? v p.1 with
    | some x => x * p.2
    | none => 0).sum

/-- Dense vector `sparse_inner_product` (dense.rs:101-112) and sparse `inner_product_with_dense`
(sparse.rs:362-372): sum of the dense values at the stored indices times the stored values. -/
def innerProductDense (v : SVec ι) (d : ι → ℚ) : ℚ := (v.map fun p => d p.1 * p.2).sum

/-- `standard_basis_vector` (sparse.rs:233-240) and the tuples of an `IdentityColumn`
(matrix_provider/column/identity.rs). -/
def standardBasis (i : ι) : SVec ι := [(i, 1)]

/-- `FromIterator` (sparse.rs:184-198): keep the nonzero items with their position. Here the items
are the entries of a dense vector of length `m`. -/
def ofDense {m : ℕ} (d : Fin m → ℚ) : Sparse m :=
  ((List.finRange m).filter fun i => d i ≠ 0).map fun i => (i, d i)

/-! ### Meaning -/

/-- The dense vector that a tuple list stands for. -/
def val (v : SVec ι) (i : ι) : ℚ := (v.map fun p => if p.1 = i then p.2 else 0).sum

/-- Validity of the representation: the `debug_assert`s of `new` (sparse.rs:90-95): strictly
increasing indices (in range by typing), no stored zeros. -/
structure WF (v : SVec ι) : Prop where
  sorted : v.Pairwise fun a b => a.1 < b.1
  nonzero : ∀ p ∈ v, p.2 ≠ 0

instance (v : SVec ι) : Decidable (WF v) :=
  decidable_of_iff ((v.Pairwise fun a b => a.1 < b.1) ∧ ∀ p ∈ v, p.2 ≠ 0)
    ⟨fun h => ⟨h.1, h.2⟩, fun h => ⟨h.1, h.2⟩⟩

end SVec

end Relp
