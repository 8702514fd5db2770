import Verif.Model.Vector
import Mathlib.Data.Matrix.Mul

/-!
# Specification: dense vectors and matrices as meaning of the sparse ones
-/

namespace Relp.Spec

/-- The sparse vector is a valid representation (indices strictly increasing and in range, no stored
zeros) of the dense vector `d`. -/
structure Represents (v : SparseVector) (d : List ℚ) : Prop where
  sorted : v.data.Pairwise fun p q => p.1 < q.1
  nonzero : ∀ p ∈ v.data, p.2 ≠ 0
  inRange : ∀ p ∈ v.data, p.1 < v.len
  length : v.len = d.length
  /-- Stored tuples are the nonzero elements. -/
  stored : ∀ i x, (i, x) ∈ v.data ↔ d[i]? = some x ∧ x ≠ 0

/-- Delete the elements at the given positions. -/
def deleteAt {α : Type} (indices : List ℕ) (d : List α) : List α :=
  (List.range d.length).filterMap fun i => if i ∈ indices then none else d[i]?

/-- Inner product of dense vectors. -/
def inner (d e : List ℚ) : ℚ := (List.zipWith (· * ·) d e).sum

/-- The sparse matrix is a valid representation of the dense matrix `D`, a list of as many rows as the
major dimension, each of the length of the minor dimension. -/
structure RepresentsMatrix (A : SparseMatrix) (D : List (List ℚ)) : Prop where
  major : A.major = D.length
  length : A.data.length = A.major
  rows : ∀ (i : ℕ) v d, A.data[i]? = some v → D[i]? = some d → Represents ⟨v, A.minor⟩ d

/-- Transposition of a dense matrix of which the rows have length `n`. -/
def transpose (n : ℕ) (D : List (List ℚ)) : List (List ℚ) :=
  (List.range n).map fun j => D.map fun row => row.getD j 0

end Relp.Spec
