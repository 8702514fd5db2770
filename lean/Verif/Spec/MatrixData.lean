import Verif.Model.MatrixData
import Verif.Spec.Program
import Verif.Spec.Provider

/-!
# Specification: the linear program that a `MatrixData` stands for
-/

namespace Relp

namespace MatrixData

/-- The type of constraint `i`: first equalities, then ranges, then `≤`, then `≥`. -/
def relationOf (M : MatrixData) (i : ℕ) : ConstraintType :=
  if i < M.nrEquality then .equal
  else if i < M.nrEquality + M.nrRange then .range (M.ranges.getD (i - M.nrEquality) 0)
  else if i < M.nrEquality + M.nrRange + M.nrUpper then .less
  else .greater

/-- The linear program that the fields describe: non-negative variables, optional upper bounds. -/
def toProgram (M : MatrixData) :
    Spec.Program (M.nrEquality + M.nrRange + M.nrUpper + M.nrLower) M.vars.length where
  A := Matrix.of fun i j => SVec.val (M.constraints.data.getD j []) i
  relation i := M.relationOf i
  b i := M.b.getD i 0
  lower _ := some 0
  upper j := M.vars[j].upperBound
  c j := M.vars[j].cost
  constant := 0

/-- What `new` asks for (matrix_data.rs:162-170, 178-182): the dimensions match, the columns are valid;
and `b`, the ranges and the upper bounds are non-negative. -/
structure Valid (M : MatrixData) : Prop where
  dataLength : M.constraints.data.length = M.vars.length
  major : M.constraints.major = M.vars.length
  wf : ∀ v ∈ M.constraints.data, SVec.WF v
  inRange : ∀ v ∈ M.constraints.data, ∀ p ∈ v,
    p.1 < M.nrEquality + M.nrRange + M.nrUpper + M.nrLower
  bLength : M.b.length = M.nrEquality + M.nrRange + M.nrUpper + M.nrLower
  rangesLength : M.ranges.length = M.nrRange
  b_nonneg : ∀ x ∈ M.b, 0 ≤ x
  ranges_nonneg : ∀ r ∈ M.ranges, 0 ≤ r
  upper_nonneg : ∀ v ∈ M.vars, ∀ u ∈ v.upperBound, 0 ≤ u

end MatrixData

end Relp
