import Verif.Model.GeneralForm

/-!
# Model of scaling

Models `/repo/src/data/linear_program/general_form/presolve/scale/mod.rs`. Division of numbers is total here;
in the code, division by zero aborts, but scalings can only be made by `scale`, and their factors are
positive.
-/

namespace Relp

/-- `Scaling` (scale/mod.rs:88-96). -/
structure Scaling where
  costFactor : ℚ
  rowFactors : List ℚ
  columnFactors : List ℚ
  deriving DecidableEq

namespace Scaling

/-- `Scaling::scale_back` for a vector (scale/mod.rs:104-114). -/
def scaleBackVector (s : Scaling) (vector : SVec ℕ) : Option (SVec ℕ) :=
  vector.mapM fun p => do
    let factor ← s.columnFactors[p.1]?
    pure (p.1, p.2 * factor)

/-- Body of the loop over columns in `scale` (scale/mod.rs:141-157). -/
def scaleColumn (s : Scaling) (op inverseOp : ℚ → ℚ → ℚ) (columnFactor : ℚ) (column : SVec ℕ) (v : Variable) :
    Option (SVec ℕ × Variable) := do
  let column ← column.mapM fun p => do
    let rowFactor ← s.rowFactors[p.1]?
    pure (p.1, op p.2 (rowFactor * columnFactor))
  pure (column, { v with
    cost := op v.cost (s.costFactor * columnFactor)
    lowerBound := v.lowerBound.map fun bound => inverseOp bound columnFactor
    upperBound := v.upperBound.map fun bound => inverseOp bound columnFactor })

/-- The loop over columns in `scale` (scale/mod.rs:140-158), from column `j` on. -/
def scaleColumns (s : Scaling) (op inverseOp : ℚ → ℚ → ℚ) :
    (j : ℕ) → List (SVec ℕ) → List Variable → Option (List (SVec ℕ) × List Variable)
  | _, [], vars => some ([], vars)
  | _, _ :: _, [] => none
  | j, column :: columns, v :: vars => do
    let columnFactor ← s.columnFactors[j]?
    let (column, v) ← s.scaleColumn op inverseOp columnFactor column v
    let (columns, vars) ← s.scaleColumns op inverseOp (j + 1) columns vars
    pure (column :: columns, v :: vars)

/-- The loop over right-hand sides in `scale` (scale/mod.rs:161-167), from row `i` on. -/
def scaleRows (s : Scaling) (op : ℚ → ℚ → ℚ) :
    (i : ℕ) → List ℚ → List ConstraintType → Option (List ℚ × List ConstraintType)
  | _, [], types => some ([], types)
  | _, _ :: _, [] => none
  | i, b :: bs, t :: types => do
    let rowFactor ← s.rowFactors[i]?
    let t := match t with
      | .range r => .range (op r rowFactor)
      | t => t
    let (bs, types) ← s.scaleRows op (i + 1) bs types
    pure (op b rowFactor :: bs, t :: types)

/-- `scale` (scale/mod.rs:122-167). Nothing if an index is out of range. -/
def apply (s : Scaling) (op inverseOp : ℚ → ℚ → ℚ) (G : GeneralForm) : Option GeneralForm := do
  let (columns, vars) ← s.scaleColumns op inverseOp 0 G.constraints.data G.vars
  let (b, types) ← s.scaleRows op 0 G.b G.constraintTypes
  pure { G with
    constraints := { G.constraints with data := columns }
    vars := vars
    b := b
    constraintTypes := types }

/-- Applying a scaling to a problem, as in `Scalable::scale` (scale/rational/mod.rs:60). -/
def scale (s : Scaling) (G : GeneralForm) : Option GeneralForm := s.apply (· * ·) (· / ·) G

/-- `Scalable::scale_back` (scale/rational/mod.rs:65-67). -/
def scaleBack (s : Scaling) (G : GeneralForm) : Option GeneralForm := s.apply (· / ·) (· * ·) G

end Scaling

end Relp
