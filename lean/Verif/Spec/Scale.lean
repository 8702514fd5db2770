import Verif.Model.Scale
import Verif.Model.ScaleSearch
import Mathlib.NumberTheory.Padics.PadicVal.Basic

/-!
# Specification: scalings
-/

namespace Relp

/-- A nonzero number in a problem: a right-hand side, a cost, a bound or a coefficient. -/
def GeneralForm.Number (G : GeneralForm) (v : ℚ) : Prop :=
  v ≠ 0 ∧ (v ∈ G.b ∨ (∃ w ∈ G.vars, v = w.cost ∨ w.lowerBound = some v ∨ w.upperBound = some v) ∨
    ∃ column ∈ G.constraints.data, ∃ p ∈ column, p.2 = v)

/-- How often the prime `p` occurs in the numerators and denominators of the right-hand sides, costs, bounds and
coefficients of a problem. -/
def GeneralForm.primeCount (p : ℕ) (G : GeneralForm) : ℤ :=
  (G.b.map fun v => |padicValRat p v|).sum +
    (G.vars.map fun w => |padicValRat p w.cost| + (w.lowerBound.elim 0 fun v => |padicValRat p v|) +
      (w.upperBound.elim 0 fun v => |padicValRat p v|)).sum +
    (G.constraints.data.map fun column => (column.map fun q => |padicValRat p q.2|).sum).sum

namespace Scaling

/-- The nonzero numbers of a problem are factorised to powers of primes, in increasing order of the primes. -/
structure Exact (factorize : ℚ → Factorization) (G : GeneralForm) : Prop where
  sorted : ∀ v, G.Number v → (factorize v).Pairwise fun a b => a.1 < b.1
  prime : ∀ v, G.Number v → ∀ q ∈ factorize v, q.1.Prime
  nonzero : ∀ v, G.Number v → ∀ q ∈ factorize v, q.2 ≠ 0
  product : ∀ v, G.Number v → |v| = ((factorize v).map fun q => (q.1 : ℚ) ^ q.2).prod

/-- The scaling with the inverses of its column factors. -/
def invertColumns (s : Scaling) : Scaling := { s with columnFactors := s.columnFactors.map (·⁻¹) }

/-- The factor of a row. -/
def row (s : Scaling) (i : ℕ) : ℚ := s.rowFactors.getD i 1

/-- The factor of a column. -/
def column (s : Scaling) (j : ℕ) : ℚ := s.columnFactors.getD j 1

/-- There is a factor for each row and each column of a problem, and all are positive. -/
structure Positive (s : Scaling) (G : GeneralForm) : Prop where
  rows : s.rowFactors.length = G.constraintTypes.length
  columns : s.columnFactors.length = G.vars.length
  cost : 0 < s.costFactor
  row : ∀ r ∈ s.rowFactors, 0 < r
  column : ∀ c ∈ s.columnFactors, 0 < c

/-- The scalings have the same factors, apart from one row. -/
def OtherRow (s t : Scaling) : Prop :=
  t.costFactor = s.costFactor ∧ t.columnFactors = s.columnFactors ∧ ∃ i, ∀ k ≠ i, t.row k = s.row k

/-- The scalings have the same factors, apart from one column. -/
def OtherColumn (s t : Scaling) : Prop :=
  t.costFactor = s.costFactor ∧ t.rowFactors = s.rowFactors ∧ ∃ j, ∀ k ≠ j, t.column k = s.column k

/-- The scalings have the same factors, apart from that of the cost row. -/
def OtherCost (s t : Scaling) : Prop :=
  t.rowFactors = s.rowFactors ∧ t.columnFactors = s.columnFactors

end Scaling

end Relp
