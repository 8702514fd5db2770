import Verif.Spec.Program

/-!
# Specification: linear programs without some of their constraints
-/

namespace Relp.Spec.Program

open Matrix

variable {m n : ℕ} (P : Program m n)

/-- All bounds hold, and all constraints except for those with an index in `skip`. -/
def FeasibleExcept (skip : List ℕ) (x : Fin n → ℚ) : Prop :=
  (∀ i : Fin m, i.val ∉ skip → (P.relation i).Holds (P.b i) ((P.A *ᵥ x) i)) ∧
    ∀ j, (∀ l ∈ P.lower j, l ≤ x j) ∧ ∀ u ∈ P.upper j, x j ≤ u

end Relp.Spec.Program
