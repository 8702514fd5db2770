import Mathlib.Logic.Function.Iterate
import Mathlib.Data.Rat.Defs
import Mathlib.Data.Matrix.Mul

/-!
# Specification: what an iterator gives
-/

namespace Relp.Spec

/-- Asking an iterator for items gives these, in order, and none after that, however often it is asked. -/
inductive Yields {S α : Type} (next : S → Option α × S) : S → List α → Prop
  | done {s : S} : (∀ n, (next ((fun s => (next s).2)^[n] s)).1 = none) → Yields next s []
  | item {s t : S} {a : α} {l : List α} : next s = (some a, t) → Yields next t l → Yields next s (a :: l)

/-- These are the entries of a column that are not zero, once each and in the order of their rows. -/
structure EntriesOf (column : ℕ → ℚ) (items : List (ℕ × ℚ)) : Prop where
  sorted : (items.map (·.1)).Pairwise (· < ·)
  mem : ∀ i x, (i, x) ∈ items ↔ column i = x ∧ x ≠ 0

/-- Column `j` of a matrix, with zeros after the last row. -/
def matrixColumn {m n : ℕ} (A : Matrix (Fin m) (Fin n) ℚ) (j : Fin n) (i : ℕ) : ℚ :=
  if h : i < m then A ⟨i, h⟩ j else 0

end Relp.Spec
