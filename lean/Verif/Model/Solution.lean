import Verif.Model.GeneralForm
import Mathlib.Data.List.Dedup

/-!
# Model of comparing solutions

Models `/repo/src/data/linear_program/solution.rs`. `Solution` itself is in `Model/GeneralForm.lean`. A
`HashMap` is the list of its keys, each once and in an order that does not matter, and the values that they have.
-/

namespace Relp.GeneralForm

/-- `new` (solution.rs:33-38). -/
def Solution.new (objective : ℚ) (solutionValues : List (String × ℚ)) : Solution := ⟨objective, solutionValues⟩

/-- The keys of `solution_values.iter().cloned().collect::<HashMap<_, _>>()` (solution.rs:56-57). -/
def Solution.keys (s : Solution) : List String := (s.values.map (·.1)).dedup

/-- `HashMap::get`: the last value that was inserted. -/
def Solution.get (s : Solution) (name : String) : Option ℚ :=
  (s.values.reverse.find? fun p => p.1 = name).map (·.2)

/-- `is_probably_equal_to` (solution.rs:47-78). `round` is the rounding of the quotient to a floating-point number;
`minEqual` is one that is finite. -/
def Solution.isProbablyEqualTo (round : ℚ → ℚ) (this other : Solution) (minEqual : ℚ) : Bool :=
  if this.objectiveValue ≠ other.objectiveValue then false
  else if this.values.length ≠ other.values.length then false
  else if ¬ (this.keys.length = other.keys.length ∧ ∀ k ∈ this.keys, k ∈ other.keys) then false
  else if this.values.length < 10 then true
  else
    let nrEqual := (this.keys.filter fun name => this.get name = other.get name).length
    decide (round (nrEqual / this.values.length) > minEqual)

end Relp.GeneralForm
