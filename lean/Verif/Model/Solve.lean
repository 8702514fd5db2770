import Verif.Model.Tableau

/-!
# Model of the two phases and of `solve_relaxation`

Models `/repo/src/algorithm/two_phase/phase_one.rs`, `phase_two.rs` and `mod.rs`.
The `loop {}`s take fuel; `Fault.outOfFuel` means that the loop is still running.
-/

namespace Relp

open BasisInverse

/-- `OptimizationResult` (algorithm/mod.rs:43-47). -/
inductive OptimizationResult (n : ℕ)
  | infeasible
  | finiteOptimum (x : SVec (Fin n))
  | unbounded
  deriving DecidableEq

/-- `Rank` (phase_one.rs:210-215). -/
inductive Rank (m : ℕ)
  | full
  | deficient (rows : List (Fin m))

/-- `RankedFeasibilityResult` (phase_one.rs:181-202). -/
inductive Feasibility (BI : ℕ → Type) (m N : ℕ)
  | feasible (rank : Rank m) (carry : Carry BI m N) (basis : Finset (Fin N))
  | infeasible

section

variable {BI : ℕ → Type} [BasisInverse BI] {m n N : ℕ}

/-- Body of the `for` loop in `remove_artificial_basis_variables` (phase_one.rs:242-273). -/
def removeArtificialStep (t : Tableau BI m N) (pivotRow : Fin m) (artificial : Fin N) :
    Res (Tableau BI m N × Option (Fin m)) := do
  let constraintValue ← t.variableValue artificial
  let columnAndCost ←
    if constraintValue ≠ 0 then
      findM (fun p => do
          let element ← t.generateElement pivotRow p.1
          pure (match element with
            | some e => decide (e > 0)
            | none => false))
        (t.candidates.filter fun p => p.2 = 0)
    else
      findM (fun p => do
          let element ← t.generateElement pivotRow p.1
          pure (match element with
            | some e => decide (e ≠ 0)
            | none => false))
        t.candidates
  match columnAndCost with
  | some (pivotColumn, cost) =>
    let info ← t.generateColumn pivotColumn
    let (t, _) ← t.bringIntoBasis pivotColumn pivotRow info cost
    pure (t, none)
  | none => pure (t, some pivotRow)

/-- `remove_artificial_basis_variables` (phase_one.rs:232-278): the loop over the artificial
variables that are in the basis at the start. -/
def removeArtificialLoop : List (Fin m × Fin N) → Tableau BI m N → List (Fin m) →
    Res (Tableau BI m N × List (Fin m))
  | [], t, rowsToRemove => .ok (t, rowsToRemove)
  | (pivotRow, artificial) :: rest, t, rowsToRemove =>
    match removeArtificialStep t pivotRow artificial with
    | .error e => .error e
    | .ok (t, none) => removeArtificialLoop rest t rowsToRemove
    | .ok (t, some row) => removeArtificialLoop rest t (rowsToRemove ++ [row])

/-- `remove_artificial_basis_variables` (phase_one.rs:232-278). -/
def removeArtificialBasisVariables (t : Tableau BI m N) : Res (Tableau BI m N × List (Fin m)) :=
  removeArtificialLoop t.artificialBasisColumns t []

/-- What phase one does when there is no profitable column (phase_one.rs:154-176). -/
def phaseOneExit (t : Tableau BI m N) : Res (Feasibility BI m N) :=
  if t.objectiveFunctionValue = 0 then
    if t.hasArtificialInBasis then do
      let (t, rows) ← removeArtificialBasisVariables t
      if rows.isEmpty then pure (.feasible .full t.carry t.basisColumns)
      else pure (.feasible (.deficient rows) t.carry t.basisColumns)
    else pure (.feasible .full t.carry t.basisColumns)
  else pure .infeasible

/-- The loop of `phase_one::primal` (phase_one.rs:135-178). -/
def phaseOneLoop {R : ℕ → Type} [PivotRule R] : ℕ → R N → Tableau BI m N →
    Res (Feasibility BI m N)
  | 0, _, _ => .error .outOfFuel
  | fuel + 1, rule, t => do
    let (selected, rule) ← PivotRule.select rule t
    match selected with
    | some (pivotColumn, cost) =>
      let info ← t.generateColumn pivotColumn
      match t.selectPrimalPivotRow (infoColumn info) with
      | some pivotRow =>
        let (t, change) ← t.bringIntoBasis pivotColumn pivotRow info cost
        let rule ← PivotRule.afterUpdate rule change t
        phaseOneLoop fuel rule t
      | none => panic .artificialUnbounded
    | none => phaseOneExit t

/-- `phase_one::primal` (phase_one.rs:123-179). -/
def phaseOne (R : ℕ → Type) [PivotRule R] (fuel : ℕ) (t : Tableau BI m N) :
    Res (Feasibility BI m N) := do
  let rule ← (PivotRule.new t : Res (R N))
  phaseOneLoop fuel rule t

/-- The loop of `phase_two::primal` (phase_two.rs:36-58). -/
def phaseTwoLoop {R : ℕ → Type} [PivotRule R] : ℕ → R N → Tableau BI m N →
    Res (OptimizationResult N)
  | 0, _, _ => .error .outOfFuel
  | fuel + 1, rule, t => do
    let (selected, rule) ← PivotRule.select rule t
    match selected with
    | some (pivotColumn, cost) =>
      let info ← t.generateColumn pivotColumn
      match t.selectPrimalPivotRow (infoColumn info) with
      | some pivotRow =>
        let (t, change) ← t.bringIntoBasis pivotColumn pivotRow info cost
        let rule ← PivotRule.afterUpdate rule change t
        phaseTwoLoop fuel rule t
      | none => pure .unbounded
    | none => pure (.finiteOptimum t.currentBfs)

/-- `phase_two::primal` (phase_two.rs:22-59). -/
def phaseTwo (R : ℕ → Type) [PivotRule R] (fuel : ℕ) (t : Tableau BI m N) :
    Res (OptimizationResult N) := do
  let rule ← (PivotRule.new t : Res (R N))
  phaseTwoLoop fuel rule t

/-- The `match` on the result of phase one in `solve_relaxation` (two_phase/mod.rs:43-71). -/
def solveAfterPhaseOne (R : ℕ → Type) [PivotRule R] (fuel : ℕ) {nrArtificial : ℕ}
    (P : Provider m n) : Feasibility BI m (nrArtificial + n) → Res (OptimizationResult n)
  | .feasible (.deficient (row :: rows)) carry basis => do
    let t ← Tableau.fromArtificialRemovingRows carry basis P (row :: rows)
    phaseTwo R fuel t
  | .feasible _ carry basis => do
    let t ← Tableau.fromArtificial carry basis P
    phaseTwo R fuel t
  | .infeasible => .ok .infeasible

/-- `solve_relaxation` (two_phase/mod.rs:30-73) for a provider without known initial basis columns
(phase_one.rs:45-59). `R` is the pivot rule, `SteepestDescentAlongObjective` in the program; `fuel`
bounds the number of iterations of each of the two loops. -/
def solveFully (BI : ℕ → Type) [BasisInverse BI] (R : ℕ → Type) [PivotRule R] (fuel : ℕ)
    (P : Provider m n) : Res (OptimizationResult n) := do
  let t ← (Tableau.newFully P : Res (Tableau BI m (m + n)))
  let f ← phaseOne R fuel t
  solveAfterPhaseOne R fuel P f

/-- `solve_relaxation` (two_phase/mod.rs:30-73) for a `PartialInitialBasis` provider
(phase_one.rs:86-99); `pivots` is `pivot_element_indices()`. -/
def solvePartially (BI : ℕ → Type) [BasisInverse BI] (R : ℕ → Type) [PivotRule R] (fuel : ℕ)
    (P : Provider m n) (pivots : List (Fin m × Fin n)) : Res (OptimizationResult n) := do
  let t ← (Tableau.newPartially P pivots : Res (Tableau BI m ((m - pivots.length) + n)))
  let f ← phaseOne R fuel t
  solveAfterPhaseOne R fuel P f

/-- `solve_relaxation` for a `FullInitialBasis` provider (two_phase/mod.rs:80-109), with
`from_basis_pivots` (carry/mod.rs:480-497). `pivots` is `pivot_element_indices()`. -/
def solveFull (BI : ℕ → Type) [BasisInverse BI] (R : ℕ → Type) [PivotRule R] (fuel : ℕ)
    (P : Provider m n) (pivots : List (Fin m × Fin n)) : Res (OptimizationResult n) :=
  let elements := pivots.insertionSort fun p q => p.1 ≤ q.1
  if h : elements.length = m then do
    let carry ← (Carry.fromBasis P (fun i => (elements.get (i.cast h.symm)).2) : Res (Carry BI m n))
    phaseTwo R fuel {
      carry
      basisColumns := (pivots.map (·.2)).toFinset
      kind := Tableau.nonArtificialKind P }
  else panic .indexOutOfBounds

/-- Which `FeasibilityComputer` / `SolveRelaxation` implementation is selected: that for a provider
without known basis columns, for a `PartialInitialBasis` or for a `FullInitialBasis`
(phase_one.rs:45-99, two_phase/mod.rs:27-109). -/
inductive InitialBasis (m n : ℕ)
  | none
  | partially (pivots : List (Fin m × Fin n))
  | fully (pivots : List (Fin m × Fin n))

/-- `solve_relaxation` (two_phase/mod.rs:27-109). -/
def solveWith (BI : ℕ → Type) [BasisInverse BI] (R : ℕ → Type) [PivotRule R] (fuel : ℕ)
    (P : Provider m n) : InitialBasis m n → Res (OptimizationResult n)
  | .none => solveFully BI R fuel P
  | .partially pivots => solvePartially BI R fuel P pivots
  | .fully pivots => solveFull BI R fuel P pivots

end

end Relp
