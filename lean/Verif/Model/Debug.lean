import Verif.Model.ColumnRange
import Verif.Model.DebugInverse

/-!
# Model of the solver in a debug build

In a debug build (`debug_assertions` enabled, the default of `cargo build` and `cargo test`) the
solver checks its own state while it runs and aborts if a check fails. The definitions here are those
of `Model/Tableau.lean` and `Model/Solve.lean` with these checks.

The checks inside of the representations of the basis inverse are those of `Model/DebugInverse.lean`.

Not repeated here: checks that an index is below the number of rows or columns and that vectors have
the length of the problem (part of the types), and `debug_assert!(self.gamma[*j].is_some())`
(pivot_rule.rs:236, the `unwrap` that follows aborts in every build).
-/

namespace Relp

open BasisInverse

namespace Tableau

variable {BI : ℕ → Type} [BasisInverse BI] {m n N : ℕ}

/-- `current_bfs` (tableau/mod.rs:183-186). -/
def currentBfsDebug (t : Tableau BI m N) : Res (SVec (Fin N)) := do
  sparseVectorCheck t.currentBfs
  pure t.currentBfs

/-- `Tableau::<_, Fully<_>>::new` (kind/artificial/fully.rs) with the check of `DenseVector::constant`
(dense.rs:40), which makes a vector of one entry per row (carry/mod.rs:389). -/
def newFullyDebug (P : Provider m n) : Res (Tableau BI m (m + n)) := do
  debugAssert (m ≠ 0)
  newFully P

/-- `debug_assert_in_basic_feasible_solution_state` (tableau/mod.rs:319-357). -/
def debugCheck (t : Tableau BI m N) : Res Unit := do
  debugAssert (t.basisColumns.card = m)
  forEach (fun i => do
    let info ← t.generateColumn (t.carry.basisIndices i)
    debugAssert (infoColumn info = [(i, 1)])) (List.finRange m)
  forEach (fun i => debugAssert (t.relativeCost (t.carry.basisIndices i) = 0)) (List.finRange m)
  forEach (fun i => debugAssert (0 ≤ t.carry.b i)) (List.finRange m)

/-- `bring_into_basis` (tableau/mod.rs:48-64) with the checks of `update_basis_indices` (84-87). -/
def bringIntoBasisDebug (t : Tableau BI m N) (pivotColumn : Fin N) (pivotRow : Fin m)
    (info : Info BI m) (cost : ℚ) : Res (Tableau BI m N × BasisChangeInfo m N) := do
  let (carry, change) ← t.carry.changeBasis t.kind pivotRow pivotColumn info cost
  debugAssert (change.leavingColumn ∈ t.basisColumns)
  debugAssert (pivotColumn ∉ t.basisColumns.erase change.leavingColumn)
  pure ({ carry
          basisColumns := insert pivotColumn (t.basisColumns.erase change.leavingColumn)
          kind := t.kind }, change)

/-- `Tableau::<_, Partially<_>>::new` (partially.rs:125-205): the checks at 133, 147, 149 and 155, and
those of `create_for_partially_artificial` (carry/mod.rs:407-411). All checks are made before the
rest of the computation. -/
def newPartiallyDebug (P : Provider m n) (real : List (Fin m × Fin n)) :
    Res (Tableau BI m ((m - real.length) + n)) := do
  let realRows := real.map fun p => (p.1 : ℕ)
  debugAssert (decide (realRows.Pairwise (· ≤ ·)))
  if real.length > m then panic .underflow
  else
    let rows := artificialRows m realRows
    debugAssert (decide (∀ row ∈ rows, row ∉ realRows))
    debugAssert (decide (∀ row ∈ rows, row < m))
    debugAssert (decide (rows.Pairwise (· ≤ ·)) && decide (realRows.Pairwise (· ≤ ·)))
    debugAssert (rows.length + real.length = m)
    let merged := (rows ++ realRows).toFinset
    debugAssert (decide (∀ row ∈ merged, row < m))
    debugAssert (merged.card = m)
    newPartially P real

/-- The loop over the removed rows at non_artificial.rs:204-208. -/
def removeBasisColumns (indices : Fin m → Fin N) :
    List (Fin m) → Finset (Fin N) → Res (Finset (Fin N))
  | [], basis => .ok basis
  | row :: rows, basis =>
    match debugAssert (indices row ∈ basis) with
    | .error e => .error e
    | .ok () => removeBasisColumns indices rows (basis.erase (indices row))

/-- `from_artificial_removing_rows` (kind/non_artificial.rs:191-225) with its checks, those of
`from_artificial_remove_rows` (carry/mod.rs:535, 681) and those of the filter
(generic_wrapper.rs:88-89), which is created right before (two_phase/mod.rs:47-55). -/
def fromArtificialRemovingRowsDebug {nrArtificial : ℕ}
    (carry : Carry BI m (nrArtificial + n)) (basis : Finset (Fin (nrArtificial + n)))
    (P : Provider m n) (rows : List (Fin m)) : Res (Tableau BI (keptLen rows) n) := do
  debugAssert (decide (rows.Pairwise (· ≤ ·)))
  debugAssert (rows.toFinset.card = rows.length)
  debugAssert (decide (∀ v ∈ basis, nrArtificial ≤ (v : ℕ) ∨ ∃ row ∈ rows, carry.basisIndices row = v))
  let basis ← removeBasisColumns carry.basisIndices rows basis
  let basisColumns ← shiftColumns basis
  debugAssert (m = (m - rows.length) + rows.length)
  let carry ← carry.fromArtificialRemoveRows P rows
  pure { carry, basisColumns, kind := nonArtificialKind (P.removeRows rows) }

end Tableau

/-- Pivot rules with the checks of a debug build. -/
class DebugRule (R : ℕ → Type) where
  /-- `after_basis_update` with its checks -/
  afterUpdateDebug : {BI : ℕ → Type} → [BasisInverse BI] → {m N : ℕ} → R N → BasisChangeInfo m N →
    Tableau BI m N → Res (R N)

/-- No checks (pivot_rule.rs:46-53). -/
instance : DebugRule FirstProfitable where
  afterUpdateDebug := PivotRule.afterUpdate

/-- No checks (pivot_rule.rs:46-53). -/
instance : DebugRule FirstProfitableWithMemory where
  afterUpdateDebug := PivotRule.afterUpdate

/-- No checks (pivot_rule.rs:46-53). -/
instance : DebugRule SteepestDescentAlongVariable where
  afterUpdateDebug := PivotRule.afterUpdate

/-- The check of one updated weight (pivot_rule.rs:290). -/
def SteepestDescentAlongObjective.checkWeight {BI : ℕ → Type} [BasisInverse BI] {m N : ℕ}
    (r : SteepestDescentAlongObjective N) (info : BasisChangeInfo m N) (t : Tableau BI m N)
    (j : Fin N) : Res Unit :=
  if t.kind.start ≤ (j : ℕ) then
    match Function.update r.gamma info.pivotColumn none j with
    | none => .ok ()
    | some gamma => do
      let exact ← initialGamma j t
      debugAssert (updateGamma info (1 + SVec.squaredNorm info.columnBeforeChange)
        (t.kind.column j) gamma = exact)
  else .ok ()

/-- `after_basis_update` of the steepest edge rule, with the check that every updated weight equals
the weight computed from scratch (pivot_rule.rs:243-296). -/
instance : DebugRule SteepestDescentAlongObjective where
  afterUpdateDebug {_ _ _ N} r info t := do
    forEach (r.checkWeight info t) (List.finRange N)
    r.afterUpdate info t

instance RuleName.instDebugRule : (rule : RuleName) → DebugRule rule.type
  | .firstProfitable => inferInstanceAs (DebugRule FirstProfitable)
  | .firstProfitableWithMemory => inferInstanceAs (DebugRule FirstProfitableWithMemory)
  | .steepestDescentAlongVariable => inferInstanceAs (DebugRule SteepestDescentAlongVariable)
  | .steepestDescentAlongObjective => inferInstanceAs (DebugRule SteepestDescentAlongObjective)

section

variable {BI : ℕ → Type} [BasisInverse BI] {m n N : ℕ}

/-- Body of the loop in `remove_artificial_basis_variables` with the checks at phase_one.rs:245, 267
and 273. -/
def removeArtificialStepDebug (t : Tableau BI m N) (pivotRow : Fin m) (artificial : Fin N) :
    Res (Tableau BI m N × Option (Fin m)) := do
  debugAssert (t.isInBasis artificial)
  let constraintValue ← t.variableValue artificial
  let columnAndCost ←
    if constraintValue ≠ 0 then
      findM (fun p => do
          let element ← t.generateElement pivotRow p.1
          pure (match element with
            | some e => decide (e > 0)
            | none => false))
        (t.candidates.filter fun p => p.2 = 0)
    else
      findM (fun p => do
          let element ← t.generateElement pivotRow p.1
          pure (match element with
            | some e => decide (e ≠ 0)
            | none => false))
        t.candidates
  match columnAndCost with
  | some (pivotColumn, cost) =>
    let info ← t.generateColumn pivotColumn
    let (t, _) ← t.bringIntoBasisDebug pivotColumn pivotRow info cost
    debugAssert (!t.isInBasis artificial)
    t.debugCheck
    pure (t, none)
  | none =>
    t.debugCheck
    pure (t, some pivotRow)

/-- The loop of `remove_artificial_basis_variables` (phase_one.rs:243-274). -/
def removeArtificialLoopDebug : List (Fin m × Fin N) → Tableau BI m N → List (Fin m) →
    Res (Tableau BI m N × List (Fin m))
  | [], t, rowsToRemove => .ok (t, rowsToRemove)
  | (pivotRow, artificial) :: rest, t, rowsToRemove =>
    match removeArtificialStepDebug t pivotRow artificial with
    | .error e => .error e
    | .ok (t, none) => removeArtificialLoopDebug rest t rowsToRemove
    | .ok (t, some row) => removeArtificialLoopDebug rest t (rowsToRemove ++ [row])

/-- `remove_artificial_basis_variables` (phase_one.rs:232-278) with the checks at 240 and 276. -/
def removeArtificialBasisVariablesDebug (t : Tableau BI m N) :
    Res (Tableau BI m N × List (Fin m)) := do
  debugAssert (decide ((t.artificialBasisColumns.map (·.1)).Pairwise (· ≤ ·)))
  let (t, rows) ← removeArtificialLoopDebug t.artificialBasisColumns t []
  debugAssert (decide (rows.Pairwise (· ≤ ·)))
  pure (t, rows)

/-- What phase one does when there is no profitable column (phase_one.rs:154-176). -/
def phaseOneExitDebug (t : Tableau BI m N) : Res (Feasibility BI m N) :=
  if t.objectiveFunctionValue = 0 then
    if t.hasArtificialInBasis then do
      let (t, rows) ← removeArtificialBasisVariablesDebug t
      if rows.isEmpty then pure (.feasible .full t.carry t.basisColumns)
      else pure (.feasible (.deficient rows) t.carry t.basisColumns)
    else pure (.feasible .full t.carry t.basisColumns)
  else pure .infeasible

/-- The loop of `phase_one::primal` with the check at phase_one.rs:135-138. -/
def phaseOneLoopDebug {R : ℕ → Type} [PivotRule R] [DebugRule R] : ℕ → R N → Tableau BI m N →
    Res (Feasibility BI m N)
  | 0, _, _ => .error .outOfFuel
  | fuel + 1, rule, t => do
    t.debugCheck
    let (selected, rule) ← PivotRule.select rule t
    match selected with
    | some (pivotColumn, cost) =>
      let info ← t.generateColumn pivotColumn
      match t.selectPrimalPivotRow (infoColumn info) with
      | some pivotRow =>
        let (t, change) ← t.bringIntoBasisDebug pivotColumn pivotRow info cost
        let rule ← DebugRule.afterUpdateDebug rule change t
        phaseOneLoopDebug fuel rule t
      | none => panic .artificialUnbounded
    | none => phaseOneExitDebug t

/-- `phase_one::primal` (phase_one.rs:123-179). -/
def phaseOneDebug (R : ℕ → Type) [PivotRule R] [DebugRule R] (fuel : ℕ) (t : Tableau BI m N) :
    Res (Feasibility BI m N) := do
  let rule ← (PivotRule.new t : Res (R N))
  phaseOneLoopDebug fuel rule t

/-- The loop of `phase_two::primal` with the check at phase_two.rs:37-40. -/
def phaseTwoLoopDebug {R : ℕ → Type} [PivotRule R] [DebugRule R] : ℕ → R N → Tableau BI m N →
    Res (OptimizationResult N)
  | 0, _, _ => .error .outOfFuel
  | fuel + 1, rule, t => do
    t.debugCheck
    let (selected, rule) ← PivotRule.select rule t
    match selected with
    | some (pivotColumn, cost) =>
      let info ← t.generateColumn pivotColumn
      match t.selectPrimalPivotRow (infoColumn info) with
      | some pivotRow =>
        let (t, change) ← t.bringIntoBasisDebug pivotColumn pivotRow info cost
        let rule ← DebugRule.afterUpdateDebug rule change t
        phaseTwoLoopDebug fuel rule t
      | none => pure .unbounded
    | none => do
      let solution ← t.currentBfsDebug
      pure (.finiteOptimum solution)

/-- `phase_two::primal` (phase_two.rs:22-59). -/
def phaseTwoDebug (R : ℕ → Type) [PivotRule R] [DebugRule R] (fuel : ℕ) (t : Tableau BI m N) :
    Res (OptimizationResult N) := do
  let rule ← (PivotRule.new t : Res (R N))
  phaseTwoLoopDebug fuel rule t

/-- The `match` on the result of phase one in `solve_relaxation` (two_phase/mod.rs:43-71). -/
def solveAfterPhaseOneDebug (R : ℕ → Type) [PivotRule R] [DebugRule R] (fuel : ℕ)
    {nrArtificial : ℕ} (P : Provider m n) :
    Feasibility BI m (nrArtificial + n) → Res (OptimizationResult n)
  | .feasible (.deficient (row :: rows)) carry basis => do
    let t ← Tableau.fromArtificialRemovingRowsDebug carry basis P (row :: rows)
    phaseTwoDebug R fuel t
  | .feasible _ carry basis => do
    let t ← Tableau.fromArtificial carry basis P
    phaseTwoDebug R fuel t
  | .infeasible => .ok .infeasible

/-- `solve_relaxation` (two_phase/mod.rs:27-109) in a debug build. -/
def solveWithDebug (BI : ℕ → Type) [BasisInverse BI] (R : ℕ → Type) [PivotRule R] [DebugRule R]
    (fuel : ℕ) (P : Provider m n) : InitialBasis m n → Res (OptimizationResult n)
  | .none => do
    let t ← (Tableau.newFullyDebug P : Res (Tableau BI m (m + n)))
    let f ← phaseOneDebug R fuel t
    solveAfterPhaseOneDebug R fuel P f
  | .partially pivots => do
    let t ← (Tableau.newPartiallyDebug P pivots : Res (Tableau BI m ((m - pivots.length) + n)))
    let f ← phaseOneDebug R fuel t
    solveAfterPhaseOneDebug R fuel P f
  | .fully pivots =>
    let elements := pivots.insertionSort fun p q => p.1 ≤ q.1
    if h : elements.length = m then do
      let carry ← (Carry.fromBasis P (fun i => (elements.get (i.cast h.symm)).2) : Res (Carry BI m n))
      phaseTwoDebug R fuel {
        carry
        basisColumns := (pivots.map (·.2)).toFinset
        kind := Tableau.nonArtificialKind P }
    else panic .indexOutOfBounds

/-- `primalFromBasis` (`Model/ColumnRange.lean`: carry/mod.rs:444-478, non_artificial.rs:95-108 and
phase_two.rs:22-59) in a debug build. -/
def primalFromBasisDebug (BI : ℕ → Type) [BasisInverse BI] (R : ℕ → Type) [PivotRule R] [DebugRule R]
    (fuel : ℕ) (P : Provider m n) (basis : Fin m → Fin n) : Res (OptimizationResult n) := do
  let carry ← (Carry.fromBasis P basis : Res (Carry BI m n))
  phaseTwoDebug R fuel {
    carry
    basisColumns := Finset.univ.image basis
    kind := Tableau.nonArtificialKind P }

end

/-- The representations of the basis inverse in a debug build. -/
def InverseName.debugType : InverseName → ℕ → Type
  | .rows => DebugRows
  | .lu => DebugLU

instance InverseName.instDebugBasisInverse : (inv : InverseName) → BasisInverse inv.debugType
  | .rows => inferInstanceAs (BasisInverse DebugRows)
  | .lu => inferInstanceAs (BasisInverse DebugLU)

/-- `solve_relaxation` (two_phase/mod.rs:27-109) in a debug build, for a basis inverse representation
and a pivot rule. -/
def solveRelaxationDebug (inv : InverseName) (rule : RuleName) (fuel : ℕ) {m n : ℕ}
    (P : Provider m n) (start : InitialBasis m n) : Res (OptimizationResult n) :=
  solveWithDebug inv.debugType rule.type fuel P start

end Relp
