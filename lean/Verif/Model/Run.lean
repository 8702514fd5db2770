import Verif.Model.Solve
import Verif.Model.Rows
import Verif.Model.LU

/-!
# Choices of the user, and the states that a run passes through

The type parameters of `solve_relaxation` (two_phase/mod.rs:27-30) as values, and the solver states
at the head of the loops of `phase_one::primal` and `phase_two::primal` as inductive relations: the
constructors list the calls of the program with the results that lead to the next state.
-/

namespace Relp

open BasisInverse

/-- The two implementations of `BasisInverse`. -/
inductive InverseName
  /-- `BasisInverseRows` (carry/basis_inverse_rows.rs) -/
  | rows
  /-- `LUDecomposition` (carry/lower_upper/mod.rs) -/
  | lu
  deriving DecidableEq

/-- The four implementations of `PivotRule` (pivot_rule.rs). -/
inductive RuleName
  | firstProfitable
  | firstProfitableWithMemory
  | steepestDescentAlongVariable
  | steepestDescentAlongObjective
  deriving DecidableEq

/-- The type that implements `BasisInverse`. -/
def InverseName.type : InverseName → ℕ → Type
  | .rows => BasisInverseRows
  | .lu => LU

/-- The type that implements `PivotRule`. -/
def RuleName.type : RuleName → ℕ → Type
  | .firstProfitable => FirstProfitable
  | .firstProfitableWithMemory => FirstProfitableWithMemory
  | .steepestDescentAlongVariable => SteepestDescentAlongVariable
  | .steepestDescentAlongObjective => SteepestDescentAlongObjective

instance InverseName.instBasisInverse : (inv : InverseName) → BasisInverse inv.type
  | .rows => inferInstanceAs (BasisInverse BasisInverseRows)
  | .lu => inferInstanceAs (BasisInverse LU)

instance RuleName.instPivotRule : (rule : RuleName) → PivotRule rule.type
  | .firstProfitable => inferInstanceAs (PivotRule FirstProfitable)
  | .firstProfitableWithMemory => inferInstanceAs (PivotRule FirstProfitableWithMemory)
  | .steepestDescentAlongVariable => inferInstanceAs (PivotRule SteepestDescentAlongVariable)
  | .steepestDescentAlongObjective => inferInstanceAs (PivotRule SteepestDescentAlongObjective)

/-- `solve_relaxation` (two_phase/mod.rs:27-109) for a basis inverse representation, a pivot rule
(the program uses the same rule in both phases: `SteepestDescentAlongObjective`, phase_one.rs:58, 98 and
two_phase/mod.rs:57, 68, 107) and a kind of provider. -/
def solveRelaxation (inv : InverseName) (rule : RuleName) (fuel : ℕ) {m n : ℕ} (P : Provider m n)
    (start : InitialBasis m n) : Res (OptimizationResult n) :=
  solveWith inv.type rule.type fuel P start

section

variable {BI : ℕ → Type} [BasisInverse BI] {R : ℕ → Type} [PivotRule R] {m n N : ℕ}

/-- One iteration of the loops of both phases that changes the basis
(phase_one.rs:135-150, phase_two.rs:36-53). -/
inductive Iteration : R N × Tableau BI m N → R N × Tableau BI m N → Prop
  | mk {r r' r'' : R N} {t t' : Tableau BI m N} {j : Fin N} {cost : ℚ} {info : Info BI m}
      {p : Fin m} {change : BasisChangeInfo m N}
      (select : PivotRule.select r t = .ok (some (j, cost), r'))
      (column : t.generateColumn j = .ok info)
      (row : t.selectPrimalPivotRow (infoColumn info) = some p)
      (bring : t.bringIntoBasis j p info cost = .ok (t', change))
      (after : PivotRule.afterUpdate r' change t' = .ok r'') : Iteration (r, t) (r'', t')

/-- The states at the head of the loop of phase one (phase_one.rs:123-178), for the two kinds of
provider that have a phase one. -/
inductive PhaseOneState (P : Provider m n) :
    InitialBasis m n → {nrArtificial : ℕ} →
      R (nrArtificial + n) × Tableau BI m (nrArtificial + n) → Prop
  | fully {t : Tableau BI m (m + n)} {r : R (m + n)} (new : Tableau.newFully P = .ok t)
      (rule : PivotRule.new t = .ok r) : PhaseOneState P .none (r, t)
  | partially {pivots : List (Fin m × Fin n)} {t : Tableau BI m ((m - pivots.length) + n)}
      {r : R ((m - pivots.length) + n)} (new : Tableau.newPartially P pivots = .ok t)
      (rule : PivotRule.new t = .ok r) : PhaseOneState P (.partially pivots) (r, t)
  | step {start : InitialBasis m n} {nrArtificial : ℕ}
      {s s' : R (nrArtificial + n) × Tableau BI m (nrArtificial + n)}
      (before : PhaseOneState P start s) (iteration : Iteration s s') : PhaseOneState P start s'

/-- The states of the loop of `remove_artificial_basis_variables` (phase_one.rs:232-278), which
phase one runs if it ends with objective value zero (phase_one.rs:158-163), with the artificial
variables that are still to be treated. -/
inductive RemovalState (R : ℕ → Type) [PivotRule R] (P : Provider m n) (start : InitialBasis m n) :
    {nrArtificial : ℕ} → Tableau BI m (nrArtificial + n) → List (Fin m × Fin (nrArtificial + n)) →
      Prop
  | begin {nrArtificial : ℕ} {r r' : R (nrArtificial + n)} {t : Tableau BI m (nrArtificial + n)}
      (state : PhaseOneState P start (r, t)) (select : PivotRule.select r t = .ok (none, r'))
      (feasible : t.objectiveFunctionValue = 0) : RemovalState R P start t t.artificialBasisColumns
  | step {nrArtificial : ℕ} {t t' : Tableau BI m (nrArtificial + n)} {row : Fin m}
      {artificial : Fin (nrArtificial + n)} {rest : List (Fin m × Fin (nrArtificial + n))}
      {removed : Option (Fin m)} (before : RemovalState R P start t ((row, artificial) :: rest))
      (step : removeArtificialStep t row artificial = .ok (t', removed)) :
      RemovalState R P start t' rest

/-- What phase one hands over to phase two (phase_one.rs:154-176): the loop ends in a state without
profitable column. -/
inductive PhaseOneResult (R : ℕ → Type) [PivotRule R] (P : Provider m n) (start : InitialBasis m n) :
    {nrArtificial : ℕ} → Feasibility BI m (nrArtificial + n) → Prop
  | mk {nrArtificial : ℕ} {r r' : R (nrArtificial + n)} {t : Tableau BI m (nrArtificial + n)}
      {f : Feasibility BI m (nrArtificial + n)}
      (state : PhaseOneState P start (r, t)) (select : PivotRule.select r t = .ok (none, r'))
      (exit : phaseOneExit t = .ok f) : PhaseOneResult R P start f

/-- The states at the head of the loop of phase two (phase_two.rs:22-58). The provider `Q` is the
one that phase two works with: `P`, or `P` without the redundant rows
(two_phase/mod.rs:43-71, 80-109). -/
inductive PhaseTwoState (P : Provider m n) (start : InitialBasis m n) :
    {m' : ℕ} → (Q : Provider m' n) → R n × Tableau BI m' n → Prop
  | full {nrArtificial : ℕ} {carry : Carry BI m (nrArtificial + n)}
      {basis : Finset (Fin (nrArtificial + n))} {t : Tableau BI m n} {r : R n}
      (phaseOne : PhaseOneResult R P start (.feasible .full carry basis))
      (new : Tableau.fromArtificial carry basis P = .ok t) (rule : PivotRule.new t = .ok r) :
      PhaseTwoState P start P (r, t)
  | deficient {nrArtificial : ℕ} {carry : Carry BI m (nrArtificial + n)}
      {basis : Finset (Fin (nrArtificial + n))} {rows : List (Fin m)}
      {t : Tableau BI (keptLen rows) n} {r : R n}
      (phaseOne : PhaseOneResult R P start (.feasible (.deficient rows) carry basis))
      (new : Tableau.fromArtificialRemovingRows carry basis P rows = .ok t)
      (rule : PivotRule.new t = .ok r) : PhaseTwoState P start (P.removeRows rows) (r, t)
  | known {pivots : List (Fin m × Fin n)} (kind : start = .fully pivots)
      (length : (pivots.insertionSort fun p q => p.1 ≤ q.1).length = m) {carry : Carry BI m n}
      (new : Carry.fromBasis P (fun i => ((pivots.insertionSort fun p q => p.1 ≤ q.1).get
        (i.cast length.symm)).2) = .ok carry) {r : R n}
      (rule : PivotRule.new (⟨carry, (pivots.map (·.2)).toFinset, Tableau.nonArtificialKind P⟩ :
        Tableau BI m n) = .ok r) :
      PhaseTwoState P start P (r, ⟨carry, (pivots.map (·.2)).toFinset, Tableau.nonArtificialKind P⟩)
  | step {m' : ℕ} {Q : Provider m' n} {s s' : R n × Tableau BI m' n}
      (before : PhaseTwoState P start Q s) (iteration : Iteration s s') : PhaseTwoState P start Q s'

end

end Relp
