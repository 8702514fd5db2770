import Verif.Model.Basic

/-!
# Model of `Carry`

Models `/repo/src/algorithm/two_phase/tableau/inverse_maintenance/carry/mod.rs`.
Column indices are `Fin N`, row indices `Fin m`.
-/

namespace Relp

/-- `Kind` (tableau/kind/mod.rs): columns and costs of a tableau, plus the `StartIndex` of the pivot
rules (pivot_rule.rs:57-80), which is the number of artificial variables. -/
structure Kind (m N : ℕ) where
  /-- `start_index` / `nr_artificial_variables` -/
  start : ℕ
  /-- `initial_cost_value` -/
  cost : Fin N → ℚ
  /-- `original_column` -/
  column : Fin N → Sparse m

/-- `Carry` (carry/mod.rs:46-66). -/
structure Carry (BI : ℕ → Type) (m N : ℕ) where
  minusObjective : ℚ
  minusPi : Fin m → ℚ
  b : Fin m → ℚ
  basisIndices : Fin m → Fin N
  basisInverse : BI m

/-- `BasisChangeComputationInfo` (tableau/mod.rs:205-234). -/
structure BasisChangeInfo (m N : ℕ) where
  pivotRow : Fin m
  pivotColumn : Fin N
  leavingColumn : Fin N
  columnBeforeChange : Sparse m
  workVector : Sparse m
  basisInverseRow : Sparse m

/-- Run a computation for every index, in order (Rust: iterator `map`/`collect` with a body that may
abort). -/
def tabulateM {α : Type} : {m : ℕ} → (Fin m → Res α) → Res (Fin m → α)
  | 0, _ => .ok fun i => i.elim0
  | m + 1, f =>
    match f 0 with
    | .error e => .error e
    | .ok a =>
      match tabulateM (fun i : Fin m => f i.succ) with
      | .error e => .error e
      | .ok g => .ok (Fin.cons a g)

namespace Carry

variable {BI : ℕ → Type} [BasisInverse BI] {m n N : ℕ}

open BasisInverse

/-- Rows of a matrix given by sparse columns: the transposition loop `for (j, column) ..
rows[i].push((j, v))` (carry/mod.rs:243-248, basis_inverse_rows.rs:116-121). -/
def transposeColumns (columns : Fin m → Sparse m) (i : Fin m) : Sparse m :=
  (List.finRange m).flatMap fun j =>
    (columns j).filterMap fun p => if p.1 = i then some (j, p.2) else none

/-- `create_minus_pi_from_artificial` (carry/mod.rs:226-260): every column of `B⁻¹` is generated,
transposed to rows, and `pi[j] += value * cost(basis[i])`, then negated. -/
def createMinusPi (bi : BI m) (cost : Fin n → ℚ) (basis : Fin m → Fin n) : Res (Fin m → ℚ) := do
  let columns ← tabulateM fun j : Fin m => leftMultiply bi (SVec.standardBasis j)
  let rows := transposeColumns fun j => infoColumn (columns j)
  let pi : Fin m → ℚ := (List.finRange m).foldl
    (fun pi i => (rows i).foldl
      (fun pi p => Function.update pi p.1 (pi p.1 + p.2 * cost (basis i))) pi)
    fun _ => 0
  pure fun j => -pi j

/-- `create_minus_obj_from_artificial` (carry/mod.rs:270-283). -/
def createMinusObj (cost : Fin n → ℚ) (basis : Fin m → Fin n) (b : Fin m → ℚ) : ℚ :=
  -((List.finRange m).foldl (fun objective row => objective + b row * cost (basis row)) 0)

/-- `update_b` (carry/mod.rs:295-325). -/
def updateB (b : Fin m → ℚ) (pivotRow : Fin m) (column : Sparse m) : Res (Fin m → ℚ) :=
  match SVec.get? column pivotRow with
  | none => panic .pivotZero
  | some pivotValue =>
    if pivotValue = 0 then panic .divisionByZero else
    let middle := b pivotRow / pivotValue
    .ok (column.foldl
      (fun b p => if p.1 = pivotRow then b else Function.update b p.1 (b p.1 - p.2 * middle))
      (Function.update b pivotRow middle))

/-- `update_minus_pi_and_obj` (carry/mod.rs:338-349), the `minus_pi` part. -/
def updateMinusPi (minusPi : Fin m → ℚ) (relativeCost : ℚ) (basisInverseRow : Sparse m) :
    Fin m → ℚ :=
  basisInverseRow.foldl
    (fun minusPi p => Function.update minusPi p.1 (minusPi p.1 - relativeCost * p.2)) minusPi

/-- `create_for_fully_artificial` (carry/mod.rs:374-395). `N = m + n` columns, the first `m` are
artificial. -/
def createForFullyArtificial (n : ℕ) (rhs : Fin m → ℚ) : Res (Carry BI m (m + n)) := do
  let bSum := (List.finRange m).foldl (fun s i => s + rhs i) 0
  let basisInverse ← identity m
  pure {
    minusObjective := -bSum
    minusPi := fun _ => -1
    b := rhs
    basisIndices := fun i => Fin.castAdd n i
    basisInverse }

/-- The `minus_pi` of `create_for_partially_artificial` (carry/mod.rs:424-432): the counter runs
through the sorted `artificial_rows`. -/
def partiallyMinusPi (artificialRows : List (Fin m)) : List (Fin m) → List ℚ
  | [] => []
  | row :: rest =>
    match artificialRows with
    | a :: artificialRows' =>
      if a = row then -1 :: partiallyMinusPi artificialRows' rest
      else 0 :: partiallyMinusPi artificialRows rest
    | [] => 0 :: partiallyMinusPi [] rest

theorem partiallyMinusPi_length (artificialRows rows : List (Fin m)) :
    (partiallyMinusPi artificialRows rows).length = rows.length := by
  induction rows generalizing artificialRows with
  | nil => simp [partiallyMinusPi]
  | cons row rest ih =>
    unfold partiallyMinusPi
    split
    · split <;> simp [ih]
    · simp [ih]

/-- `create_for_partially_artificial` (carry/mod.rs:397-442). -/
def createForPartiallyArtificial (artificialRows : List (Fin m)) (rhs : Fin m → ℚ)
    (basisIndices : Fin m → Fin N) : Res (Carry BI m N) := do
  let objective := artificialRows.foldl (fun s i => s + rhs i) 0
  let minusPi := partiallyMinusPi artificialRows (List.finRange m)
  let basisInverse ← identity m
  pure {
    minusObjective := -objective
    minusPi := fun i => minusPi.get (i.cast (by simp [minusPi, partiallyMinusPi_length]))
    b := rhs
    basisIndices
    basisInverse }

/-- `from_basis` (carry/mod.rs:444-478). -/
def fromBasis (P : Provider m n) (basis : Fin m → Fin n) : Res (Carry BI m n) := do
  let basisInverse ← (invert fun i => P.column (basis i) : Res (BI m))
  let info ← leftMultiply basisInverse (SVec.ofDense P.rhs)
  let b : Fin m → ℚ := (infoColumn info).foldl (fun b p => Function.update b p.1 p.2) fun _ => 0
  let minusObjective := createMinusObj P.cost basis b
  let minusPi ← createMinusPi basisInverse P.cost basis
  pure { minusObjective, minusPi, b, basisIndices := basis, basisInverse }

/-- Subtraction `index - nr_artificial` on column indices (carry/mod.rs:510, non_artificial.rs:166):
an abort (overflow) for a column index below `nr_artificial`. -/
def shiftColumn (nrArtificial : ℕ) (j : Fin (nrArtificial + n)) : Res (Fin n) :=
  if h : nrArtificial ≤ (j : ℕ) then .ok ⟨j - nrArtificial, by omega⟩ else panic .underflow

/-- `from_artificial` (carry/mod.rs:499-525). -/
def fromArtificial {nrArtificial : ℕ} (artificial : Carry BI m (nrArtificial + n))
    (P : Provider m n) : Res (Carry BI m n) := do
  let basisIndices ← tabulateM fun i => shiftColumn nrArtificial (artificial.basisIndices i)
  let minusPi ← createMinusPi artificial.basisInverse P.cost basisIndices
  let minusObjective := createMinusObj P.cost basisIndices artificial.b
  pure {
    minusObjective, minusPi, basisIndices
    b := artificial.b
    basisInverse := artificial.basisInverse }

/-- `from_artificial_remove_rows` (carry/mod.rs:527-559 and 673-712). -/
def fromArtificialRemoveRows {nrArtificial : ℕ} (artificial : Carry BI m (nrArtificial + n))
    (P : Provider m n) (rows : List (Fin m)) : Res (Carry BI (keptLen rows) n) := do
  let basisIndices ← tabulateM fun i =>
    shiftColumn nrArtificial (removeIndices rows artificial.basisIndices i)
  let basisInverse ← removeBasis rows artificial.basisInverse
    fun i => (P.removeRows rows).column (basisIndices i)
  let minusPi ← createMinusPi basisInverse P.cost basisIndices
  let b := removeIndices rows artificial.b
  let minusObjective := createMinusObj P.cost basisIndices b
  pure { minusObjective, minusPi, b, basisIndices, basisInverse }

/-- `change_basis` (carry/mod.rs:561-604). -/
def changeBasis (c : Carry BI m N) (kind : Kind m N) (pivotRow : Fin m) (pivotColumn : Fin N)
    (info : Info BI m) (relativeCost : ℚ) : Res (Carry BI m N × BasisChangeInfo m N) := do
  let workVector ← rightMultiply c.basisInverse (infoColumn info)
  let b ← updateB c.b pivotRow (infoColumn info)
  let leavingColumn := c.basisIndices pivotRow
  let basisIndices := Function.update c.basisIndices pivotRow pivotColumn
  let (basisInverse, columnBeforeChange) ←
    (if shouldRefactor c.basisInverse then do
      let basisInverse ← invert fun i => kind.column (basisIndices i)
      pure (basisInverse, infoColumn info)
    else BasisInverse.changeBasis c.basisInverse pivotRow info : Res (BI m × Sparse m))
  let basisInverseRow ← BasisInverse.basisInverseRow basisInverse pivotRow
  pure ({
      minusObjective := c.minusObjective - relativeCost * b pivotRow
      minusPi := updateMinusPi c.minusPi relativeCost basisInverseRow
      b, basisIndices, basisInverse },
    { pivotRow, pivotColumn, leavingColumn, columnBeforeChange, workVector, basisInverseRow })

/-- `cost_difference` (carry/mod.rs:606-611). -/
def costDifference (c : Carry BI m N) (column : Sparse m) : ℚ :=
  SVec.innerProductDense column c.minusPi

/-- `generate_column` (carry/mod.rs:613-621). -/
def generateColumn (c : Carry BI m N) (column : Sparse m) : Res (Info BI m) :=
  leftMultiply c.basisInverse column

/-- `generate_element` (carry/mod.rs:623-634). -/
def generateElement (c : Carry BI m N) (i : Fin m) (column : Sparse m) : Res (Option ℚ) :=
  BasisInverse.generateElement c.basisInverse i column

/-- `current_bfs` (carry/mod.rs:636-645). -/
def currentBfs (c : Carry BI m N) : SVec (Fin N) :=
  (((List.finRange m).map fun i => (c.basisIndices i, c.b i)).filter fun p => p.2 ≠ 0).insertionSort
    fun p q => p.1 ≤ q.1

/-- `get_objective_function_value` (carry/mod.rs:659-661). -/
def objectiveFunctionValue (c : Carry BI m N) : ℚ := -c.minusObjective

end Carry

end Relp
