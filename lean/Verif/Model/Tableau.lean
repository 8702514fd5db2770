import Verif.Model.Carry
import Mathlib.Data.Finset.Lattice.Fold
import Mathlib.Data.Fintype.Basic

/-!
# Model of `Tableau`, its kinds and the pivot rules

Models `/repo/src/algorithm/two_phase/tableau/mod.rs`, `tableau/kind/**` and
`strategy/pivot_rule.rs`.
-/

namespace Relp

open BasisInverse

/-- `Tableau` (tableau/mod.rs:25-39). -/
structure Tableau (BI : ℕ → Type) (m N : ℕ) where
  carry : Carry BI m N
  basisColumns : Finset (Fin N)
  kind : Kind m N

/-- Iterator `find` with a predicate that may abort. -/
def findM {α : Type} (p : α → Res Bool) : List α → Res (Option α)
  | [] => .ok none
  | a :: l =>
    match p a with
    | .error e => .error e
    | .ok true => .ok (some a)
    | .ok false => findM p l

namespace Tableau

variable {BI : ℕ → Type} [BasisInverse BI] {m n N : ℕ}

/-- `is_in_basis` (tableau/mod.rs:155-159). -/
def isInBasis (t : Tableau BI m N) (j : Fin N) : Bool := j ∈ t.basisColumns

/-- `relative_cost` (tableau/mod.rs:106-112). -/
def relativeCost (t : Tableau BI m N) (j : Fin N) : ℚ :=
  t.carry.costDifference (t.kind.column j) + t.kind.cost j

/-- `generate_column` (tableau/mod.rs:126-130). -/
def generateColumn (t : Tableau BI m N) (j : Fin N) : Res (Info BI m) :=
  t.carry.generateColumn (t.kind.column j)

/-- `generate_element` (tableau/mod.rs:133-138). -/
def generateElement (t : Tableau BI m N) (i : Fin m) (j : Fin N) : Res (Option ℚ) :=
  t.carry.generateElement i (t.kind.column j)

/-- `bring_into_basis` (tableau/mod.rs:48-64) with `update_basis_indices` (76-88). -/
def bringIntoBasis (t : Tableau BI m N) (pivotColumn : Fin N) (pivotRow : Fin m)
    (info : Info BI m) (cost : ℚ) : Res (Tableau BI m N × BasisChangeInfo m N) := do
  let (carry, change) ← t.carry.changeBasis t.kind pivotRow pivotColumn info cost
  pure ({ carry
          basisColumns := insert pivotColumn (t.basisColumns.erase change.leavingColumn)
          kind := t.kind }, change)

/-- `variable_value` (tableau/mod.rs:164-176). -/
def variableValue (t : Tableau BI m N) (j : Fin N) : Res ℚ :=
  if t.isInBasis j then
    match (List.finRange m).find? fun i => t.carry.basisIndices i = j with
    | some row => .ok (t.carry.b row)
    | none => panic .notInBasis
  else .ok 0

/-- `current_bfs` (tableau/mod.rs:183-186). -/
def currentBfs (t : Tableau BI m N) : SVec (Fin N) := t.carry.currentBfs

/-- `objective_function_value` (tableau/mod.rs:197-199). -/
def objectiveFunctionValue (t : Tableau BI m N) : ℚ := t.carry.objectiveFunctionValue

/-- One iteration of the loop of `select_primal_pivot_row` (tableau/mod.rs:292-310). -/
def ratioStep (b : Fin m → ℚ) (basis : Fin m → Fin N) (best : Option (Fin m × ℚ × Fin N))
    (p : Fin m × ℚ) : Option (Fin m × ℚ × Fin N) :=
  if p.2 > 0 then
    let ratio := b p.1 / p.2
    let leaving := basis p.1
    match best with
    | some (minIndex, minRatio, minLeaving) =>
      if ratio = minRatio ∧ leaving < minLeaving then some (p.1, minRatio, leaving)
      else if ratio < minRatio then some (p.1, ratio, leaving)
      else some (minIndex, minRatio, minLeaving)
    | none => some (p.1, ratio, leaving)
  else best

/-- `select_primal_pivot_row` (tableau/mod.rs:287-313). -/
def selectPrimalPivotRow (t : Tableau BI m N) (column : Sparse m) : Option (Fin m) :=
  (column.foldl (ratioStep t.carry.b t.carry.basisIndices) none).map (·.1)

/-- The columns `start_index()..nr_columns()` that are not in the basis, with relative cost: the
common prefix of all pivot rules (pivot_rule.rs:105-107, 171-173, 231-233) and of
`remove_artificial_basis_variables` (phase_one.rs:246-248). -/
def candidatesIn (t : Tableau BI m N) (lower upper : ℕ) : List (Fin N × ℚ) :=
  ((List.finRange N).filter fun j : Fin N =>
    decide (lower ≤ (j : ℕ) ∧ (j : ℕ) < upper) && !t.isInBasis j).map
    fun j => (j, t.relativeCost j)

/-- Candidates over the whole range of real columns. -/
def candidates (t : Tableau BI m N) : List (Fin N × ℚ) := t.candidatesIn t.kind.start N

/-- `has_artificial_in_basis` (kind/artificial/mod.rs:69-71). -/
def hasArtificialInBasis (t : Tableau BI m N) : Bool :=
  decide (∃ j ∈ t.basisColumns, (j : ℕ) < t.kind.start)

/-- `artificial_basis_columns` (kind/artificial/mod.rs:74-79). -/
def artificialBasisColumns (t : Tableau BI m N) : List (Fin m × Fin N) :=
  ((List.finRange m).map fun i => (i, t.carry.basisIndices i)).filter
    fun p => (p.2 : ℕ) < t.kind.start

/-! ### Kinds -/

/-- `NonArtificial` (kind/non_artificial.rs:42-80). -/
def nonArtificialKind (P : Provider m n) : Kind m n where
  start := 0
  cost := P.cost
  column := P.column

/-- `Fully` artificial (kind/artificial/fully.rs:22-80) for `nrArtificial = m` and
`columnToRow = id`, `Partially` artificial (kind/artificial/partially.rs:38-103) in general: cost one
and a unit column for the artificial variables, cost zero and the provider's column otherwise. -/
def artificialKind {nrArtificial : ℕ} (P : Provider m n) (columnToRow : Fin nrArtificial → Fin m) :
    Kind m (nrArtificial + n) where
  start := nrArtificial
  cost := Fin.addCases (fun _ => 1) fun _ => 0
  column := Fin.addCases (fun j => SVec.standardBasis (columnToRow j)) fun j => P.column j

/-- `Tableau::<_, Fully<_>>::new` (kind/artificial/fully.rs:88-97). -/
def newFully (P : Provider m n) : Res (Tableau BI m (m + n)) := do
  let carry ← Carry.createForFullyArtificial n P.rhs
  pure {
    carry
    basisColumns := Finset.univ.image (Fin.castAdd n)
    kind := artificialKind P id }

/-- The `while` loop at partially.rs:143-145. `rest` is `real[i..]` (the rows only). -/
def skipReal (ithArtificial : ℕ) : ℕ → List ℕ → ℕ × List ℕ
  | i, [] => (i, [])
  | i, r :: rest =>
    if ithArtificial + i = r then skipReal ithArtificial (i + 1) rest else (i, r :: rest)

/-- The `for` loop at partially.rs:142-148, `count` iterations left. -/
def artificialRowsFrom : (count ithArtificial i : ℕ) → (rest : List ℕ) → List ℕ
  | 0, _, _, _ => []
  | count + 1, ith, i, rest =>
    let s := skipReal ith i rest
    (ith + s.1) :: artificialRowsFrom count (ith + 1) s.1 s.2

/-- The rows without initial pivot (partially.rs:139-149). -/
def artificialRows (m : ℕ) (realRows : List ℕ) : List ℕ :=
  artificialRowsFrom (m - realRows.length) 0 0 realRows

theorem artificialRowsFrom_length (count ith i : ℕ) (rest : List ℕ) :
    (artificialRowsFrom count ith i rest).length = count := by
  induction count generalizing ith i rest with
  | zero => rfl
  | succ count ih => simp [artificialRowsFrom, ih]

/-- `basis_indices` (partially.rs:157-185): merge of the artificial rows with the given pivots by
row index. The arguments are what is left of the two lists (`artificial[artificial_counter..]` with
the column numbers, `real[i - artificial_counter..]`). -/
def mergeBasis {nrArtificial : ℕ} : List (Fin nrArtificial × ℕ) → List (ℕ × Fin n) →
    List (Fin (nrArtificial + n))
  | (k, a) :: as, (r, c) :: rs =>
    if a < r then Fin.castAdd n k :: mergeBasis as ((r, c) :: rs)
    else Fin.natAdd nrArtificial c :: mergeBasis ((k, a) :: as) rs
  | (k, _) :: as, [] => Fin.castAdd n k :: mergeBasis as []
  | [], (_, c) :: rs => Fin.natAdd nrArtificial c :: mergeBasis [] rs
  | [], [] => []
termination_by as rs => as.length + rs.length

/-- `Tableau::<_, Partially<_>>::new` (partially.rs:125-205). `real` is
`provider.pivot_element_indices()`. The subtraction `m - nr_real` aborts if there are too many
pivots; row numbers outside of the problem abort. -/
def newPartially (P : Provider m n) (real : List (Fin m × Fin n)) :
    Res (Tableau BI m ((m - real.length) + n)) := do
  if real.length > m then panic .underflow
  else
    let rows := artificialRows m (real.map fun p => (p.1 : ℕ))
    if h : ∀ k : Fin (m - real.length),
        rows.get (k.cast (by simp [rows, artificialRows, artificialRowsFrom_length])) < m then
      let columnToRow : Fin (m - real.length) → Fin m := fun k => ⟨_, h k⟩
      let basis := mergeBasis
        ((List.finRange (m - real.length)).map fun k => (k, (columnToRow k : ℕ)))
        (real.map fun p => ((p.1 : ℕ), p.2))
      if hb : basis.length = m then
        let basisIndices : Fin m → Fin ((m - real.length) + n) := fun i => basis.get (i.cast hb.symm)
        let carry ← Carry.createForPartiallyArtificial
          ((List.finRange (m - real.length)).map columnToRow) P.rhs basisIndices
        pure {
          carry
          basisColumns := Finset.univ.image basisIndices
          kind := artificialKind P columnToRow }
      else panic .indexOutOfBounds
    else panic .indexOutOfBounds

/-- Shift a set of column indices back (non_artificial.rs:165-167 and 210). -/
def shiftColumns {nrArtificial : ℕ} (s : Finset (Fin (nrArtificial + n))) : Res (Finset (Fin n)) :=
  if ∀ j ∈ s, nrArtificial ≤ (j : ℕ) then
    .ok (Finset.univ.filter fun j : Fin n => Fin.natAdd nrArtificial j ∈ s)
  else panic .underflow

/-- `from_artificial` (kind/non_artificial.rs:151-172). -/
def fromArtificial {nrArtificial : ℕ} (carry : Carry BI m (nrArtificial + n))
    (basis : Finset (Fin (nrArtificial + n))) (P : Provider m n) : Res (Tableau BI m n) := do
  let carry ← carry.fromArtificial P
  let basisColumns ← shiftColumns basis
  pure { carry, basisColumns, kind := nonArtificialKind P }

/-- `from_artificial_removing_rows` (kind/non_artificial.rs:191-225). -/
def fromArtificialRemovingRows {nrArtificial : ℕ} (carry : Carry BI m (nrArtificial + n))
    (basis : Finset (Fin (nrArtificial + n))) (P : Provider m n) (rows : List (Fin m)) :
    Res (Tableau BI (keptLen rows) n) := do
  let basis := rows.foldl (fun basis row => basis.erase (carry.basisIndices row)) basis
  let basisColumns ← shiftColumns basis
  let carry ← carry.fromArtificialRemoveRows P rows
  pure { carry, basisColumns, kind := nonArtificialKind (P.removeRows rows) }

end Tableau

/-! ### Pivot rules -/

/-- `PivotRule` (pivot_rule.rs:22-54). -/
class PivotRule (R : ℕ → Type) where
  /-- `new` -/
  new : {BI : ℕ → Type} → [BasisInverse BI] → {m N : ℕ} → Tableau BI m N → Res (R N)
  /-- `select_primal_pivot_column` -/
  select : {BI : ℕ → Type} → [BasisInverse BI] → {m N : ℕ} → R N → Tableau BI m N →
    Res (Option (Fin N × ℚ) × R N)
  /-- `after_basis_update` -/
  afterUpdate : {BI : ℕ → Type} → [BasisInverse BI] → {m N : ℕ} → R N → BasisChangeInfo m N →
    Tableau BI m N → Res (R N)

/-- `FirstProfitable` (pivot_rule.rs:87-109). -/
inductive FirstProfitable (N : ℕ)
  | mk

instance : PivotRule FirstProfitable where
  new _ := .ok .mk
  select r t := .ok (t.candidates.find? (fun p => decide (p.2 < 0)), r)
  afterUpdate r _ _ := .ok r

/-- `FirstProfitableWithMemory` (pivot_rule.rs:116-150). -/
structure FirstProfitableWithMemory (N : ℕ) where
  lastSelected : Option (Fin N)

instance : PivotRule FirstProfitableWithMemory where
  new _ := .ok ⟨none⟩
  select {_ _ _ N} r t :=
    let find (lower upper : ℕ) := (t.candidatesIn lower upper).find? fun p => decide (p.2 < 0)
    let potential := match r.lastSelected with
      | none => find t.kind.start N
      | some last => (find (last + 1) N).or (find t.kind.start last)
    .ok (potential, ⟨potential.map (·.1)⟩)
  afterUpdate r _ _ := .ok r

/-- `SteepestDescentAlongVariable` (pivot_rule.rs:154-187). -/
inductive SteepestDescentAlongVariable (N : ℕ)
  | mk

/-- The loop at pivot_rule.rs:171-183. -/
def steepestVariableStep {N : ℕ} (smallest : Option (Fin N × ℚ)) (p : Fin N × ℚ) :
    Option (Fin N × ℚ) :=
  match smallest with
  | some existing => if p.2 < existing.2 then some p else some existing
  | none => some p

instance : PivotRule SteepestDescentAlongVariable where
  new _ := .ok .mk
  select r t :=
    .ok ((t.candidates.filter fun p => p.2 < 0).foldl steepestVariableStep none, r)
  afterUpdate r _ _ := .ok r

/-- `SteepestDescentAlongObjective` (pivot_rule.rs:190-196). -/
structure SteepestDescentAlongObjective (N : ℕ) where
  gamma : Fin N → Option ℚ

namespace SteepestDescentAlongObjective

variable {BI : ℕ → Type} [BasisInverse BI] {m N : ℕ}

/-- `initial_gamma` (pivot_rule.rs:299-305). -/
def initialGamma (j : Fin N) (t : Tableau BI m N) : Res ℚ := do
  let info ← t.generateColumn j
  pure (1 + SVec.squaredNorm (infoColumn info))

/-- `new` (pivot_rule.rs:202-219). -/
def new (t : Tableau BI m N) : Res (SteepestDescentAlongObjective N) := do
  let gamma ← tabulateM fun j : Fin N =>
    if t.kind.start ≤ (j : ℕ) ∧ !t.isInBasis j then do
      let g ← initialGamma j t
      pure (some g)
    else pure none
  pure ⟨gamma⟩

/-- The keys of `max_by_key` (pivot_rule.rs:235-240); an abort if a weight is missing. -/
def keys (gamma : Fin N → Option ℚ) : List (Fin N × ℚ) → Res (List ((Fin N × ℚ) × ℚ))
  | [] => .ok []
  | p :: l =>
    match gamma p.1 with
    | none => panic .missingWeight
    | some g =>
      if g = 0 then panic .divisionByZero else
      match keys gamma l with
      | .error e => .error e
      | .ok ks => .ok ((p, p.2 * p.2 / g) :: ks)

/-- `Iterator::max_by_key`: the last of the maximal elements. -/
def maxStep (best : Option ((Fin N × ℚ) × ℚ)) (p : (Fin N × ℚ) × ℚ) :
    Option ((Fin N × ℚ) × ℚ) :=
  match best with
  | some q => if q.2 ≤ p.2 then some p else some q
  | none => some p

/-- `select_primal_pivot_column` (pivot_rule.rs:221-241). -/
def select (r : SteepestDescentAlongObjective N) (t : Tableau BI m N) :
    Res (Option (Fin N × ℚ) × SteepestDescentAlongObjective N) := do
  let ks ← keys r.gamma (t.candidates.filter fun p => p.2 < 0)
  pure ((ks.foldl maxStep none).map (·.1), r)

/-- The update of one weight (pivot_rule.rs:262-290). -/
def updateGamma (info : BasisChangeInfo m N) (gammaQ : ℚ) (column : Sparse m) (gamma : ℚ) : ℚ :=
  let alphaBar := SVec.innerProduct info.basisInverseRow column
  if alphaBar ≠ 0 then
    let alphaBarSquared := alphaBar * alphaBar
    let innerProduct := SVec.innerProduct info.workVector column
    let gamma := if innerProduct ≠ 0 then
        gamma - alphaBar * innerProduct - alphaBar * innerProduct
      else gamma
    let gamma := gamma + alphaBarSquared * gammaQ
    let alternative := 1 + alphaBarSquared
    if gamma < alternative then alternative else gamma
  else
    if gamma < 1 then 1 else gamma

/-- `after_basis_update` (pivot_rule.rs:243-296). -/
def afterUpdate (r : SteepestDescentAlongObjective N) (info : BasisChangeInfo m N)
    (t : Tableau BI m N) : Res (SteepestDescentAlongObjective N) :=
  let gamma := Function.update r.gamma info.pivotColumn none
  let gammaQ := 1 + SVec.squaredNorm info.columnBeforeChange
  let gamma : Fin N → Option ℚ := fun j =>
    if t.kind.start ≤ (j : ℕ) then (gamma j).map (updateGamma info gammaQ (t.kind.column j))
    else gamma j
  match SVec.get? info.columnBeforeChange info.pivotRow with
  | none => panic .pivotZero
  | some w =>
    if w = 0 then panic .divisionByZero
    else .ok ⟨Function.update gamma info.leavingColumn (some (gammaQ / (w * w)))⟩

end SteepestDescentAlongObjective

instance : PivotRule SteepestDescentAlongObjective where
  new := SteepestDescentAlongObjective.new
  select := SteepestDescentAlongObjective.select
  afterUpdate := SteepestDescentAlongObjective.afterUpdate

end Relp
