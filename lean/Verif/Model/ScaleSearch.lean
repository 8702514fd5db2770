import Verif.Model.Scale
import Mathlib.Data.List.Sort
import Mathlib.Data.List.Dedup

/-!
# Model of the computation of a scaling

Models `/repo/src/data/linear_program/general_form/presolve/scale/rational/mod.rs`. Factors are natural
numbers and powers are integers; overflow of powers (`i32`) is not modelled. Factorisation of a number is
done by `relp-num` and is a parameter here. The lists of a `Factorized` belong to one problem and have its
dimensions; reading them out of range, which would abort, is modelled as reading an entry without factors.
-/

namespace Relp

namespace Scaling

/-- `Factorization` (scale/rational/mod.rs:74). -/
abbrev Factorization := List (ℕ × ℤ)

/-- `GeneralFormFactorization` (scale/rational/mod.rs:78-112). -/
structure Factorized where
  factors : List ℕ
  b : List (Option Factorization)
  c : List (Option Factorization)
  bounds : List (Option Factorization × Option Factorization)
  constraints : List (List (ℕ × Factorization))
  deriving DecidableEq

/-- Factorisation of a number that might be zero, in `factorize` (scale/rational/mod.rs:600-635). -/
def factorizeNonZero (factorize : ℚ → Factorization) (v : ℚ) : Option Factorization :=
  if v ≠ 0 then some (factorize v) else none

/-- `GeneralForm::factorize` (scale/rational/mod.rs:595-648). -/
def factorizeForm (factorize : ℚ → Factorization) (G : GeneralForm) : Factorized :=
  let b := G.b.map (factorizeNonZero factorize)
  let c := G.vars.map fun v => factorizeNonZero factorize v.cost
  let bounds := G.vars.map fun v =>
    (v.lowerBound.bind (factorizeNonZero factorize), v.upperBound.bind (factorizeNonZero factorize))
  let constraints := G.constraints.data.map fun column => column.map fun p => (p.1, factorize p.2)
  let all := b.filterMap id ++ c.filterMap id ++ (bounds.filterMap (·.1) ++ bounds.filterMap (·.2)) ++
    constraints.flatMap fun column => column.map (·.2)
  ⟨((all.flatMap fun f => f.map (·.1)).dedup).insertionSort (· ≤ ·), b, c, bounds, constraints⟩

/-- Why the search stops without a result. -/
inductive Stop
  | fuel
  | panic
  deriving DecidableEq

/-- `initial_exponent` (scale/rational/mod.rs:521-531), for the last of the factors. -/
def initialExponent (factor : ℕ) (f : Factorization) : ℤ :=
  match f.getLast? with
  | some (g, power) => if g = factor then power else 0
  | none => 0

/-- `count_positive` (scale/rational/mod.rs:466-487), for weight one, for the exponent after all changes; the
two counts are `on_increase` and `on_decrease`. -/
def countPositive (exponent : ℤ) (counts : ℤ × ℤ) : ℤ × ℤ :=
  match compare exponent 0 with
  | .lt => (counts.1 - 1, counts.2 + 1)
  | .eq => (counts.1 + 1, counts.2 + 1)
  | .gt => (counts.1 + 1, counts.2 - 1)

/-- `count_negative` (scale/rational/mod.rs:384-407), likewise. -/
def countNegative (exponent : ℤ) (counts : ℤ × ℤ) : ℤ × ℤ :=
  match compare exponent 0 with
  | .lt => (counts.1 + 1, counts.2 - 1)
  | .eq => (counts.1 + 1, counts.2 + 1)
  | .gt => (counts.1 - 1, counts.2 + 1)

/-- The changes of powers of one factor in cost row, constraints and columns
(scale/rational/mod.rs:180-182). -/
structure Changes where
  cost : ℤ
  rows : List ℤ
  columns : List ℤ
  deriving DecidableEq

/-- The entry of a list of optional factorisations. -/
def entry (l : List (Option Factorization)) (i : ℕ) : Option Factorization := (l[i]?).join

/-- The counts in `update_column` (scale/rational/mod.rs:261-293) if the column is changed by `change`. -/
def columnCounts (d : Factorized) (factor : ℕ) (changes : Changes) (j : ℕ) (change : ℤ) : ℤ × ℤ :=
  let counts := match entry d.c j with
    | some f => countPositive (initialExponent factor f + changes.cost + change) (0, 0)
    | none => (0, 0)
  let counts := (d.constraints.getD j []).foldl (fun counts p =>
    countPositive (initialExponent factor p.2 + changes.rows.getD p.1 0 + change) counts) counts
  let bounds := d.bounds.getD j (none, none)
  let counts := match bounds.1 with
    | some f => countNegative (initialExponent factor f - change) counts
    | none => counts
  match bounds.2 with
  | some f => countNegative (initialExponent factor f - change) counts
  | none => counts

/-- The entries of row `i` with their columns: what `build_index` (scale/rational/mod.rs:155-165) finds, with
the values looked up. -/
def rowEntries (d : Factorized) (i : ℕ) : List (ℕ × Factorization) :=
  d.constraints.zipIdx.flatMap fun q => (q.1.filter fun p => p.1 = i).map fun p => (q.2, p.2)

/-- The counts in `do_constraint` (scale/rational/mod.rs:337-356) if the row is changed by `change`. -/
def rowCounts (d : Factorized) (factor : ℕ) (changes : Changes) (i : ℕ) (change : ℤ) : ℤ × ℤ :=
  let counts := (rowEntries d i).foldl (fun counts p =>
    countPositive (initialExponent factor p.2 + change + changes.columns.getD p.1 0) counts) (0, 0)
  match entry d.b i with
  | some f => countPositive (initialExponent factor f + change + 0) counts
  | none => counts

/-- Counting one cost coefficient in `do_cost` (scale/rational/mod.rs:427-436). -/
def countCost (factor : ℕ) (changes : Changes) (change : ℤ) (counts : ℤ × ℤ) (q : Option Factorization × ℕ) : ℤ × ℤ :=
  match q.1 with
  | some f => countPositive (initialExponent factor f + change + changes.columns.getD q.2 0) counts
  | none => counts

/-- The counts in `do_cost` (scale/rational/mod.rs:424-436) if the cost row is changed by `change`. -/
def costCounts (d : Factorized) (factor : ℕ) (changes : Changes) (change : ℤ) : ℤ × ℤ :=
  d.c.zipIdx.foldl (countCost factor changes change) (0, 0)

/-- The `while` loops of `update_column`, `do_constraint` and `do_cost` (scale/rational/mod.rs:260-311,
335-374, 422-454): the new change, and whether a change was made. It is a debug assertion that not both
directions are profitable. -/
def adjust (counts : ℤ → ℤ × ℤ) : (fuel : ℕ) → ℤ → Except Stop (ℤ × Bool)
  | 0, _ => .error .fuel
  | fuel + 1, change =>
    let onIncrease := (counts change).1
    let onDecrease := (counts change).2
    let increased := if onIncrease < 0 then change + 1 else change
    let changed := if onDecrease < 0 then increased - 1 else increased
    if onIncrease < 0 ∧ onDecrease < 0 then .error .panic
    else if onIncrease < 0 ∨ onDecrease < 0 then do
      let r ← adjust counts fuel changed
      pure (r.1, true)
    else pure (change, false)

/-- `RowToIncrement` (scale/rational/mod.rs:582-586). -/
inductive RowToIncrement
  | costRow
  | constraintRow (i : ℕ)
  deriving DecidableEq

/-- The variables of `solve_single` (scale/rational/mod.rs:180-188). -/
structure SearchState where
  changes : Changes
  rowQueue : List RowToIncrement
  columnQueue : List ℕ
  deriving DecidableEq

/-- `FIFOSet::push`: at the end, unless it is present. -/
def push {α : Type} [DecidableEq α] (queue : List α) (x : α) : List α := if x ∈ queue then queue else queue ++ [x]

/-- `update_column` (scale/rational/mod.rs:247-318). -/
def updateColumn (d : Factorized) (factor fuel : ℕ) (s : SearchState) (j : ℕ) : Except Stop SearchState := do
  let r ← adjust (columnCounts d factor s.changes j) fuel (s.changes.columns.getD j 0)
  pure { s with
    changes := { s.changes with columns := s.changes.columns.set j r.1 }
    rowQueue := if r.2 then (d.constraints.getD j []).foldl (fun queue p => push queue (.constraintRow p.1)) s.rowQueue
      else s.rowQueue }

/-- `do_constraint` (scale/rational/mod.rs:324-381). -/
def doConstraint (d : Factorized) (factor fuel : ℕ) (s : SearchState) (i : ℕ) : Except Stop SearchState := do
  let r ← adjust (rowCounts d factor s.changes i) fuel (s.changes.rows.getD i 0)
  pure { s with
    changes := { s.changes with rows := s.changes.rows.set i r.1 }
    columnQueue := if r.2 then (rowEntries d i).foldl (fun queue p => push queue p.1) s.columnQueue
      else s.columnQueue }

/-- `do_cost` (scale/rational/mod.rs:413-463). -/
def doCost (d : Factorized) (factor fuel : ℕ) (s : SearchState) : Except Stop SearchState := do
  let r ← adjust (costCounts d factor s.changes) fuel s.changes.cost
  pure { s with
    changes := { s.changes with cost := r.1 }
    columnQueue := if r.2 then d.c.zipIdx.foldl (fun queue q => if q.1.isSome then push queue q.2 else queue)
        s.columnQueue
      else s.columnQueue }

/-- The loop of `solve_single` (scale/rational/mod.rs:191-212) with `constraint_or_variable`
(scale/rational/mod.rs:223-241). -/
def searchLoop (d : Factorized) (factor : ℕ) : (fuel : ℕ) → SearchState → Except Stop Changes
  | 0, _ => .error .fuel
  | fuel + 1, s =>
    if s.rowQueue.isEmpty ∧ s.columnQueue.isEmpty then .ok s.changes
    else if s.rowQueue.length * d.c.length ≤ s.columnQueue.length * d.b.length then
      match s.columnQueue with
      | [] => .error .panic
      | j :: queue => do
        let s ← updateColumn d factor fuel { s with columnQueue := queue } j
        searchLoop d factor fuel s
    else
      match s.rowQueue with
      | [] => .error .panic
      | .constraintRow i :: queue => do
        let s ← doConstraint d factor fuel { s with rowQueue := queue } i
        searchLoop d factor fuel s
      | .costRow :: queue => do
        let s ← doCost d factor fuel { s with rowQueue := queue }
        searchLoop d factor fuel s

/-- `solve_single` (scale/rational/mod.rs:175-216) for the last factor, which is not removed yet. -/
def solveSingle (fuel : ℕ) (d : Factorized) (factor : ℕ) : Except Stop Changes :=
  searchLoop d factor fuel ⟨⟨0, List.replicate d.b.length 0, List.replicate d.c.length 0⟩,
    (List.range d.b.length).map .constraintRow ++ [.costRow], List.range d.c.length⟩

/-- Removing the last factor from a factorisation (scale/rational/mod.rs:538-541). -/
def removeFactor (factor : ℕ) (f : Factorization) : Factorization :=
  match f.getLast? with
  | some (g, _) => if g = factor then f.dropLast else f
  | none => f

/-- `remove_factor_info` (scale/rational/mod.rs:533-573). -/
def removeFactorInfo (factor : ℕ) (d : Factorized) : Factorized where
  factors := d.factors.dropLast
  b := d.b.map (·.map (removeFactor factor))
  c := d.c.map (·.map (removeFactor factor))
  bounds := d.bounds.map fun q => (q.1.map (removeFactor factor), q.2.map (removeFactor factor))
  constraints := d.constraints.map fun column => column.map fun p => (p.1, removeFactor factor p.2)

/-- `solve` (scale/rational/mod.rs:136-148); the factors that remain are listed from the last one on. -/
def solveFactors (fuel : ℕ) : (factors : List ℕ) → Factorized → Except Stop (List (ℕ × Changes))
  | [], _ => .ok []
  | factor :: factors, d => do
    let changes ← solveSingle fuel d factor
    let rest ← solveFactors fuel factors (removeFactorInfo factor d)
    pure ((factor, changes) :: rest)

/-- `combine_factors` (scale/rational/mod.rs:652-731). Repeated multiplication or division is a power. -/
def combineFactors : List (ℕ × Changes) → Except Stop Scaling
  | [] => .error .panic
  | first :: rest => .ok <| (first :: rest).foldl (fun s q => ⟨s.costFactor * (q.1 : ℚ) ^ q.2.cost,
      List.zipWith (fun r k => r * (q.1 : ℚ) ^ k) s.rowFactors q.2.rows,
      List.zipWith (fun c k => c * (q.1 : ℚ) ^ (-k)) s.columnFactors q.2.columns⟩)
    ⟨1, List.replicate first.2.rows.length 1, List.replicate first.2.columns.length 1⟩

/-- `Scalable::scale` (scale/rational/mod.rs:52-63): the scaled problem and the scaling. -/
def compute (factorize : ℚ → Factorization) (fuel : ℕ) (G : GeneralForm) : Except Stop (GeneralForm × Scaling) := do
  let d := factorizeForm factorize G
  let perFactor ← solveFactors fuel d.factors.reverse d
  let s ← combineFactors perFactor
  match s.scale G with
  | some H => pure (H, s)
  | none => .error .panic

end Scaling

end Relp
