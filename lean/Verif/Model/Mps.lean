import Verif.Model.Number
import Verif.Model.GeneralForm

/-!
# Model of the conversion of an MPS program into a `GeneralForm`

Models `/repo/src/io/mps/mod.rs` and `/repo/src/io/mps/convert.rs`. All numbers are rational; the
conversion between number types `From<FI>` is the identity.
-/

namespace Relp

namespace Mps

/-- `ConstraintRelation` (elements.rs:28-37). -/
inductive Relation
  | less
  | equal
  | greater
  deriving DecidableEq

/-- `From<ConstraintRelation> for RangedConstraintRelation` (elements.rs:70-78). -/
def Relation.toConstraintType : Relation → ConstraintType
  | .less => .less
  | .equal => .equal
  | .greater => .greater

/-- `BoundType` (mps/mod.rs:160-183). -/
inductive BoundType
  | lowerContinuous (value : ℚ)
  | upperContinuous (value : ℚ)
  | fixed (value : ℚ)
  | free
  | lowerMinusInfinity
  | upperInfinity
  | binary
  | lowerInteger (value : ℚ)
  | upperInteger (value : ℚ)
  | semiContinuous (lower upper : ℚ)
  deriving DecidableEq

/-- `Row` (mps/mod.rs:187-192). -/
structure Row where
  name : Text
  relation : Relation
  deriving DecidableEq

/-- `Column` (mps/mod.rs:198-205). -/
structure Column where
  name : Text
  variableType : VariableType
  values : SVec ℕ
  deriving DecidableEq

/-- `Rhs`, `Range` and `Bound` (mps/mod.rs:205-250). -/
structure Listing (α : Type) where
  name : Text
  values : List (ℕ × α)
  deriving DecidableEq

end Mps

open Mps in
/-- `MPS` (mps/mod.rs:50-79). -/
structure Mps where
  name : Text
  objective : Objective
  costRowName : Text
  costValues : SVec ℕ
  rows : List Row
  columns : List Column
  rhss : List (Listing ℚ)
  ranges : List (Listing ℚ)
  bounds : List (Listing BoundType)
  deriving DecidableEq

namespace Mps

/-- Names and values of all groups, in order: `flat_map(|group| group.values)`. -/
def flatten {α : Type} (groups : List (Listing α)) : List (ℕ × α) := groups.flatMap (·.values)

/-- Body of a loop over entries `(index, value)` that updates the element with that index; an index out of
range aborts. -/
def updateAt {σ α : Type} (f : σ → α → Import σ) (states : List σ) (entry : ℕ × α) : Import (List σ) :=
  match states[entry.1]? with
  | none => .error .panic
  | some s => do
    let s ← f s entry.2
    pure (states.set entry.1 s)

/-! ### Variables -/

/-- The variables with their cost but without bounds (convert.rs:106-121). `next_if` takes the first of
the remaining cost values only if it is for this column. -/
def assignCosts : ℕ → List Column → SVec ℕ → List Variable
  | _, [], _ => []
  | j, column :: columns, [] => ⟨column.variableType, 0, none, none, 0, false⟩ :: assignCosts (j + 1) columns []
  | j, column :: columns, (jj, v) :: costs =>
    if jj = j then ⟨column.variableType, v, none, none, 0, false⟩ :: assignCosts (j + 1) columns costs
    else ⟨column.variableType, 0, none, none, 0, false⟩ :: assignCosts (j + 1) columns ((jj, v) :: costs)

/-- `replace_existing_with` (convert.rs:271-282). -/
def replaceExistingWith (option : Option ℚ) (newValue : ℚ) (ordering : Ordering) : Option ℚ :=
  match option with
  | some existing => if compare newValue existing = ordering then some newValue else some existing
  | none => some newValue

/-- `process_bound` (convert.rs:202-261): the new variable, whether it may still need the default lower
bound, and whether it is free. -/
def processBound (boundType : BoundType) (v : Variable) : Import (Variable × Bool × Bool) :=
  match boundType with
  | .lowerContinuous value =>
    .ok ({ v with lowerBound := replaceExistingWith v.lowerBound value .gt }, false, false)
  | .upperContinuous value =>
    .ok ({ v with upperBound := replaceExistingWith v.upperBound value .lt }, true, false)
  | .fixed value =>
    .ok ({ v with
      lowerBound := replaceExistingWith v.lowerBound value .gt
      upperBound := replaceExistingWith v.upperBound value .lt }, false, false)
  | .free =>
    if v.lowerBound.isSome || v.upperBound.isSome then .error .inconsistency
    else .ok (v, false, true)
  | .lowerMinusInfinity =>
    .ok ({ v with upperBound := replaceExistingWith v.upperBound 0 .lt }, false, false)
  | .upperInfinity =>
    .ok ({ v with lowerBound := replaceExistingWith v.lowerBound 0 .gt }, false, false)
  | .binary =>
    .ok ({ v with
      lowerBound := replaceExistingWith v.lowerBound 0 .gt
      upperBound := replaceExistingWith v.upperBound 1 .lt
      variableType := .integer }, false, false)
  | .lowerInteger value =>
    .ok ({ v with
      lowerBound := replaceExistingWith v.lowerBound value .gt
      variableType := .integer }, false, false)
  | .upperInteger value =>
    .ok ({ v with
      upperBound := replaceExistingWith v.upperBound value .lt
      variableType := .integer }, true, false)
  | .semiContinuous _ _ => .error .panic

/-- A variable with its entries of `needs_default_lower_bound` and `variable_is_free`
(convert.rs:157-158). -/
structure BoundState where
  var : Variable
  needsDefault : Bool
  isFree : Bool
  deriving DecidableEq

/-- Body of the loop of `process_bounds` (convert.rs:162-167) for the variable of the bound. -/
def processBoundState (s : BoundState) (boundType : BoundType) : Import BoundState := do
  let (v, needsDefault, isFree) ← processBound boundType s.var
  pure ⟨v, s.needsDefault && needsDefault, s.isFree || isFree⟩

/-- `process_bounds` (convert.rs:145-182) with `fill_in_default_lower_bounds` (convert.rs:290-305). -/
def processBounds (vars : List Variable) (bounds : List (Listing BoundType)) : Import (List Variable) := do
  let states ← (flatten bounds).foldlM (updateAt processBoundState) (vars.map fun v => ⟨v, true, false⟩)
  if states.any fun s => s.isFree && (s.var.lowerBound.isSome || s.var.upperBound.isSome) then
    .error .inconsistency
  else
    pure (states.map fun s => if s.needsDefault then { s.var with lowerBound := some 0 } else s.var)

/-- `compute_variable_info` (convert.rs:92-132). -/
def computeVariableInfo (columns : List Column) (costValues : SVec ℕ) (bounds : List (Listing BoundType))
    (nrRows : ℕ) : Import (List Variable × SparseMatrix × List String) := do
  let info ← processBounds (assignCosts 0 columns costValues) bounds
  pure (info, ⟨columns.map (·.values), columns.length, nrRows⟩, columns.map fun c => String.ofList c.name)

/-! ### Constraints -/

/-- Two adjacent elements have the same index: what `dedup_by_key` removes, and what `windows(2)` searches
for. -/
def hasAdjacentDuplicate {α : Type} : List (ℕ × α) → Bool
  | p :: q :: l => p.1 == q.1 || hasAdjacentDuplicate (q :: l)
  | _ => false

/-- `sort_unstable_by_key` on the index. Simplified to a stable sort; the callers fail or do not care if
there are equal indices. -/
def sortByIndex {α : Type} (l : List (ℕ × α)) : List (ℕ × α) := l.insertionSort fun p q => p.1 ≤ q.1

/-- The rows that occur more than once, as often as they occur again (convert.rs:361-372). Out of range
rows abort. -/
def duplicateRows (nrRows : ℕ) : List ℕ → List (ℕ × ℚ) → Import (List ℕ)
  | _, [] => .ok []
  | seen, (i, _) :: l =>
    if nrRows ≤ i then .error .panic
    else if i ∈ seen then do
      let rest ← duplicateRows nrRows seen l
      pure (i :: rest)
    else duplicateRows nrRows (i :: seen) l

/-- The values of all right-hand sides of a row (convert.rs:377-379). -/
def valuesOf {α : Type} (l : List (ℕ × α)) (i : ℕ) : List α := (l.filter fun p => p.1 = i).map (·.2)

/-- `compute_ranges` (convert.rs:338-388). -/
def computeRanges (rhss : List (Listing ℚ)) (ranges : List (Listing ℚ)) (nrRows : ℕ) :
    Import (List (ℕ × ℚ)) :=
  if ranges.isEmpty then .ok []
  else
    let rangeRows := sortByIndex (flatten ranges)
    if hasAdjacentDuplicate rangeRows then .error .inconsistency
    else do
      let duplicates ← duplicateRows nrRows [] (flatten rhss)
      if duplicates.any fun i => rangeRows.any (fun p => p.1 = i) &&
          (match valuesOf (flatten rhss) i with
          | [] => false
          | first :: values => values.any fun v => v ≠ first) then
        .error .inconsistency
      else pure rangeRows

/-- `compute_constraint_types` (convert.rs:401-423). -/
def computeConstraintTypes : ℕ → List Row → List (ℕ × ℚ) → List ConstraintType
  | _, [], _ => []
  | i, row :: rows, [] => row.relation.toConstraintType :: computeConstraintTypes (i + 1) rows []
  | i, row :: rows, (ii, r) :: ranges =>
    if ii = i then
      (if r = 0 then .equal else .range r) :: computeConstraintTypes (i + 1) rows ranges
    else row.relation.toConstraintType :: computeConstraintTypes (i + 1) rows ((ii, r) :: ranges)

/-- A row with its entries of `constraints` and `b` (convert.rs:457-466). -/
structure RowState where
  relation : Relation
  type : ConstraintType
  b : Option ℚ
  deriving DecidableEq

/-- Body of the loop of `compute_b` (convert.rs:466-503) for the row of the value. -/
def computeBRow (s : RowState) (value : ℚ) : Import RowState :=
  match s.b with
  | none =>
    match s.type with
    | .range r =>
      let range := if r < 0 then -r else r
      let bound := match s.relation, compare r 0 with
        | .greater, _ => value + range
        | .less, _ => value
        | .equal, .gt => value + range
        | .equal, .eq => value + range
        | .equal, .lt => value
      .ok ⟨s.relation, .range range, some bound⟩
    | _ => .ok { s with b := some value }
  | some current =>
    match s.relation with
    | .equal => if value ≠ current then .error .inconsistency else .ok s
    | .greater => .ok (if value > current then { s with b := some value } else s)
    | .less => .ok (if value < current then { s with b := some value } else s)

/-- `compute_constraint_info` (convert.rs:315-332) with `compute_b` (convert.rs:445-509). -/
def computeConstraintInfo (rows : List Row) (rhss : List (Listing ℚ)) (ranges : List (Listing ℚ)) :
    Import (List ConstraintType × List ℚ) := do
  let ranges ← computeRanges rhss ranges rows.length
  let types := computeConstraintTypes 0 rows ranges
  let states ← (flatten rhss).foldlM (updateAt computeBRow)
    ((rows.zip types).map fun p => ⟨p.1.relation, p.2, none⟩)
  pure (states.map (·.type), states.map fun s => s.b.getD 0)

/-- `TryInto<GeneralForm>` (convert.rs:51-73). -/
def toGeneralForm (p : Mps) : Import GeneralForm := do
  let (vars, columns, names) ← computeVariableInfo p.columns p.costValues p.bounds p.rows.length
  let (types, b) ← computeConstraintInfo p.rows p.rhss p.ranges
  pure (GeneralForm.new p.objective columns types b vars names 0)

end Mps

end Relp
