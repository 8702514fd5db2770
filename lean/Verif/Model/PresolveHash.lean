import Verif.Model.Presolve

/-!
# The end of presolving, with hash containers that are iterated in any order

`Verif/Model/Presolve.lean` models the last part of presolving by its effect: the maps of changes are functions,
and the entries that remain are kept together. This file models the same part line by line. A hash map is the
list of its entries, and each time the code iterates over a hash map, the entries come in the order that a
`HashOrder` gives: the standard library chooses that order at random, anew for each container. The maps that
the rules fill are listed for the rows and the variables of the problem; `C77_maps` states that they have no
other keys, so that no index is out of range here.
-/

namespace Relp

namespace Presolve

/-- The orders in which the hash containers are iterated: the number tells which of the loops it is. -/
structure HashOrder where
  order : {α : Type} → ℕ → List α → List α
  perm : ∀ {α : Type} (k : ℕ) (l : List α), (order k l).Perm l

/-- The order that a container is listed in. -/
def HashOrder.listed : HashOrder := ⟨fun _ l => l, fun _ l => List.Perm.refl l⟩

/-- The opposite order in every loop. -/
def HashOrder.reversed : HashOrder := ⟨fun _ l => l.reverse, fun _ l => l.reverse_perm⟩

/-- `HashMap::remove`. -/
def hashRemove {κ α : Type} [DecidableEq κ] (k : κ) (l : List (κ × α)) : List (κ × α) :=
  l.filter fun p => p.1 ≠ k

/-- `HashMap::get`. -/
def hashGet {κ α : Type} [DecidableEq κ] (k : κ) (l : List (κ × α)) : Option α :=
  (l.find? fun p => p.1 = k).map (·.2)

/-- `HashMap::insert`. -/
def hashInsert {κ α : Type} [DecidableEq κ] (k : κ) (v : α) (l : List (κ × α)) : List (κ × α) :=
  (k, v) :: hashRemove k l

/-- The entries of a map of `Updates` (updates.rs:31-35) that is keyed by the number of a row. -/
def entries {α : Type} (n : ℕ) (f : ℕ → Option α) : List (ℕ × α) :=
  (List.range n).filterMap fun i => (f i).map fun v => (i, v)

/-- The entries of a map of `Updates` (updates.rs:39, 63) that is keyed by a variable and a direction. -/
def directedEntries (n : ℕ) (f : ℕ → BoundDirection → Option ℚ) : List ((ℕ × BoundDirection) × ℚ) :=
  (List.range n).flatMap fun j =>
    ((f j .lower).map fun v => ((j, BoundDirection.lower), v)).toList ++
      ((f j .upper).map fun v => ((j, BoundDirection.upper), v)).toList

/-- `Changes` (updates.rs:464-487). -/
structure Changes where
  b : List (ℕ × ℚ)
  constraints : List (ℕ × ConstraintType)
  fixedCost : ℚ
  bounds : List ((ℕ × BoundDirection) × ℚ)
  removedVariables : List (ℕ × RemovedVariable)
  constraintsRemoved : List ℕ

/-- The second loop of `into_changes` (updates.rs:404-410), for a map of bounds. -/
def withoutVariables (removed : List (ℕ × RemovedVariable)) (l : List ((ℕ × BoundDirection) × ℚ)) :
    List ((ℕ × BoundDirection) × ℚ) :=
  removed.foldl (fun l p => hashRemove (p.1, .upper) (hashRemove (p.1, .lower) l)) l

/-- The first loop of `into_changes` (updates.rs:400-403), for a map keyed by rows. -/
def withoutRows {α : Type} (removed : List ℕ) (l : List (ℕ × α)) : List (ℕ × α) :=
  removed.foldl (fun l i => hashRemove i l) l

/-- The condition of the filter in `into_changes` (updates.rs:415-421), with `is_free`
(general_form/mod.rs:1032-1034). -/
def restrictable (G : GeneralForm) (bounds : List ((ℕ × BoundDirection) × ℚ)) (j : ℕ) : Bool :=
  (G.vars[j]?.any fun v => v.lowerBound.isNone && v.upperBound.isNone) &&
    (hashGet (j, BoundDirection.lower) bounds).isNone && (hashGet (j, BoundDirection.upper) bounds).isNone

/-- `into_changes` (updates.rs:398-452). The set `free_to_be_restricted` is a list here; it is only asked
whether it contains something. -/
def intoChanges (o : HashOrder) (G : GeneralForm) (u : Updates) : Changes :=
  let b := withoutRows u.constraintsRemoved (entries G.constraintTypes.length u.b)
  let constraints := withoutRows u.constraintsRemoved (entries G.constraintTypes.length u.constraints)
  let bounds := withoutVariables u.removedVariables (directedEntries G.vars.length u.bounds)
  let activityBounds := withoutVariables u.removedVariables (directedEntries G.vars.length u.activityBounds)
  let free := ((o.order 0 activityBounds).map (·.1.1)).filter (restrictable G bounds)
  let bounds := (o.order 1 activityBounds).foldl
    (fun bounds p => if p.1.1 ∈ free then hashInsert p.1 p.2 bounds else bounds) bounds
  { b := (o.order 2 b).filter fun p => G.b[p.1]? ≠ some p.2
    constraints := (o.order 3 constraints).filter fun p => G.constraintTypes[p.1]? ≠ some p.2
    fixedCost := u.fixedCost
    bounds := bounds
    removedVariables := u.removedVariables.mergeSort fun p q => decide (p.1 ≤ q.1)
    constraintsRemoved := u.constraintsRemoved.mergeSort }

/-- The assignment of a bound in `update_values_that_remain` (general_form/mod.rs:445-451). -/
def assignBound (vars : List Variable) (p : (ℕ × BoundDirection) × ℚ) : List Variable :=
  vars.modify p.1.1 fun v =>
    match p.1.2 with
    | .lower => { v with lowerBound := some p.2 }
    | .upper => { v with upperBound := some p.2 }

/-- `update_values_that_remain` (general_form/mod.rs:423-452). -/
def updateValuesThatRemain (o : HashOrder) (G : GeneralForm) (c : Changes) : GeneralForm :=
  { G with
    b := (o.order 4 c.b).foldl (fun b p => b.set p.1 p.2) G.b
    constraintTypes := c.constraints.foldl (fun types p => types.set p.1 p.2) G.constraintTypes
    fixedCost := G.fixedCost + c.fixedCost
    original := c.removedVariables.foldl
      (fun original p => original.modify p.1 fun q => (q.1, .removed p.2)) G.original
    vars := (o.order 5 c.bounds).foldl assignBound G.vars }

/-- The `while` loop of `remove_rows_and_columns` (general_form/mod.rs:474-476). -/
def advance (vars : List ℕ) (j skipped : ℕ) : ℕ :=
  if skipped < vars.length ∧ vars[skipped]? = some (j + skipped) then advance vars j (skipped + 1) else skipped
  termination_by vars.length - skipped

/-- The loop that moves the entries of `from_active_to_original` together (general_form/mod.rs:469-479). -/
def compact (vars fromActive : List ℕ) : List ℕ :=
  match vars with
  | [] => fromActive
  | first :: _ =>
    let newLength := fromActive.length - vars.length
    ((List.range' first (newLength - first)).foldl
      (fun s j =>
        let skipped := advance vars j s.1
        (skipped, s.2.set j (s.2.getD (j + skipped) 0))) (1, fromActive)).2.take newLength

/-- `remove_rows_and_columns` (general_form/mod.rs:463-496). -/
def removeRowsAndColumnsSorted (G : GeneralForm) (constraints vars : List ℕ) : Run GeneralForm := do
  let constraints := constraints.mergeSort
  let vars := vars.mergeSort
  let fromActive := compact vars G.fromActive
  let original ← if vars.isEmpty then pure G.original
    else fromActive.zipIdx.foldlM renumber G.original
  pure { G with
    constraints := (G.constraints.removeMajor vars).removeMinor constraints
    vars := removeListIndices vars G.vars
    fromActive := fromActive
    original := original
    constraintTypes := removeListIndices constraints G.constraintTypes
    b := removeListIndices constraints G.b }

/-- `presolve` (general_form/mod.rs:351-375) with `compute_presolve_changes` (386-409). -/
def presolveHashed (o : HashOrder) (fuel : ℕ) (G : GeneralForm) : Run GeneralForm := do
  let s ← Index.new G
  let s ← presolveLoop G fuel s 0
  let c := intoChanges o G s.updates
  let H := updateValuesThatRemain o G c
  let H ← removeRowsAndColumnsSorted H c.constraintsRemoved (c.removedVariables.map (·.1))
  let H := computeSolutionWherePossible H
  match getSolution H with
  | some solution => .error (.verdict (.finiteOptimum solution))
  | none => pure H

end Presolve

end Relp
