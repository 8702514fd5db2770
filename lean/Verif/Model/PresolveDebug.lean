import Verif.Model.Presolve
import Mathlib.Data.List.Sort

/-!
# Model of presolving in a debug build

In a debug build (`debug_assertions` enabled, the default of `cargo build` and `cargo test`) presolving
checks its own state while it runs and aborts if a check fails. The definitions here are those of
`Model/Presolve.lean` with these checks. A check that is made more than once in a row on the same state is
written once.

Not repeated here: checks that an index is below the length of a vector that is indexed right after, and
the checks of the matrix when its row-major copy is made (counters.rs:49, matrix.rs:425-427), which hold for
every matrix that was accepted when the problem was created.
-/

namespace Relp

/-- The pattern of the count in `is_consistent` (general_form/mod.rs:142-144). -/
def OriginalVariable.isSplit : OriginalVariable → Bool
  | .activeFree _ _ => true
  | _ => false

/-- The closure in `is_consistent` (general_form/mod.rs:155-159). -/
def OriginalVariable.position : OriginalVariable → Option ℕ
  | .active j => some j
  | .activeFree j _ => some j
  | _ => none

/-- `is_consistent` (general_form/mod.rs:138-204). A subtraction of `usize`s below zero and a
slice that is out of range abort, and count as a failed check here. -/
def GeneralForm.isConsistent (G : GeneralForm) : Bool :=
  let nrFree := G.original.countP fun p => p.2.isSplit
  let kept := G.original.filterMap fun p => p.2.position
  let nrOther := G.constraints.major - nrFree
  decide (nrFree ≤ G.constraints.major) &&
  G.b.length = G.constraints.minor &&
  G.constraintTypes.length = G.constraints.minor &&
  G.vars.length = G.constraints.major &&
  decide (nrOther ≤ G.original.length) &&
  decide (kept.Pairwise (· ≤ ·)) &&
  G.fromActive.length = G.constraints.major &&
  decide ((G.fromActive.take nrOther).Pairwise (· ≤ ·)) &&
  decide ((G.fromActive.drop nrOther).Pairwise (· ≤ ·)) &&
  (G.constraints.major = 0 || decide (G.fromActive.getD (G.constraints.major - 1) 0 < G.original.length))

namespace Presolve

/-- `debug_assert!(condition)`. -/
def check (condition : Bool) : Run Unit :=
  if condition then .ok () else .error (.abort .debugAssertion)

/-! ### Access to the problem -/

/-- Whether a variable has been removed. -/
def Updates.isRemoved (u : Updates) (j : ℕ) : Bool := u.removedVariables.any fun p => p.1 = j

/-- `iter_active_row` (counters.rs:113-119) with the check at 115. -/
def activeRowDebug (G : GeneralForm) (c : Counters) (i : ℕ) : Run (SVec ℕ) := do
  check (0 < c.constraint i)
  pure (activeRow G c i)

/-! ### Start -/

/-- The closure in `Updates::new` for a variable that is in no constraint (updates.rs:109-127) with the check
at 117. -/
def removeEmptyColumnDebug (G : GeneralForm) (s : ℚ × List (ℕ × RemovedVariable)) (j : ℕ) :
    Run (ℚ × List (ℕ × RemovedVariable)) := do
  check (feasibleValue (originalBound G j .lower) (originalBound G j .upper)).isSome
  removeEmptyColumn G s j

/-- `Updates::new` (updates.rs:102-158). -/
def Updates.newDebug (G : GeneralForm) (c : Counters) : Run Updates := do
  let (fixedCost, removedVariables) ← ((List.range G.vars.length).filter fun j => c.columns j = 0).foldlM
    (removeEmptyColumnDebug G) (0, [])
  let constraintsRemoved ← ((List.range G.constraintTypes.length).filter
    fun i => c.constraint i = 0).foldlM (removeEmptyRow G) []
  pure {
    b := fun _ => none
    constraints := fun _ => none
    fixedCost
    bounds := fun _ _ => none
    removedVariables
    constraintsRemoved
    activityBounds := fun _ _ => none }

/-- `Index::new` (presolve/mod.rs:79-93). -/
def Index.newDebug (G : GeneralForm) : Run Index := do
  let counters := Counters.new G
  let updates ← Updates.newDebug G counters
  pure { counters, updates, queues := Queues.new G counters, activityBounds := fun _ _ => none }

/-! ### Latest version of the problem -/

/-- `b` (updates.rs:163-168) with the check at 165. -/
def Updates.rhsDebug (G : GeneralForm) (u : Updates) (i : ℕ) : Run ℚ := do
  check (i ∉ u.constraintsRemoved)
  pure (u.rhs G i)

/-- `change_b` (updates.rs:170-179) with the check at 172. -/
def Updates.changeBDebug (G : GeneralForm) (u : Updates) (i : ℕ) (change : ℚ) : Run Updates := do
  check (i ∉ u.constraintsRemoved)
  pure (u.changeB G i change)

/-- `constraint_type` (updates.rs:185-191) with the check at 188. -/
def Updates.constraintTypeDebug (G : GeneralForm) (u : Updates) (i : ℕ) : Run ConstraintType := do
  check (i ∉ u.constraintsRemoved)
  pure (u.constraintType G i)

/-- `variable_bound` (updates.rs:232-251) with the checks at 233-241. -/
def Updates.variableBoundDebug (G : GeneralForm) (u : Updates) (j : ℕ) (d : BoundDirection) :
    Run (Option ℚ) := do
  check (!u.isRemoved j)
  check !((u.bounds j d).isSome && (u.activityBounds j d).isSome)
  pure (u.variableBound G j d)

/-- `is_variable_fixed` (updates.rs:194-205) with the check at 197. -/
def Updates.isVariableFixedDebug (G : GeneralForm) (u : Updates) (j : ℕ) : Run (Option ℚ) := do
  check (!u.isRemoved j)
  let lower ← u.variableBoundDebug G j .lower
  let upper ← u.variableBoundDebug G j .upper
  pure (match lower, upper with
    | some l, some r => if l = r then some l else none
    | _, _ => none)

/-- `variable_feasible_value` (updates.rs:207-229) with the check at 209. -/
def Updates.variableFeasibleValueDebug (G : GeneralForm) (u : Updates) (j : ℕ) : Run (Option ℚ) := do
  check (!u.isRemoved j)
  let lower ← u.variableBoundDebug G j .lower
  let upper ← u.variableBoundDebug G j .upper
  pure (feasibleValue lower upper)

/-- `update_bound` (updates.rs:267-306) with the check at 273. -/
def Updates.updateBoundDebug (G : GeneralForm) (u : Updates) (j : ℕ) (d : BoundDirection) (new : ℚ) :
    Run (Updates × BoundChange) := do
  check (!u.isRemoved j)
  pure (u.updateBound G j d new)

/-- `update_activity_variable_bound` (updates.rs:322-365) with the check at 328. -/
def Updates.updateActivityVariableBoundDebug (G : GeneralForm) (u : Updates) (j : ℕ)
    (d : BoundDirection) (new : ℚ) : Run (Updates × BoundChange) := do
  check (!u.isRemoved j)
  pure (u.updateActivityVariableBound G j d new)

/-! ### Shared steps -/

variable (G : GeneralForm)

/-- `remove_constraint` (presolve/mod.rs:370-374) with the check at 371. -/
def removeConstraintDebug (s : Index) (i : ℕ) : Run Index := do
  check (s.counters.constraint i = 0)
  pure (removeConstraint s i)

/-- `remove_variable` (presolve/mod.rs:381-385) with the check at 382. -/
def removeVariableDebug (s : Index) (j : ℕ) (solution : RemovedVariable) : Run Index := do
  check (s.counters.columns j = 0)
  pure (removeVariable s j solution)

/-- `queue_variable_by_counter` (presolve/mod.rs:303-325) with the check at 309, and
`optimize_column_independently` (updates.rs:368-388) with the check at 372. -/
def queueVariableByCounterDebug (s : Index) (j : ℕ) : Run Index :=
  match s.counters.columns j with
  | 0 => do
    let feasible ← s.updates.variableFeasibleValueDebug G j
    check feasible.isSome
    if costOf G j = 0 then do
      let value ← unwrap feasible
      removeVariableDebug s j (.solved value)
    else do
      check (costOf G j ≠ 0)
      let lower ← s.updates.variableBoundDebug G j .lower
      let upper ← s.updates.variableBoundDebug G j .upper
      let value ← optimizeIndependentColumn G.objective (costOf G j) lower upper
      removeVariableDebug { s with updates := { s.updates with
        fixedCost := s.updates.fixedCost + costOf G j * value } } j (.solved value)
  | 1 =>
    if costOf G j = 0 then pure { s with queues := { s.queues with slack := j :: s.queues.slack } }
    else pure s
  | _ => pure s

/-- `queue_constraint_by_counter` (presolve/mod.rs:345-363). -/
def queueConstraintByCounterDebug (s : Index) (i : ℕ) : Run Index :=
  match s.counters.constraint i with
  | 0 => do
    let rhs ← s.updates.rhsDebug G i
    let t ← s.updates.constraintTypeDebug G i
    if isEmptyConstraintFeasible rhs t then removeConstraintDebug s i
    else .error (.verdict .infeasible)
  | 1 => pure { s with queues := { s.queues with bound := i :: s.queues.bound } }
  | _ => pure s

/-- `remove_constraint_values` (presolve/mod.rs:282-298) with the check at 296. -/
def removeConstraintValuesDebug (s : Index) (i : ℕ) : Run Index := do
  let row ← activeRowDebug G s.counters i
  let s ← (row.map (·.1)).foldlM (fun s j => do
    let s ← decrementConstraint s i
    let s ← decrementColumn s j
    queueVariableByCounterDebug G s j) s
  check (s.counters.constraint i = 0)
  pure s

/-- Loop body of `update_activity_bounds` (presolve/mod.rs:227-242) with the check at 237. -/
def updateActivityBoundDebug (d : BoundDirection) (byHowMuch : ℚ) (s : Index) (p : ℕ × ℚ) : Run Index := do
  if 0 < s.counters.constraint p.1 ∧ (s.activityBounds p.1 (d.times p.2)).isSome then
    check (s.counters.activity p.1 (d.times p.2) ≤ 1)
  pure (updateActivityBound d byHowMuch s p)

/-- Whether a change makes a bound tighter (presolve/mod.rs:186, 220). -/
def tightens (change : ℚ) : BoundDirection → Bool
  | .lower => 0 < change
  | .upper => change < 0

/-- `update_activity_bounds` (presolve/mod.rs:214-244) with the check at 220. -/
def updateActivityBoundsDebug (s : Index) (j : ℕ) (d : BoundDirection) (byHowMuch : ℚ) : Run Index := do
  check (tightens byHowMuch d)
  (activeColumn G s.counters j).foldlM (updateActivityBoundDebug d byHowMuch) s

/-- `after_bound_change` (presolve/mod.rs:179-199) with the checks at 185 and 186; nothing if there was no
change. -/
def afterBoundChangeDebug (s : Index) (j : ℕ) (d : BoundDirection) (change : BoundChange) : Run Index :=
  let queued (s : Index) : Run Index := do
    check (!s.updates.isRemoved j)
    check (match change with
      | .boundShift difference => tightens difference d
      | _ => true)
    let fixed ← s.updates.isVariableFixedDebug G j
    if fixed.isSome ∧ 0 < s.counters.columns j then
      pure { s with queues := { s.queues with substitution := j :: s.queues.substitution } }
    else pure s
  match change with
  | .none => pure s
  | .newBound => do updateActivityCounters G (← queued s) j d
  | .boundShift difference => do updateActivityBoundsDebug G (← queued s) j d difference

/-! ### Fixed variables -/

/-- `presolve_fixed_variable` (rule/fixed_variable.rs:22-48) with the checks at 26 and 27. -/
def presolveFixedVariableDebug (s : Index) (j : ℕ) : Run Index := do
  check (!s.updates.isRemoved j)
  let fixed ← s.updates.isVariableFixedDebug G j
  check fixed.isSome
  let value ← unwrap fixed
  let u ← (activeColumn G s.counters j).foldlM
    (fun u p => u.changeBDebug G p.1 (-p.2 * value)) s.updates
  let s := { s with updates := { u with fixedCost := u.fixedCost + costOf G j * value } }
  let s ← ((activeColumn G s.counters j).map (·.1)).foldlM (fun s i => do
    let s ← decrementColumn s j
    let s ← decrementConstraint s i
    queueConstraintByCounterDebug G s i) s
  removeVariableDebug s j (.solved value)

/-! ### Bound constraints -/

/-- `presolve_bound_constraint` (rule/bound_constraint.rs:28-86) with the checks at 34, 35 and 38. -/
def presolveBoundConstraintDebug (s : Index) (i : ℕ) : Run Index := do
  check (s.counters.constraint i = 1)
  let row ← activeRowDebug G s.counters i
  check (row.length = 1)
  let (j, coefficient) ← unwrap row.head?
  check (s.counters.columns j ≠ 0)
  let rhs ← s.updates.rhsDebug G i
  let t ← s.updates.constraintTypeDebug G i
  let changes := boundsOfConstraint t rhs coefficient
  let s ← decrementColumn s j
  let s ← decrementConstraint s i
  let s ← removeConstraintDebug s i
  let s ← changes.foldlM (fun s p => do
    let (u, change) ← s.updates.updateBoundDebug G j p.1 p.2
    afterBoundChangeDebug G { s with updates := u } j p.1 change) s
  match ← s.updates.variableFeasibleValueDebug G j with
  | none => .error (.verdict .infeasible)
  | some _ => queueVariableByCounterDebug G s j

/-! ### Slack variables -/

/-- `compute_removed_variable_solution` (rule/slack.rs:202-216). -/
def removedVariableSolutionDebug (s : Index) (i j : ℕ) (coefficient : ℚ) : Run RemovedVariable := do
  let rhs ← s.updates.rhsDebug G i
  let row ← activeRowDebug G s.counters i
  pure (.functionOfOthers (rhs / coefficient)
    ((row.filter fun p => p.1 ≠ j).map fun p => (G.fromActive.getD p.1 0, p.2 / coefficient)))

/-- How the removed variable is computed later (rule/slack.rs:162-166). -/
def slackRemovedDebug (s : Index) (i j : ℕ) (coefficient bound : ℚ) : ConstraintType → Run RemovedVariable
  | .equal => removedVariableSolutionDebug G s i j coefficient
  | .range _ => removedVariableSolutionDebug G s i j coefficient
  | _ => pure (.solved bound)

/-- `presolve_slack` (rule/slack.rs:66-178) with the checks at 72-75. -/
def presolveSlackDebug (s : Index) (j : ℕ) : Run Index := do
  check (s.counters.columns j = 1)
  check ((activeColumn G s.counters j).length = 1)
  check (costOf G j = 0)
  let fixed ← s.updates.isVariableFixedDebug G j
  check fixed.isNone
  let (i, coefficient) ← unwrap (activeColumn G s.counters j).head?
  let t ← s.updates.constraintTypeDebug G i
  let lower ← s.updates.variableBoundDebug G j .lower
  let upper ← s.updates.variableBoundDebug G j .upper
  match slackCase t lower upper coefficient with
  | none =>
    let solution ← removedVariableSolutionDebug G s i j coefficient
    let row ← activeRowDebug G s.counters i
    let s ← (row.map (·.1)).foldlM (fun s k => do
      let s ← decrementConstraint s i
      let s ← decrementColumn s k
      if k ≠ j then queueVariableByCounterDebug G s k else pure s) s
    let s ← removeVariableDebug s j solution
    removeConstraintDebug s i
  | some (newType, bound) =>
    let removed ← slackRemovedDebug G s i j coefficient bound t
    let s ← decrementColumn s j
    let s ← removeVariableDebug s j removed
    let s ← activityQueueIfNeeded s i .lower (if 0 < coefficient then lower.isNone else upper.isNone)
    let s ← activityQueueIfNeeded s i .upper (if 0 < coefficient then upper.isNone else lower.isNone)
    let s ← decrementConstraint s i
    let s ← queueConstraintByCounterDebug G s i
    let u ← s.updates.changeBDebug G i (-coefficient * bound)
    pure { s with updates := { u with constraints := insertAt u.constraints i (some newType) } }

/-! ### Domain propagation -/

/-- The activity bound that `compute_activity_bound_if_needed` computes if there is none
(rule/domain_propagation.rs:136-149). -/
def computeActivityBoundDebug (s : Index) (i : ℕ) (d : BoundDirection) : Run ℚ := do
  let row ← activeRowDebug G s.counters i
  let terms ← row.mapM fun p => do
    let bound ← unwrap (← s.updates.variableBoundDebug G p.1 (d.times p.2))
    pure (p.2 * bound)
  pure terms.sum

/-- `compute_activity_bound_if_needed` (rule/domain_propagation.rs:119-153) with the check at 131. -/
def activityBoundIfNeededDebug (s : Index) (i : ℕ) (d : BoundDirection) : Run (Index × ℚ) := do
  check (s.counters.activity i d = 0)
  match s.activityBounds i d with
  | some bound => pure (s, bound)
  | none => do
    let bound ← computeActivityBoundDebug G s i d
    pure ({ s with activityBounds := insertAt2 s.activityBounds i d (some bound) }, bound)

/-- Loop body for `SetVariablesToBound` (rule/domain_propagation.rs:179-199) with the check at 190. -/
def setVariableToBoundDebug (d : BoundDirection) (s : Index × List (ℕ × BoundDirection)) (p : ℕ × ℚ) :
    Run (Index × List (ℕ × BoundDirection)) := do
  let variableDirection := d.times p.2
  let bound ← unwrap (← s.1.updates.variableBoundDebug G p.1 variableDirection)
  let u := match s.1.updates.activityBounds p.1 variableDirection with
    | some value =>
      { s.1.updates with
        activityBounds := insertAt2 s.1.updates.activityBounds p.1 variableDirection none
        bounds := insertAt2 s.1.updates.bounds p.1 variableDirection (some value) }
    | none => s.1.updates
  let (u, change) ← u.updateBoundDebug G p.1 variableDirection.flip bound
  let fixed ← u.isVariableFixedDebug G p.1
  check fixed.isSome
  pure ({ s.1 with updates := u, queues := { s.1.queues with
      substitution := p.1 :: s.1.queues.substitution } },
    if change = .newBound then s.2 ++ [(p.1, variableDirection.flip)] else s.2)

/-- `constraint_part` (rule/domain_propagation.rs:160-214); the constraint type and the right-hand side are
looked up at 247-248. -/
def constraintPartDebug (s : Index) (i : ℕ) (bound : ℚ) (d : BoundDirection) :
    Run (Index × Bool × Bool × Change) := do
  let rhs ← s.updates.rhsDebug G i
  let t ← s.updates.constraintTypeDebug G i
  match ← constraintUpdate d t rhs bound with
  | none => pure (s, false, true, .none)
  | some .remove => pure (s, true, true, .meaningful)
  | some (.replace t shift) =>
    let u := { s.updates with constraints := insertAt s.updates.constraints i (some t) }
    let u ← u.changeBDebug G i shift
    pure ({ s with updates := u }, false, true, .meaningful)
  | some .setVariablesToBound =>
    let row ← activeRowDebug G s.counters i
    let (s, new) ← row.foldlM (setVariableToBoundDebug G d) (s, [])
    let s ← new.foldlM (fun s p => updateActivityCounters G s p.1 p.2) s
    pure (s, true, false, .meaningful)

/-- `can_variable_rule_be_applied` (rule/domain_propagation.rs:434-451). -/
def variableRuleRhsDebug (s : Index) (i : ℕ) (d : BoundDirection) : Run (Option ℚ) := do
  let _ ← s.updates.rhsDebug G i
  let _ ← s.updates.constraintTypeDebug G i
  pure (variableRuleRhs G s i d)

/-- Loop body of `variable_part` (rule/domain_propagation.rs:345-374). -/
def variableStepDebug (rhs activityBound : ℚ) (d : BoundDirection) (s : Index × Change) (p : ℕ × ℚ) :
    Run (Index × Change) := do
  let newDirection := d.flip.times p.2
  let value ← unwrap (← s.1.updates.variableBoundDebug G p.1 (d.times p.2))
  let residual := activityBound - p.2 * value
  let new := (rhs - residual) / p.2
  let (u, change) ← s.1.updates.updateActivityVariableBoundDebug G p.1 newDirection new
  let t ← afterBoundChangeDebug G { s.1 with updates := u } p.1 newDirection change
  pure (t, match change with
    | .none => s.2
    | .newBound => .meaningful
    | .boundShift _ => if s.2 = .meaningful then .meaningful else .notMeaningful)

/-- `variable_part` (rule/domain_propagation.rs:334-375). -/
def variablePartDebug (s : Index) (i : ℕ) (rhs activityBound : ℚ) (d : BoundDirection) (change : Change) :
    Run (Index × Change) := do
  let row ← activeRowDebug G s.counters i
  row.foldlM (variableStepDebug G rhs activityBound d) (s, change)

/-- `for_entire_constraint` (rule/domain_propagation.rs:69-107) with the check at 74. -/
def forEntireConstraintDebug (s : Index) (i : ℕ) (d : BoundDirection) : Run (Index × Change) := do
  check (s.counters.activity i d = 0)
  let (s, activityBound) ← activityBoundIfNeededDebug G s i d
  let (s, remove, applyVariablePart, change) ← constraintPartDebug G s i activityBound d
  let (s, change) ←
    if applyVariablePart then do
      match ← variableRuleRhsDebug G s i d with
      | some rhs => variablePartDebug G s i rhs activityBound d change
      | none => pure (s, change)
    else pure (s, change)
  if remove then do
    let s ← removeConstraintValuesDebug G s i
    let s ← removeConstraintDebug s i
    pure (s, change)
  else pure (s, change)

/-- `create_variable_bound` (rule/domain_propagation.rs:388-429) with the check at 395. -/
def createVariableBoundDebug (s : Index) (i : ℕ) (d : BoundDirection) : Run (Index × Change) := do
  check (s.counters.activity i d = 1)
  match ← variableRuleRhsDebug G s i d with
  | none => pure (s, .none)
  | some rhs => do
    let row ← activeRowDebug G s.counters i
    let terms ← row.mapM fun p => do
      let bound ← s.updates.variableBoundDebug G p.1 (d.times p.2)
      pure (bound.map fun bound => p.2 * bound)
    let totalActivity := (terms.filterMap id).sum
    let (j, coefficient) ← unwrap (row.find? fun p =>
      (s.updates.variableBound G p.1 (d.times p.2)).isNone)
    let value := (rhs - totalActivity) / coefficient
    let direction := d.flip.times coefficient
    let (u, change) ← s.updates.updateActivityVariableBoundDebug G j direction value
    let t ← afterBoundChangeDebug G { s with updates := u } j direction change
    pure (t, match change with
      | .none => .none
      | .newBound => .meaningful
      | .boundShift _ => .notMeaningful)

/-- `presolve_domain_propagation` (rule/domain_propagation.rs:35-57) with the check at 50. -/
def presolveDomainPropagationDebug (s : Index) (i : ℕ) (d : BoundDirection) : Run (Index × Change) := do
  let row ← activeRowDebug G s.counters i
  let known ← row.mapM fun p => s.updates.variableBoundDebug G p.1 (d.times p.2)
  check (known.countP (·.isNone) = s.counters.activity i d)
  match s.counters.activity i d with
  | 0 => forEntireConstraintDebug G s i d
  | 1 => createVariableBoundDebug G s i d
  | _ => .error (.abort .unreachable)

/-! ### The loop -/

/-- `presolve_step` (presolve/mod.rs:127-164) with the check at 155. -/
def presolveStepDebug (s : Index) : Run (Index × Change) :=
  let variable_ := s.queues.substitution.head?
  let s := { s with queues := { s.queues with substitution := s.queues.substitution.tail } }
  match variable_.filter fun j => 0 < s.counters.columns j with
  | some j => do
    let s ← presolveFixedVariableDebug G s j
    pure (s, .meaningful)
  | none =>
    match s.queues.bound.dropWhile fun i => s.counters.constraint i = 0 with
    | i :: rest => do
      let s ← presolveBoundConstraintDebug G { s with queues := { s.queues with bound := rest } } i
      pure (s, .meaningful)
    | [] =>
      let s := { s with queues := { s.queues with bound := [] } }
      match s.queues.slack.dropWhile fun j => s.counters.columns j = 0 with
      | j :: rest => do
        let s ← presolveSlackDebug G { s with queues := { s.queues with slack := rest } } j
        pure (s, .meaningful)
      | [] =>
        let s := { s with queues := { s.queues with slack := [] } }
        match s.queues.activity.dropWhile fun p => s.counters.constraint p.1 = 0 with
        | (i, d) :: rest => do
          check (1 < s.counters.constraint i)
          presolveDomainPropagationDebug G { s with queues := { s.queues with activity := rest } } i d
        | [] => pure ({ s with queues := { s.queues with activity := [] } }, .notMeaningful)

/-- The loop of `compute_presolve_changes` (general_form/mod.rs:391-406). -/
def presolveLoopDebug : ℕ → Index → ℕ → Run Index
  | fuel, s, iterations =>
    if !s.queues.areEmpty && decide (iterations < remaining G s) then
      match fuel with
      | 0 => .error .outOfFuel
      | fuel + 1 => do
        let (s, change) ← presolveStepDebug G s
        presolveLoopDebug fuel s (match change with
          | .meaningful => 0
          | .none => iterations
          | .notMeaningful => iterations + 1)
    else pure s

/-! ### Changes to the problem -/

/-- The checks when rows or columns are removed from a matrix or a vector of a length (matrix.rs:306-310,
321, 480-484, 496-500, dense.rs:142-146); the indices were sorted (general_form/mod.rs:464-465). -/
def checkIndices (indices : List ℕ) (length : ℕ) : Run Unit := do
  let sorted := indices.insertionSort (· ≤ ·)
  check (sorted.length ≤ length)
  check (decide (sorted.Pairwise (· ≤ ·)))
  check (sorted.toFinset.card = sorted.length)
  check (decide (∀ i ∈ sorted, i < length))

/-- `remove_rows_and_columns` (general_form/mod.rs:463-496) with the check at 495, which is repeated by the
caller at 370. -/
def removeRowsAndColumnsDebug (G : GeneralForm) (constraints vars : List ℕ) : Run GeneralForm := do
  checkIndices vars G.constraints.major
  checkIndices vars G.constraints.data.length
  let H ← removeRowsAndColumns G constraints vars
  checkIndices constraints G.constraints.minor
  checkIndices constraints G.b.length
  check H.isConsistent
  pure H

/-- `presolve` (general_form/mod.rs:351-375) with `compute_presolve_changes` (386-409) in a debug build. -/
def presolveDebug (fuel : ℕ) (G : GeneralForm) : Run GeneralForm := do
  let s ← Index.newDebug G
  let s ← presolveLoopDebug G fuel s 0
  let H := updateRemaining G s.updates
  let H ← removeRowsAndColumnsDebug H s.updates.constraintsRemoved
    (s.updates.removedVariables.map (·.1))
  let H := computeSolutionWherePossible H
  match getSolution H with
  | some solution => .error (.verdict (.finiteOptimum solution))
  | none => pure H

end Presolve

end Relp
