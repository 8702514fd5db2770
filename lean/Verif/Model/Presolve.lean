import Verif.Model.GeneralForm

/-!
# Model of presolving

Models `/repo/src/data/linear_program/general_form/presolve/` without `scale/`, and the functions of
`/repo/src/data/linear_program/general_form/mod.rs` around it.

Vectors indexed by constraints or variables and hash maps are functions on natural numbers here; an entry
that is absent in a map is `none`. Stacks (`Vec` with `push` and `pop`) are lists with the top at the head.
`FIFOSet` (an external crate) is a list without duplicates: `push` appends at the back an item that is not
in it, `pop` takes from the front. Violations of `debug_assert`s are not modelled here, see
`Model/PresolveDebug.lean`. The subtraction of `usize`s aborts on underflow, as with overflow checks.
-/

namespace Relp

/-- `Not for BoundDirection` (elements.rs:130-139). -/
def BoundDirection.flip : BoundDirection → BoundDirection
  | .lower => .upper
  | .upper => .lower

/-- `Mul<NonZeroSign> for BoundDirection` (elements.rs:144-158), with the sign of a non-zero
coefficient. -/
def BoundDirection.times (d : BoundDirection) (coefficient : ℚ) : BoundDirection :=
  if 0 < coefficient then d else d.flip

namespace Presolve

/-- Where presolving aborts. -/
inductive Abort
  /-- `unwrap` of `None` -/
  | unwrapNone
  /-- `unreachable!`, `panic!` and `unimplemented!` -/
  | unreachable
  /-- subtraction of `usize`s below zero -/
  | underflow
  /-- a `debug_assert` that fails; only in debug builds, see `Model/PresolveDebug.lean` -/
  | debugAssertion
  deriving DecidableEq

/-- Why presolving stops early: the `Err` of the code, or an abort; or the fuel of the model is used up. -/
inductive Halt
  | verdict (result : LinearProgramType)
  | abort (a : Abort)
  | outOfFuel
  deriving DecidableEq

abbrev Run (α : Type) := Except Halt α

/-- `unwrap` -/
def unwrap {α : Type} : Option α → Run α
  | some a => .ok a
  | none => .error (.abort .unwrapNone)

/-- `x -= 1` -/
def decrement (x : ℕ) : Run ℕ := if x = 0 then .error (.abort .underflow) else .ok (x - 1)

/-- `Change` (presolve/mod.rs:46-57). -/
inductive Change
  | meaningful
  | notMeaningful
  | none
  deriving DecidableEq

/-- `BoundChange` (updates.rs:74-85). -/
inductive BoundChange
  | none
  | newBound
  | boundShift (difference : ℚ)
  deriving DecidableEq

/-- `Counters` (counters.rs:12-29) without the row-major copy of the matrix, see `rows`. -/
structure Counters where
  columns : ℕ → ℕ
  constraint : ℕ → ℕ
  activity : ℕ → BoundDirection → ℕ

/-- `Queues` (queues.rs:15-82). -/
structure Queues where
  substitution : List ℕ
  bound : List ℕ
  slack : List ℕ
  activity : List (ℕ × BoundDirection)

/-- `Updates` (updates.rs:16-69). -/
structure Updates where
  b : ℕ → Option ℚ
  constraints : ℕ → Option ConstraintType
  fixedCost : ℚ
  bounds : ℕ → BoundDirection → Option ℚ
  removedVariables : List (ℕ × RemovedVariable)
  constraintsRemoved : List ℕ
  activityBounds : ℕ → BoundDirection → Option ℚ

/-- `Index` (presolve/mod.rs:25-44). -/
structure Index where
  queues : Queues
  updates : Updates
  counters : Counters
  activityBounds : ℕ → BoundDirection → Option ℚ

/-- Insertion in a map. -/
def insertAt {α β : Type} [DecidableEq α] (f : α → β) (a : α) (b : β) : α → β :=
  fun a' => if a' = a then b else f a'

/-- Insertion in a map with two keys. -/
def insertAt2 {α β γ : Type} [DecidableEq α] [DecidableEq β] (f : α → β → γ) (a : α) (b : β) (c : γ) :
    α → β → γ :=
  fun a' b' => if a' = a ∧ b' = b then c else f a' b'

/-- `FIFOSet::push` -/
def pushFifo (queue : List (ℕ × BoundDirection)) (item : ℕ × BoundDirection) :
    List (ℕ × BoundDirection) :=
  if item ∈ queue then queue else queue ++ [item]

/-! ### Access to the problem -/

/-- The bound of a variable of the problem. -/
def originalBound (G : GeneralForm) (j : ℕ) : BoundDirection → Option ℚ
  | .lower => G.vars[j]?.bind (·.lowerBound)
  | .upper => G.vars[j]?.bind (·.upperBound)

/-- The cost of a variable of the problem. -/
def costOf (G : GeneralForm) (j : ℕ) : ℚ := (G.vars[j]?.map (·.cost)).getD 0

/-- The row-major copy of the constraint matrix (counters.rs:49, matrix.rs:176-180). -/
def rows (G : GeneralForm) : List (SVec ℕ) :=
  (SparseMatrix.fromMinorOrdered G.constraints.data G.constraints.minor).data

/-- A row of the constraint matrix. -/
def row (G : GeneralForm) (i : ℕ) : SVec ℕ := (rows G).getD i []

/-- A column of the constraint matrix. -/
def column (G : GeneralForm) (j : ℕ) : SVec ℕ := G.constraints.data.getD j []

/-- `iter_active_column` (counters.rs:91-98). -/
def activeColumn (G : GeneralForm) (c : Counters) (j : ℕ) : SVec ℕ :=
  (column G j).filter fun p => 0 < c.constraint p.1

/-- `iter_active_row` (counters.rs:113-119). -/
def activeRow (G : GeneralForm) (c : Counters) (i : ℕ) : SVec ℕ :=
  (row G i).filter fun p => 0 < c.columns p.1

/-! ### Start -/

/-- `Counters::new` (counters.rs:48-77). -/
def Counters.new (G : GeneralForm) : Counters where
  constraint i := (row G i).length
  columns j := (column G j).length
  activity i d := (row G i).countP fun p => (originalBound G p.1 (d.times p.2)).isNone

/-- `is_empty_constraint_feasible` (presolve/mod.rs:403-425). -/
def isEmptyConstraintFeasible (b : ℚ) : ConstraintType → Bool
  | .equal => b = 0
  | .range r => b ≥ 0 ∧ b - r ≤ 0
  | .less => b ≥ 0
  | .greater => b ≤ 0

/-- `optimize_independent_column` (updates.rs:540-560). -/
def optimizeIndependentColumn (objective : Objective) (cost : ℚ) (lower upper : Option ℚ) : Run ℚ :=
  if cost = 0 then .error (.abort .unreachable)
  else
    match (if (objective = .minimize ∧ 0 < cost) ∨ (objective = .maximize ∧ cost < 0) then lower
      else upper) with
    | some value => .ok value
    | none => .error (.verdict .unbounded)

/-- `get_feasible_value` (general_form/mod.rs:1046-1050) and `variable_feasible_value`
(updates.rs:212-236): the upper bound if there is one, else the lower bound, else zero; nothing if the
bounds cross. -/
def feasibleValue (lower upper : Option ℚ) : Option ℚ :=
  match lower, upper with
  | none, none => some 0
  | none, some u => some u
  | some l, none => some l
  | some l, some u => if l ≤ u then some u else none

/-- The closure in `Updates::new` for a variable that is in no constraint (updates.rs:109-127); the state
is the fixed cost and the removed variables. -/
def removeEmptyColumn (G : GeneralForm) (s : ℚ × List (ℕ × RemovedVariable)) (j : ℕ) :
    Run (ℚ × List (ℕ × RemovedVariable)) :=
  if costOf G j = 0 then do
    let value ← unwrap (feasibleValue (originalBound G j .lower) (originalBound G j .upper))
    pure (s.1, s.2 ++ [(j, .solved value)])
  else do
    let value ← optimizeIndependentColumn G.objective (costOf G j)
      (originalBound G j .lower) (originalBound G j .upper)
    pure (s.1 + costOf G j * value, s.2 ++ [(j, .solved value)])

/-- The closure in `Updates::new` for a constraint without coefficients (updates.rs:131-140). -/
def removeEmptyRow (G : GeneralForm) (s : List ℕ) (i : ℕ) : Run (List ℕ) := do
  let t ← unwrap G.constraintTypes[i]?
  if isEmptyConstraintFeasible (G.b.getD i 0) t then pure (s ++ [i])
  else .error (.verdict .infeasible)

/-- `Updates::new` (updates.rs:102-158). -/
def Updates.new (G : GeneralForm) (c : Counters) : Run Updates := do
  let (fixedCost, removedVariables) ← ((List.range G.vars.length).filter fun j => c.columns j = 0).foldlM
    (removeEmptyColumn G) (0, [])
  let constraintsRemoved ← ((List.range G.constraintTypes.length).filter
    fun i => c.constraint i = 0).foldlM (removeEmptyRow G) []
  pure {
    b := fun _ => none
    constraints := fun _ => none
    fixedCost
    bounds := fun _ _ => none
    removedVariables
    constraintsRemoved
    activityBounds := fun _ _ => none }

/-- `Queues::new` (queues.rs:99-134). -/
def Queues.new (G : GeneralForm) (c : Counters) : Queues where
  bound := ((List.range G.constraintTypes.length).filter fun i => c.constraint i = 1).reverse
  activity := (List.range G.constraintTypes.length).flatMap fun i =>
    if c.constraint i > 1 then
      (if c.activity i .lower ≤ 1 then [(i, .lower)] else []) ++
        if c.activity i .upper ≤ 1 then [(i, .upper)] else []
    else []
  slack := ((List.range G.vars.length).filter fun j => c.columns j = 1 ∧ costOf G j = 0).reverse
  substitution := ((List.range G.vars.length).filter fun j =>
    c.columns j > 0 ∧ (originalBound G j .lower).isSome ∧
      originalBound G j .lower = originalBound G j .upper).reverse

/-- `Index::new` (presolve/mod.rs:79-93). -/
def Index.new (G : GeneralForm) : Run Index := do
  let counters := Counters.new G
  let updates ← Updates.new G counters
  pure { counters, updates, queues := Queues.new G counters, activityBounds := fun _ _ => none }

/-! ### Latest version of the problem -/

/-- `b` (updates.rs:163-168). -/
def Updates.rhs (G : GeneralForm) (u : Updates) (i : ℕ) : ℚ := (u.b i).getD (G.b.getD i 0)

/-- `change_b` (updates.rs:170-179). -/
def Updates.changeB (G : GeneralForm) (u : Updates) (i : ℕ) (change : ℚ) : Updates :=
  { u with b := insertAt u.b i (some (u.rhs G i + change)) }

/-- `constraint_type` (updates.rs:185-191). An index out of range (which would abort) has no relation to
give, and gets `equal` here. -/
def Updates.constraintType (G : GeneralForm) (u : Updates) (i : ℕ) : ConstraintType :=
  (u.constraints i).getD (G.constraintTypes.getD i .equal)

/-- `variable_bound` (updates.rs:232-251). -/
def Updates.variableBound (G : GeneralForm) (u : Updates) (j : ℕ) (d : BoundDirection) : Option ℚ :=
  (u.activityBounds j d).or ((u.bounds j d).or (originalBound G j d))

/-- `is_variable_fixed` (updates.rs:194-205). -/
def Updates.isVariableFixed (G : GeneralForm) (u : Updates) (j : ℕ) : Option ℚ :=
  match u.variableBound G j .lower, u.variableBound G j .upper with
  | some l, some r => if l = r then some l else none
  | _, _ => none

/-- Whether a bound is tighter (updates.rs:511-514). -/
def tighter : BoundDirection → (new existing : ℚ) → Bool
  | .lower, new, existing => new > existing
  | .upper, new, existing => new < existing

/-- `update_bound` (updates.rs:267-306) with `bound_compare_and_update` (updates.rs:500-522). An existing
activity bound is moved to the certain bounds first. -/
def Updates.updateBound (G : GeneralForm) (u : Updates) (j : ℕ) (d : BoundDirection) (new : ℚ) :
    Updates × BoundChange :=
  let compare (u : Updates) (existing : ℚ) : Updates × BoundChange :=
    if tighter d new existing then
      ({ u with bounds := insertAt2 u.bounds j d (some new) }, .boundShift (new - existing))
    else (u, .none)
  match u.bounds j d with
  | some existing => compare u existing
  | none =>
    match u.activityBounds j d with
    | some existing =>
      compare { u with activityBounds := insertAt2 u.activityBounds j d none
                       bounds := insertAt2 u.bounds j d (some existing) } existing
    | none =>
      match originalBound G j d with
      | some existing => compare u existing
      | none => ({ u with bounds := insertAt2 u.bounds j d (some new) }, .newBound)

/-- `update_activity_variable_bound` (updates.rs:322-365). -/
def Updates.updateActivityVariableBound (G : GeneralForm) (u : Updates) (j : ℕ) (d : BoundDirection)
    (new : ℚ) : Updates × BoundChange :=
  match u.activityBounds j d with
  | some existing =>
    if tighter d new existing then
      ({ u with activityBounds := insertAt2 u.activityBounds j d (some new) },
        .boundShift (new - existing))
    else (u, .none)
  | none =>
    match u.bounds j d with
    | some existing =>
      if tighter d new existing then
        ({ u with bounds := insertAt2 u.bounds j d (some new) }, .boundShift (new - existing))
      else (u, .none)
    | none =>
      match originalBound G j d with
      | some existing =>
        if tighter d new existing then
          ({ u with activityBounds := insertAt2 u.activityBounds j d (some new) },
            .boundShift (new - existing))
        else (u, .none)
      | none =>
        ({ u with activityBounds := insertAt2 u.activityBounds j d (some new) }, .newBound)

/-! ### Shared steps -/

variable (G : GeneralForm)

/-- `remove_constraint` (presolve/mod.rs:370-374). -/
def removeConstraint (s : Index) (i : ℕ) : Index :=
  { s with updates := { s.updates with constraintsRemoved := s.updates.constraintsRemoved ++ [i] } }

/-- `remove_variable` (presolve/mod.rs:381-385). -/
def removeVariable (s : Index) (j : ℕ) (solution : RemovedVariable) : Index :=
  { s with updates := { s.updates with
      removedVariables := s.updates.removedVariables ++ [(j, solution)] } }

/-- `self.counters.variable[j] -= 1` -/
def decrementColumn (s : Index) (j : ℕ) : Run Index := do
  let n ← decrement (s.counters.columns j)
  pure { s with counters := { s.counters with columns := insertAt s.counters.columns j n } }

/-- `self.counters.constraint[i] -= 1` -/
def decrementConstraint (s : Index) (i : ℕ) : Run Index := do
  let n ← decrement (s.counters.constraint i)
  pure { s with counters := { s.counters with constraint := insertAt s.counters.constraint i n } }

/-- `queue_variable_by_counter` (presolve/mod.rs:303-325) with `optimize_column_independently`
(updates.rs:368-388). -/
def queueVariableByCounter (s : Index) (j : ℕ) : Run Index :=
  match s.counters.columns j with
  | 0 =>
    if costOf G j = 0 then do
      let value ← unwrap (feasibleValue (s.updates.variableBound G j .lower)
        (s.updates.variableBound G j .upper))
      pure (removeVariable s j (.solved value))
    else do
      let value ← optimizeIndependentColumn G.objective (costOf G j)
        (s.updates.variableBound G j .lower) (s.updates.variableBound G j .upper)
      pure (removeVariable { s with updates := { s.updates with
        fixedCost := s.updates.fixedCost + costOf G j * value } } j (.solved value))
  | 1 =>
    if costOf G j = 0 then pure { s with queues := { s.queues with slack := j :: s.queues.slack } }
    else pure s
  | _ => pure s

/-- `queue_constraint_by_counter` (presolve/mod.rs:345-363); the `Change` that it returns is not used. -/
def queueConstraintByCounter (s : Index) (i : ℕ) : Run Index :=
  match s.counters.constraint i with
  | 0 =>
    if isEmptyConstraintFeasible (s.updates.rhs G i) (s.updates.constraintType G i) then
      pure (removeConstraint s i)
    else .error (.verdict .infeasible)
  | 1 => pure { s with queues := { s.queues with bound := i :: s.queues.bound } }
  | _ => pure s

/-- `remove_constraint_values` (presolve/mod.rs:282-298). -/
def removeConstraintValues (s : Index) (i : ℕ) : Run Index :=
  ((activeRow G s.counters i).map (·.1)).foldlM (fun s j => do
    let s ← decrementConstraint s i
    let s ← decrementColumn s j
    queueVariableByCounter G s j) s

/-- Loop body of `update_activity_bounds` (presolve/mod.rs:227-242). -/
def updateActivityBound (d : BoundDirection) (byHowMuch : ℚ) (s : Index) (p : ℕ × ℚ) : Index :=
  if 0 < s.counters.constraint p.1 then
    let toEdit := d.times p.2
    match s.activityBounds p.1 toEdit with
    | some bound =>
      { s with
        activityBounds := insertAt2 s.activityBounds p.1 toEdit (some (bound + byHowMuch * p.2))
        queues := { s.queues with activity := pushFifo s.queues.activity (p.1, toEdit) } }
    | none => s
  else s

/-- `update_activity_bounds` (presolve/mod.rs:214-244). -/
def updateActivityBounds (s : Index) (j : ℕ) (d : BoundDirection) (byHowMuch : ℚ) : Index :=
  (activeColumn G s.counters j).foldl (updateActivityBound d byHowMuch) s

/-- Loop body of `update_activity_counters` (presolve/mod.rs:260-270). -/
def updateActivityCounter (d : BoundDirection) (s : Index) (p : ℕ × ℚ) : Run Index := do
  let toEdit := d.times p.2
  let n ← decrement (s.counters.activity p.1 toEdit)
  let s := { s with counters := { s.counters with
    activity := insertAt2 s.counters.activity p.1 toEdit n } }
  if n ≤ 1 then
    pure { s with queues := { s.queues with activity := pushFifo s.queues.activity (p.1, toEdit) } }
  else pure s

/-- `update_activity_counters` (presolve/mod.rs:252-271). -/
def updateActivityCounters (s : Index) (j : ℕ) (d : BoundDirection) : Run Index :=
  (activeColumn G s.counters j).foldlM (updateActivityCounter d) s

/-- `after_bound_change` (presolve/mod.rs:179-199); nothing if there was no change. -/
def afterBoundChange (s : Index) (j : ℕ) (d : BoundDirection) (change : BoundChange) : Run Index :=
  let queued (s : Index) : Index :=
    if (s.updates.isVariableFixed G j).isSome ∧ 0 < s.counters.columns j then
      { s with queues := { s.queues with substitution := j :: s.queues.substitution } }
    else s
  match change with
  | .none => pure s
  | .newBound => updateActivityCounters G (queued s) j d
  | .boundShift difference => pure (updateActivityBounds G (queued s) j d difference)

/-! ### Fixed variables -/

/-- `presolve_fixed_variable` (rule/fixed_variable.rs:22-48). -/
def presolveFixedVariable (s : Index) (j : ℕ) : Run Index := do
  let value ← unwrap (s.updates.isVariableFixed G j)
  let u := (activeColumn G s.counters j).foldl
    (fun u p => u.changeB G p.1 (-p.2 * value)) s.updates
  let s := { s with updates := { u with fixedCost := u.fixedCost + costOf G j * value } }
  let s ← ((activeColumn G s.counters j).map (·.1)).foldlM (fun s i => do
    let s ← decrementColumn s j
    let s ← decrementConstraint s i
    queueConstraintByCounter G s i) s
  pure (removeVariable s j (.solved value))

/-! ### Bound constraints -/

/-- The bounds that a constraint with a single variable stands for (rule/bound_constraint.rs:40-69). -/
def boundsOfConstraint (t : ConstraintType) (b coefficient : ℚ) : List (BoundDirection × ℚ) :=
  match t with
  | .greater => if 0 < coefficient then [(.lower, b / coefficient)] else [(.upper, b / coefficient)]
  | .less => if 0 < coefficient then [(.upper, b / coefficient)] else [(.lower, b / coefficient)]
  | .equal => [(.lower, b / coefficient), (.upper, b / coefficient)]
  | .range r =>
    if 0 < coefficient then [(.lower, (b - r) / coefficient), (.upper, b / coefficient)]
    else [(.lower, b / coefficient), (.upper, (b - r) / coefficient)]

/-- `presolve_bound_constraint` (rule/bound_constraint.rs:28-86). -/
def presolveBoundConstraint (s : Index) (i : ℕ) : Run Index := do
  let (j, coefficient) ← unwrap (activeRow G s.counters i).head?
  let changes := boundsOfConstraint (s.updates.constraintType G i) (s.updates.rhs G i) coefficient
  let s ← decrementColumn s j
  let s ← decrementConstraint s i
  let s := removeConstraint s i
  let s ← changes.foldlM (fun s p =>
    let (u, change) := s.updates.updateBound G j p.1 p.2
    afterBoundChange G { s with updates := u } j p.1 change) s
  match feasibleValue (s.updates.variableBound G j .lower) (s.updates.variableBound G j .upper) with
  | none => .error (.verdict .infeasible)
  | some _ => queueVariableByCounter G s j

/-! ### Slack variables -/

/-- `compute_removed_variable_solution` (rule/slack.rs:202-216). -/
def removedVariableSolution (s : Index) (i j : ℕ) (coefficient : ℚ) : RemovedVariable :=
  .functionOfOthers (s.updates.rhs G i / coefficient)
    (((activeRow G s.counters i).filter fun p => p.1 ≠ j).map fun p =>
      (G.fromActive.getD p.1 0, p.2 / coefficient))

/-- The `match` in `presolve_slack` (rule/slack.rs:95-160): `none` if both row and column are removed,
otherwise the new relation and the bound that is substituted. -/
def slackCase (t : ConstraintType) (lower upper : Option ℚ) (coefficient : ℚ) :
    Option (ConstraintType × ℚ) :=
  if 0 < coefficient then
    match t, lower, upper with
    | _, none, none => none
    | .greater, some _, none => none
    | .less, none, some _ => none
    | .equal, some l, some u => some (.range (coefficient * (u - l)), l)
    | .less, some l, none => some (.less, l)
    | .equal, some l, none => some (.less, l)
    | .range _, some l, none => some (.less, l)
    | .less, some l, some _ => some (.less, l)
    | .equal, none, some u => some (.greater, u)
    | .greater, none, some u => some (.greater, u)
    | .range _, none, some u => some (.greater, u)
    | .greater, some _, some u => some (.greater, u)
    | .range r, some l, some u => some (.range (r + coefficient * (u - l)), l)
  else
    match t, lower, upper with
    | _, none, none => none
    | .less, some _, none => none
    | .greater, none, some _ => none
    | .equal, some l, some u => some (.range (coefficient * (l - u)), u)
    | .equal, some l, none => some (.greater, l)
    | .greater, some l, none => some (.greater, l)
    | .range _, some l, none => some (.greater, l)
    | .greater, some l, some _ => some (.greater, l)
    | .less, none, some u => some (.less, u)
    | .equal, none, some u => some (.less, u)
    | .range _, none, some u => some (.less, u)
    | .less, some _, some u => some (.less, u)
    | .range r, some l, some u => some (.range (r + coefficient * (l - u)), u)

/-- One half of `update_activity_queues_if_needed` (rule/slack.rs:181-200). -/
def activityQueueIfNeeded (s : Index) (i : ℕ) (d : BoundDirection) (boundMissing : Bool) : Run Index :=
  if boundMissing then do
    let n ← decrement (s.counters.activity i d)
    let s := { s with counters := { s.counters with activity := insertAt2 s.counters.activity i d n } }
    if n ≤ 1 then
      pure { s with queues := { s.queues with activity := pushFifo s.queues.activity (i, d) } }
    else pure s
  else pure s

/-- `presolve_slack` (rule/slack.rs:66-178). -/
def presolveSlack (s : Index) (j : ℕ) : Run Index := do
  let (i, coefficient) ← unwrap (activeColumn G s.counters j).head?
  let t := s.updates.constraintType G i
  let lower := s.updates.variableBound G j .lower
  let upper := s.updates.variableBound G j .upper
  let solution := removedVariableSolution G s i j coefficient
  match slackCase t lower upper coefficient with
  | none =>
    let s ← ((activeRow G s.counters i).map (·.1)).foldlM (fun s k => do
      let s ← decrementConstraint s i
      let s ← decrementColumn s k
      if k ≠ j then queueVariableByCounter G s k else pure s) s
    pure (removeConstraint (removeVariable s j solution) i)
  | some (newType, bound) =>
    let removed := match t with
      | .equal => solution
      | .range _ => solution
      | _ => .solved bound
    let s ← decrementColumn s j
    let s := removeVariable s j removed
    let s ← activityQueueIfNeeded s i .lower
      (s.updates.variableBound G j (BoundDirection.lower.times coefficient)).isNone
    let s ← activityQueueIfNeeded s i .upper
      (s.updates.variableBound G j (BoundDirection.upper.times coefficient)).isNone
    let s ← decrementConstraint s i
    let s ← queueConstraintByCounter G s i
    let u := s.updates.changeB G i (-coefficient * bound)
    pure { s with updates := { u with constraints := insertAt u.constraints i (some newType) } }

/-! ### Domain propagation -/

/-- `ConstraintUpdate` (rule/domain_propagation.rs:454-458). -/
inductive ConstraintUpdate
  | remove
  | replace (t : ConstraintType) (shift : ℚ)
  | setVariablesToBound
  deriving DecidableEq

/-- `constraint_update` (rule/domain_propagation.rs:239-315). -/
def constraintUpdate (d : BoundDirection) (t : ConstraintType) (rhs bound : ℚ) :
    Run (Option ConstraintUpdate) :=
  match d, t with
  | .lower, .equal =>
    if rhs < bound then .error (.verdict .infeasible)
    else if rhs = bound then .ok (some .setVariablesToBound) else .ok none
  | .lower, .less =>
    if rhs < bound then .error (.verdict .infeasible)
    else if rhs = bound then .ok (some .setVariablesToBound) else .ok none
  | .lower, .range r =>
    if rhs < bound then .error (.verdict .infeasible)
    else if rhs = bound then .error (.abort .unreachable)
    else if bound < rhs - r then .ok none else .ok (some (.replace .less 0))
  | .lower, .greater =>
    if rhs ≤ bound then .ok (some .remove) else .ok none
  | .upper, .equal =>
    if rhs > bound then .error (.verdict .infeasible)
    else if rhs = bound then .ok (some .setVariablesToBound) else .ok none
  | .upper, .greater =>
    if rhs > bound then .error (.verdict .infeasible)
    else if rhs = bound then .ok (some .setVariablesToBound) else .ok none
  | .upper, .less =>
    if rhs ≥ bound then .ok (some .remove) else .ok none
  | .upper, .range r =>
    if rhs = bound then .ok (some (.replace .greater (-r)))
    else if rhs > bound then
      if bound < rhs - r then .error (.verdict .infeasible)
      else if bound = rhs - r then .ok (some .setVariablesToBound)
      else .ok (some (.replace .greater (-r)))
    else .ok none

/-- The activity bound of a constraint that `compute_activity_bound_if_needed` computes if there is none
(rule/domain_propagation.rs:136-149). -/
def computeActivityBound (s : Index) (i : ℕ) (d : BoundDirection) : Run ℚ := do
  let terms ← (activeRow G s.counters i).mapM fun p => do
    let bound ← unwrap (s.updates.variableBound G p.1 (d.times p.2))
    pure (p.2 * bound)
  pure terms.sum

/-- `compute_activity_bound_if_needed` (rule/domain_propagation.rs:119-153). -/
def activityBoundIfNeeded (s : Index) (i : ℕ) (d : BoundDirection) : Run (Index × ℚ) :=
  match s.activityBounds i d with
  | some bound => pure (s, bound)
  | none => do
    let bound ← computeActivityBound G s i d
    pure ({ s with activityBounds := insertAt2 s.activityBounds i d (some bound) }, bound)

/-- Loop body for `SetVariablesToBound` (rule/domain_propagation.rs:179-199); the state includes the
bounds that are new. -/
def setVariableToBound (d : BoundDirection) (s : Index × List (ℕ × BoundDirection)) (p : ℕ × ℚ) :
    Run (Index × List (ℕ × BoundDirection)) := do
  let variableDirection := d.times p.2
  let bound ← unwrap (s.1.updates.variableBound G p.1 variableDirection)
  let u := match s.1.updates.activityBounds p.1 variableDirection with
    | some value =>
      { s.1.updates with
        activityBounds := insertAt2 s.1.updates.activityBounds p.1 variableDirection none
        bounds := insertAt2 s.1.updates.bounds p.1 variableDirection (some value) }
    | none => s.1.updates
  let (u, change) := u.updateBound G p.1 variableDirection.flip bound
  pure ({ s.1 with updates := u, queues := { s.1.queues with
      substitution := p.1 :: s.1.queues.substitution } },
    if change = .newBound then s.2 ++ [(p.1, variableDirection.flip)] else s.2)

/-- `constraint_part` (rule/domain_propagation.rs:160-214): the new state, whether the constraint is to be
removed, whether the variable part is to be applied, and the change. -/
def constraintPart (s : Index) (i : ℕ) (bound : ℚ) (d : BoundDirection) :
    Run (Index × Bool × Bool × Change) := do
  match ← constraintUpdate d (s.updates.constraintType G i) (s.updates.rhs G i) bound with
  | none => pure (s, false, true, .none)
  | some .remove => pure (s, true, true, .meaningful)
  | some (.replace t shift) =>
    let u := { s.updates with constraints := insertAt s.updates.constraints i (some t) }
    pure ({ s with updates := u.changeB G i shift }, false, true, .meaningful)
  | some .setVariablesToBound =>
    let (s, new) ← (activeRow G s.counters i).foldlM (setVariableToBound G d) (s, [])
    let s ← new.foldlM (fun s p => updateActivityCounters G s p.1 p.2) s
    pure (s, true, false, .meaningful)

/-- `can_variable_rule_be_applied` (rule/domain_propagation.rs:434-451). -/
def variableRuleRhs (s : Index) (i : ℕ) (d : BoundDirection) : Option ℚ :=
  match s.updates.constraintType G i, d with
  | .equal, _ => some (s.updates.rhs G i)
  | .range _, .lower => some (s.updates.rhs G i)
  | .range r, .upper => some (s.updates.rhs G i - r)
  | .less, .lower => some (s.updates.rhs G i)
  | .less, .upper => none
  | .greater, .lower => none
  | .greater, .upper => some (s.updates.rhs G i)

/-- Loop body of `variable_part` (rule/domain_propagation.rs:345-374). -/
def variableStep (rhs activityBound : ℚ) (d : BoundDirection) (s : Index × Change) (p : ℕ × ℚ) :
    Run (Index × Change) := do
  let newDirection := d.flip.times p.2
  let value ← unwrap (s.1.updates.variableBound G p.1 (d.times p.2))
  let residual := activityBound - p.2 * value
  let new := (rhs - residual) / p.2
  let (u, change) := s.1.updates.updateActivityVariableBound G p.1 newDirection new
  let t ← afterBoundChange G { s.1 with updates := u } p.1 newDirection change
  pure (t, match change with
    | .none => s.2
    | .newBound => .meaningful
    | .boundShift _ => if s.2 = .meaningful then .meaningful else .notMeaningful)

/-- `variable_part` (rule/domain_propagation.rs:334-375). -/
def variablePart (s : Index) (i : ℕ) (rhs activityBound : ℚ) (d : BoundDirection) (change : Change) :
    Run (Index × Change) :=
  (activeRow G s.counters i).foldlM (variableStep G rhs activityBound d) (s, change)

/-- `for_entire_constraint` (rule/domain_propagation.rs:69-107). -/
def forEntireConstraint (s : Index) (i : ℕ) (d : BoundDirection) : Run (Index × Change) := do
  let (s, activityBound) ← activityBoundIfNeeded G s i d
  let (s, remove, applyVariablePart, change) ← constraintPart G s i activityBound d
  let (s, change) ←
    if applyVariablePart then
      match variableRuleRhs G s i d with
      | some rhs => variablePart G s i rhs activityBound d change
      | none => pure (s, change)
    else pure (s, change)
  if remove then do
    let s ← removeConstraintValues G s i
    pure (removeConstraint s i, change)
  else pure (s, change)

/-- `create_variable_bound` (rule/domain_propagation.rs:388-429). -/
def createVariableBound (s : Index) (i : ℕ) (d : BoundDirection) : Run (Index × Change) :=
  match variableRuleRhs G s i d with
  | none => pure (s, .none)
  | some rhs => do
    let totalActivity := ((activeRow G s.counters i).filterMap fun p =>
      (s.updates.variableBound G p.1 (d.times p.2)).map fun bound => p.2 * bound).sum
    let (j, coefficient) ← unwrap ((activeRow G s.counters i).find? fun p =>
      (s.updates.variableBound G p.1 (d.times p.2)).isNone)
    let value := (rhs - totalActivity) / coefficient
    let direction := d.flip.times coefficient
    let (u, change) := s.updates.updateActivityVariableBound G j direction value
    let t ← afterBoundChange G { s with updates := u } j direction change
    pure (t, match change with
      | .none => .none
      | .newBound => .meaningful
      | .boundShift _ => .notMeaningful)

/-- `presolve_domain_propagation` (rule/domain_propagation.rs:35-57). -/
def presolveDomainPropagation (s : Index) (i : ℕ) (d : BoundDirection) : Run (Index × Change) :=
  match s.counters.activity i d with
  | 0 => forEntireConstraint G s i d
  | 1 => createVariableBound G s i d
  | _ => .error (.abort .unreachable)

/-! ### The loop -/

/-- `presolve_step` (presolve/mod.rs:127-164). The `while` loops over the queues drop what is not active
any more; the first queue is only popped once. -/
def presolveStep (s : Index) : Run (Index × Change) :=
  let variable_ := s.queues.substitution.head?
  let s := { s with queues := { s.queues with substitution := s.queues.substitution.tail } }
  match variable_.filter fun j => 0 < s.counters.columns j with
  | some j => do
    let s ← presolveFixedVariable G s j
    pure (s, .meaningful)
  | none =>
    match s.queues.bound.dropWhile fun i => s.counters.constraint i = 0 with
    | i :: rest => do
      let s ← presolveBoundConstraint G { s with queues := { s.queues with bound := rest } } i
      pure (s, .meaningful)
    | [] =>
      let s := { s with queues := { s.queues with bound := [] } }
      match s.queues.slack.dropWhile fun j => s.counters.columns j = 0 with
      | j :: rest => do
        let s ← presolveSlack G { s with queues := { s.queues with slack := rest } } j
        pure (s, .meaningful)
      | [] =>
        let s := { s with queues := { s.queues with slack := [] } }
        match s.queues.activity.dropWhile fun p => s.counters.constraint p.1 = 0 with
        | (i, d) :: rest =>
          presolveDomainPropagation G { s with queues := { s.queues with activity := rest } } i d
        | [] => pure ({ s with queues := { s.queues with activity := [] } }, .notMeaningful)

/-- `are_empty` (queues.rs:139-145). -/
def Queues.areEmpty (q : Queues) : Bool :=
  q.activity.isEmpty && q.slack.isEmpty && q.bound.isEmpty && q.substitution.isEmpty

/-- The number at which the loop gives up (general_form/mod.rs:399, updates.rs:454-460). -/
def remaining (s : Index) : ℕ :=
  (G.vars.length - s.updates.removedVariables.length) +
    (G.constraintTypes.length - s.updates.constraintsRemoved.length)

/-- The loop of `compute_presolve_changes` (general_form/mod.rs:391-406). -/
def presolveLoop : ℕ → Index → ℕ → Run Index
  | fuel, s, iterations =>
    if !s.queues.areEmpty && decide (iterations < remaining G s) then
      match fuel with
      | 0 => .error .outOfFuel
      | fuel + 1 => do
        let (s, change) ← presolveStep G s
        presolveLoop fuel s (match change with
          | .meaningful => 0
          | .none => iterations
          | .notMeaningful => iterations + 1)
    else pure s

/-! ### Changes to the problem -/

/-- Variables that were free, get no certain bound, and keep the derived bounds (updates.rs:412-422). -/
def keepsActivityBounds (u : Updates) (j : ℕ) : Bool :=
  (originalBound G j .lower).isNone && (originalBound G j .upper).isNone &&
    (u.bounds j .lower).isNone && (u.bounds j .upper).isNone

/-- The new bound of a variable that remains, if it changes (updates.rs:423-427). -/
def Updates.newBound (u : Updates) (j : ℕ) (d : BoundDirection) : Option ℚ :=
  if keepsActivityBounds G u j then (u.activityBounds j d).or (u.bounds j d) else u.bounds j d

/-- `into_changes` (updates.rs:398-452) and `update_values_that_remain` (general_form/mod.rs:423-452).
Changes of rows and columns that are deleted afterwards, and replacements by the same value, are left out
in the code; here they are made, and maps are functions; see `Model/PresolveHash.lean` for the code as it is. Removed variables are marked at the index among the active variables, as
in the code. -/
def updateRemaining (u : Updates) : GeneralForm :=
  { G with
    b := G.b.zipIdx.map fun p => (u.b p.2).getD p.1
    constraintTypes := G.constraintTypes.zipIdx.map fun p => (u.constraints p.2).getD p.1
    fixedCost := G.fixedCost + u.fixedCost
    original := u.removedVariables.foldl
      (fun original p => original.modify p.1 fun q => (q.1, .removed p.2)) G.original
    vars := G.vars.zipIdx.map fun p =>
      { p.1 with lowerBound := (u.newBound G p.2 .lower).or p.1.lowerBound
                 upperBound := (u.newBound G p.2 .upper).or p.1.upperBound } }

/-- Loop body of the update of the reverse map (general_form/mod.rs:483-489). -/
def renumber (original : List (String × OriginalVariable)) (p : ℕ × ℕ) :
    Run (List (String × OriginalVariable)) :=
  match original[p.1]? with
  | some (name, .active _) => .ok (original.set p.1 (name, .active p.2))
  | _ => .error (.abort .unreachable)

/-- `remove_rows_and_columns` (general_form/mod.rs:463-496). The loop that moves the remaining entries of
`from_active_to_original` together is modelled by its effect, as `remove_indices`; see
`Model/PresolveHash.lean` for the loop. -/
def removeRowsAndColumns (G : GeneralForm) (constraints vars : List ℕ) : Run GeneralForm := do
  let fromActive := removeListIndices vars G.fromActive
  let original ← if vars.isEmpty then pure G.original
    else fromActive.zipIdx.foldlM renumber G.original
  pure { G with
    constraints := (G.constraints.removeMajor vars).removeMinor constraints
    vars := removeListIndices vars G.vars
    fromActive := fromActive
    original := original
    constraintTypes := removeListIndices constraints G.constraintTypes
    b := removeListIndices constraints G.b }

/-- `compute_solution_value` (general_form/mod.rs:753-776), without the table that stores values already
computed. Variables that depend on each other cyclically would recurse without end: `none`. -/
def computedValue (G : GeneralForm) : ℕ → ℕ → Option ℚ
  | 0, _ => none
  | fuel + 1, o =>
    match G.original[o]? with
    | some (_, .removed (.solved v)) => some v
    | some (_, .removed (.functionOfOthers constant coefficients)) => do
      let terms ← coefficients.mapM fun p => (computedValue G fuel p.1).map fun v => p.2 * v
      pure (constant - terms.sum)
    | _ => none

/-- `compute_solution_where_possible` (general_form/mod.rs:719-740). -/
def computeSolutionWherePossible (G : GeneralForm) : GeneralForm :=
  { G with original := G.original.zipIdx.map fun p =>
      match p.1 with
      | (name, .removed (.functionOfOthers constant coefficients)) =>
        match computedValue G (G.original.length + 1) p.2 with
        | some v => (name, .removed (.solved v))
        | none => (name, .removed (.functionOfOthers constant coefficients))
      | q => q }

/-- `get_solution` (general_form/mod.rs:786-797). -/
def getSolution (G : GeneralForm) : Option GeneralForm.Solution := do
  let values ← G.original.mapM fun p =>
    match p with
    | (name, .removed (.solved v)) => some (name, v)
    | _ => none
  pure ⟨G.fixedCost, values⟩

/-- `presolve` (general_form/mod.rs:351-375) with `compute_presolve_changes` (386-409). -/
def presolve (fuel : ℕ) (G : GeneralForm) : Run GeneralForm := do
  let s ← Index.new G
  let s ← presolveLoop G fuel s 0
  let H := updateRemaining G s.updates
  let H ← removeRowsAndColumns H s.updates.constraintsRemoved (s.updates.removedVariables.map (·.1))
  let H := computeSolutionWherePossible H
  match getSolution H with
  | some solution => .error (.verdict (.finiteOptimum solution))
  | none => pure H

end Presolve

end Relp
