import Verif.Model.Presolve
import Verif.Spec.GeneralForm
import Mathlib.Algebra.BigOperators.Group.Finset.Basic

/-!
# Specification: the problem that is left at a moment during presolving

A point is a function that gives each variable of the problem before presolving a value. It refers only
to the proposed changes, not to the queues, counters and stored activity bounds.
-/

namespace Relp

open Finset

/-- A problem with which presolving starts: consistent, and no variable has been removed before. -/
structure GeneralForm.Fresh (G : GeneralForm) : Prop extends G.Consistent where
  identity : G.fromActive = List.range G.vars.length
  allActive : ∀ p ∈ G.original, ∃ j, p.2 = .active j

/-- Whether one objective value is at least as good as another. -/
def Objective.AsGood : Objective → ℚ → ℚ → Prop
  | .minimize, a, b => a ≤ b
  | .maximize, a, b => b ≤ a

/-- Whether a value respects a bound in a direction, if there is one. -/
def BoundDirection.Respects : BoundDirection → Option ℚ → ℚ → Prop
  | _, none, _ => True
  | .lower, some l, x => l ≤ x
  | .upper, some u, x => x ≤ u

/-- The value that was recorded for a removed variable, given the values of the others. -/
def RemovedVariable.valueAt (x : ℕ → ℚ) : RemovedVariable → ℚ
  | .solved value => value
  | .functionOfOthers constant coefficients => constant - (coefficients.map fun p => p.2 * x p.1).sum

/-- Whether the value of a removed variable refers to another variable. -/
def RemovedVariable.Mentions (r : RemovedVariable) (k : ℕ) : Prop :=
  match r with
  | .solved _ => False
  | .functionOfOthers _ coefficients => k ∈ coefficients.map (·.1)

namespace Presolve

/-- The coefficient of a variable in a constraint. -/
def coef (G : GeneralForm) (i j : ℕ) : ℚ := SVec.val (column G j) i

namespace Updates

variable (G : GeneralForm) (u : Updates)

/-- The variables that have not been removed. -/
def live : Finset ℕ := (range G.vars.length).filter fun j => j ∉ u.removedVariables.map (·.1)

/-- Left-hand side of a constraint, with the remaining variables. -/
def value (i : ℕ) (x : ℕ → ℚ) : ℚ := ∑ j ∈ u.live G, coef G i j * x j

/-- The point is a solution: the constraints that remain hold, the latest bounds of the remaining
variables hold, and removed variables have the value recorded for them. -/
structure Sat (x : ℕ → ℚ) : Prop where
  rows : ∀ i < G.constraintTypes.length, i ∉ u.constraintsRemoved →
    (u.constraintType G i).Holds (u.rhs G i) (u.value G i x)
  bounds : ∀ j ∈ u.live G, ∀ d : BoundDirection, d.Respects (u.variableBound G j d) (x j)
  removed : ∀ p ∈ u.removedVariables, x p.1 = p.2.valueAt x

/-- The objective value, of which the part of the removed variables is constant. -/
def cost (x : ℕ → ℚ) : ℚ := G.fixedCost + u.fixedCost + ∑ j ∈ u.live G, costOf G j * x j

end Updates

/-- Both problems have the same solutions, with the same objective values. -/
def Equivalent (G : GeneralForm) (u v : Updates) : Prop :=
  ∀ x, (u.Sat G x ↔ v.Sat G x) ∧ (u.Sat G x → u.cost G x = v.cost G x)

/-- The problem `v` can be solved instead of `u`: no removed variables return, every solution of `v` is one
of `u`, with the same objective value, and for every solution of `u` there is one of `v` that is as good,
with the same values for the variables that remain. -/
structure Refines (G : GeneralForm) (u v : Updates) : Prop where
  live : v.live G ⊆ u.live G
  sound : ∀ x, v.Sat G x → u.Sat G x ∧ u.cost G x = v.cost G x
  complete : ∀ x, u.Sat G x → ∃ y, v.Sat G y ∧ G.objective.AsGood (v.cost G y) (u.cost G x) ∧
    ∀ j ∈ v.live G, y j = x j

/-- The problem has solutions of arbitrarily good objective value. -/
def UnboundedAt (G : GeneralForm) (u : Updates) : Prop :=
  ∀ M, ∃ x, u.Sat G x ∧ G.objective.AsGood (u.cost G x) M

/-- What a verdict during presolving has to mean. A verdict of unboundedness is given before it is known
whether there is a solution at all. -/
def VerdictCorrect (G : GeneralForm) (u : Updates) : LinearProgramType → Prop
  | .infeasible => ∀ x, ¬u.Sat G x
  | .unbounded => (∃ x, u.Sat G x) → UnboundedAt G u
  | .finiteOptimum _ => False

/-- Rows of a variable that are not yet removed from the index. -/
def rowsOf (G : GeneralForm) (c : Counters) (j : ℕ) : Finset ℕ :=
  (range G.constraintTypes.length).filter fun i => coef G i j ≠ 0 ∧ c.constraint i ≠ 0

/-- Variables of a row that are not yet removed from the index. -/
def varsOf (G : GeneralForm) (c : Counters) (i : ℕ) : Finset ℕ :=
  (range G.vars.length).filter fun j => coef G i j ≠ 0 ∧ c.columns j ≠ 0

/-- Variables of a row whose contribution to the activity in a direction is not bounded. -/
def missing (G : GeneralForm) (s : Index) (i : ℕ) (d : BoundDirection) : Finset ℕ :=
  (varsOf G s.counters i).filter fun j => s.updates.variableBound G j (d.times (coef G i j)) = none

/-- The recorded value of a removed variable refers only to variables that were not yet removed at the
time, or whose value was known. -/
def Ordered (removed : List (ℕ × RemovedVariable)) : Prop :=
  (∀ p ∈ removed, ¬p.2.Mentions p.1) ∧
    removed.Pairwise fun p q => q.2.Mentions p.1 → ∃ v, p.2 = .solved v

/-- No bound is stored both as certain and as derived bound, and a derived bound is at least as tight as
the original one. -/
def Separated (G : GeneralForm) (j : ℕ) (d : BoundDirection) (certain derived : Option ℚ) : Prop :=
  (certain = none ∨ derived = none) ∧
    ∀ a ∈ derived, ∀ b ∈ originalBound G j d, d.Respects (some b) a

/-- The counters count what they are meant to count, and the queues contain what they are meant to
contain. -/
structure Index.Counts (G : GeneralForm) (s : Index) : Prop where
  rowCount : ∀ i < G.constraintTypes.length, s.counters.constraint i ≠ 0 →
    s.counters.constraint i = #(varsOf G s.counters i)
  colCount : ∀ j < G.vars.length, s.counters.columns j ≠ 0 →
    s.counters.columns j = #(rowsOf G s.counters j)
  activity : ∀ i < G.constraintTypes.length, s.counters.constraint i ≠ 0 → ∀ d,
    s.counters.activity i d = #(missing G s i d)
  /-- Activity bounds are stored only for rows of which they are finite. -/
  cache : ∀ i < G.constraintTypes.length, s.counters.constraint i ≠ 0 → ∀ d,
    s.activityBounds i d ≠ none → s.counters.activity i d = 0
  disjoint : ∀ j d, Separated G j d (s.updates.bounds j d) (s.updates.activityBounds j d)
  substitutionQueue : ∀ j ∈ s.queues.substitution, j < G.vars.length
  boundQueue : ∀ i ∈ s.queues.bound, i < G.constraintTypes.length ∧ s.counters.constraint i ≤ 1
  allBounds : ∀ i < G.constraintTypes.length, s.counters.constraint i = 1 → i ∈ s.queues.bound
  slackQueue : ∀ j ∈ s.queues.slack, j < G.vars.length ∧ s.counters.columns j ≤ 1 ∧ costOf G j = 0
  activityQueue : ∀ p ∈ s.queues.activity, p.1 < G.constraintTypes.length ∧
    (s.counters.constraint p.1 ≠ 0 → s.counters.activity p.1 p.2 ≤ 1)

/-- The rows and variables without counts are those marked as removed. -/
structure Index.Removal (G : GeneralForm) (s : Index) : Prop where
  rowsRemoved : ∀ i < G.constraintTypes.length,
    i ∈ s.updates.constraintsRemoved ↔ s.counters.constraint i = 0
  varsRemoved : ∀ j < G.vars.length,
    j ∈ s.updates.removedVariables.map (·.1) ↔ s.counters.columns j = 0
  rowsRange : ∀ i ∈ s.updates.constraintsRemoved, i < G.constraintTypes.length
  varsRange : ∀ j ∈ s.updates.removedVariables.map (·.1), j < G.vars.length
  rowsNodup : s.updates.constraintsRemoved.Nodup
  varsNodup : (s.updates.removedVariables.map (·.1)).Nodup
  ordered : Ordered s.updates.removedVariables
  mentioned : ∀ p ∈ s.updates.removedVariables, ∀ k, p.2.Mentions k → k < G.vars.length

/-- The state is well-formed. -/
structure Index.WF (G : GeneralForm) (s : Index) : Prop extends s.Counts G, s.Removal G

/-- No remaining variable has an upper bound below its lower bound, and no remaining constraint has a
negative range. -/
structure Proper (G : GeneralForm) (u : Updates) : Prop where
  bounds : ∀ j ∈ u.live G, ∀ l ∈ u.variableBound G j .lower, ∀ r ∈ u.variableBound G j .upper, l ≤ r
  ranges : ∀ i < G.constraintTypes.length, i ∉ u.constraintsRemoved →
    ∀ r, u.constraintType G i = .range r → 0 ≤ r

/-- What holds between steps: the state is well-formed, no bounds cross, and the variables that are
queued because their bounds are equal still have equal bounds. -/
structure Index.Fit (G : GeneralForm) (s : Index) : Prop extends s.WF G where
  proper : Proper G s.updates
  fixed : ∀ j ∈ s.queues.substitution, s.counters.columns j ≠ 0 →
    (s.updates.isVariableFixed G j).isSome

/-- A step from a state does what it should: the problem that is left can be solved instead, a verdict is
right, and only the given aborts occur. -/
def Correct (G : GeneralForm) (s : Index) (allowed : Abort → Prop) : Run Index → Prop
  | .ok t => t.Fit G ∧ Refines G s.updates t.updates
  | .error (.verdict r) => VerdictCorrect G s.updates r
  | .error (.abort a) => allowed a
  | .error .outOfFuel => False

/-- The cases of a constraint of the given type, in which a variable without cost occurs that is in no
other constraint, in which the variable can be recovered: it has no bounds; or the constraint is an
equality; or the variable has a bound in the direction in which it helps the inequality least; or a
two-sided constraint where it has only that one. -/
def SlackGood (t : ConstraintType) (lower upper : Option ℚ) (coefficient : ℚ) : Prop :=
  lower = none ∧ upper = none ∨
    match t with
    | .equal => True
    | .less => if 0 < coefficient then lower ≠ none else upper ≠ none
    | .greater => if 0 < coefficient then upper ≠ none else lower ≠ none
    | .range _ => if 0 < coefficient then lower ≠ none ∧ upper = none else lower = none ∧ upper ≠ none

/-- The extreme value of the left-hand side of a constraint in a direction, by the latest bounds of its
remaining variables. -/
def activityAt (G : GeneralForm) (s : Index) (i : ℕ) (d : BoundDirection) : ℚ :=
  ∑ j ∈ varsOf G s.counters i,
    coef G i j * (s.updates.variableBound G j (d.times (coef G i j))).getD 0

/-- If an extreme value of the left-hand side of a constraint was stored earlier, it still is one. -/
def AccurateAt (G : GeneralForm) (s : Index) (i : ℕ) (d : BoundDirection) : Prop :=
  ∀ bound, s.activityBounds i d = some bound → bound = activityAt G s i d

/-- Nothing has been changed or removed. -/
def Updates.initial : Updates where
  b := fun _ => none
  constraints := fun _ => none
  fixedCost := 0
  bounds := fun _ _ => none
  removedVariables := []
  constraintsRemoved := []
  activityBounds := fun _ _ => none

/-- The rule that is applied in a step: substitution of a fixed variable, use of a constraint with one
variable as a bound, removal of a slack variable, propagation of the bounds in a constraint, or none. -/
inductive Rule
  | fixed (j : ℕ)
  | bound (i : ℕ)
  | slack (j : ℕ)
  | propagation (i : ℕ) (d : BoundDirection)
  | nothing

/-- The rule that is applied next, by priority, to the first variable or constraint in the queue that has
not been removed; of the first queue only the first is considered. -/
def nextRule (s : Index) : Rule :=
  match s.queues.substitution.head?.filter fun j => 0 < s.counters.columns j with
  | some j => .fixed j
  | none =>
    match s.queues.bound.find? fun i => s.counters.constraint i ≠ 0 with
    | some i => .bound i
    | none =>
      match s.queues.slack.find? fun j => s.counters.columns j ≠ 0 with
      | some j => .slack j
      | none =>
        match s.queues.activity.find? fun p => s.counters.constraint p.1 ≠ 0 with
        | some p => .propagation p.1 p.2
        | none => .nothing

/-- The step avoids two defects of the program: a slack variable is only removed if it can be recovered,
and an extreme value of a constraint that was stored earlier and is used is still right. -/
def SafeStep (G : GeneralForm) (s : Index) : Prop :=
  match nextRule s with
  | .slack j => ∀ i ∈ rowsOf G s.counters j, SlackGood (s.updates.constraintType G i)
      (s.updates.variableBound G j .lower) (s.updates.variableBound G j .upper) (coef G i j)
  | .propagation i d => s.counters.activity i d = 0 → AccurateAt G s i d
  | _ => True

/-- All steps of the loop are safe. -/
def SafeRun (G : GeneralForm) : ℕ → Index → ℕ → Prop
  | 0, _, _ => True
  | fuel + 1, s, iterations =>
    !s.queues.areEmpty → iterations < remaining G s →
      SafeStep G s ∧
        match presolveStep G s with
        | .ok (t, .meaningful) => SafeRun G fuel t 0
        | .ok (t, .none) => SafeRun G fuel t iterations
        | .ok (t, .notMeaningful) => SafeRun G fuel t (iterations + 1)
        | .error _ => True

/-- An extreme value of the left-hand side of a constraint in a direction shows that the constraint holds,
or that one of its two sides does; not if it only leaves one solution. -/
def Dispensable : BoundDirection → ConstraintType → ℚ → ℚ → Prop
  | .lower, .greater, rhs, extreme => rhs ≤ extreme
  | .upper, .less, rhs, extreme => extreme ≤ rhs
  | .lower, .range r, rhs, extreme => rhs - r ≤ extreme
  | .upper, .range r, rhs, extreme => extreme = rhs ∨ rhs - r < extreme ∧ extreme < rhs
  | _, _, _, _ => False

/-- If a constraint, or one of its sides, is given up in a step because it holds within the bounds of its
variables, then these bounds are certain, or of the given variables. -/
def KeptStep (G : GeneralForm) (F : ℕ → Bool) (s : Index) : Prop :=
  match nextRule s with
  | .propagation i d => s.counters.activity i d = 0 →
    Dispensable d (s.updates.constraintType G i) (s.updates.rhs G i) (activityAt G s i d) →
      ∀ j ∈ varsOf G s.counters i,
        F j = true ∨ s.updates.activityBounds j (d.times (coef G i j)) = none
  | _ => True

/-- This is so in all steps of the loop. -/
def KeptRun (G : GeneralForm) (F : ℕ → Bool) : ℕ → Index → ℕ → Prop
  | 0, _, _ => True
  | fuel + 1, s, iterations =>
    !s.queues.areEmpty → iterations < remaining G s →
      KeptStep G F s ∧
        match presolveStep G s with
        | .ok (t, .meaningful) => KeptRun G F fuel t 0
        | .ok (t, .none) => KeptRun G F fuel t iterations
        | .ok (t, .notMeaningful) => KeptRun G F fuel t (iterations + 1)
        | .error _ => True

/-- The variable was free, and only derived bounds have been found for it. -/
def OnlyDerived (G : GeneralForm) (u : Updates) (j : ℕ) : Prop :=
  ∀ d, originalBound G j d = none ∧ u.bounds j d = none

/-- The bounds that are kept in the result: a derived bound is discarded unless the variable was free and
has no certain bound. -/
def Updates.kept (G : GeneralForm) (u : Updates) : Updates :=
  { u with bounds := fun j d => u.newBound G j d, activityBounds := fun _ _ => none }

/-- The derived bounds that are discarded follow from what is kept. -/
def DiscardedFollow (G : GeneralForm) (u : Updates) : Prop :=
  ∀ x, (u.kept G).Sat G x → u.Sat G x

/-- What the result of presolving has to mean to the caller. A problem that is left can be solved instead:
it is well-formed; each feasible point of it can be extended to the removed variables; each extension of a
feasible point gives the original variables values that are feasible, with the same objective value; and for
each feasible point of the original problem there is one of the new problem that is as good, with the same
values for the variables that remain. A verdict is
right, but unboundedness may be reported before it is known whether there is a feasible point. Only the
given aborts occur. -/
def ResultCorrect (G : GeneralForm) (allowed : Abort → Prop) : Run GeneralForm → Prop
  | .ok H =>
    (H.Consistent ∧ H.Proper ∧ H.Acyclic ∧ H.objective = G.objective) ∧
    (∀ y, ∃ values, H.Extends y values) ∧
    (∀ y values, H.toProgram.Feasible y → H.Extends y values →
      ∃ x, G.toProgram.Feasible x ∧ G.Extends x values ∧
        G.toProgram.objective x = H.toProgram.objective y) ∧
    ∀ x, G.toProgram.Feasible x → ∃ y, H.toProgram.Feasible y ∧
      G.objective.AsGood (H.toProgram.objective y) (G.toProgram.objective x) ∧
      ∀ (k : Fin H.vars.length) (j : Fin G.vars.length), H.fromActive[k.val]? = some j.val → y k = x j
  | .error (.verdict (.finiteOptimum solution)) =>
    ∃ x, G.Best x ∧ G.Extends x solution.values ∧ G.toProgram.objective x = solution.objectiveValue
  | .error (.verdict .infeasible) => ∀ x, ¬G.toProgram.Feasible x
  | .error (.verdict .unbounded) => (∃ x, G.toProgram.Feasible x) → G.Unbounded
  | .error (.abort a) => allowed a
  | .error .outOfFuel => True

end Presolve

end Relp
