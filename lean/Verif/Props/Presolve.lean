import Verif.Proof.PresolveEnds
import Verif.Props.GeneralForm
import Verif.Proof.PresolveDecide
import Verif.Proof.PresolveKept

/-!
# Properties of presolving (C31 to C35, C44 to C48)

`u.Sat G x` says that `x` is a solution of the problem that is left after the changes `u`, and `u.cost G x`
is its objective value (`Verif.Spec.Presolve`). `s.Fit G` holds at the start (`start_fit`) and after each
safe step (`step_fit`).
-/

namespace Relp

open GeneralForm hiding costOf
open Presolve

namespace Example

/-- A continuous variable. -/
def vari (cost : ℚ) (lower upper : Option ℚ) : Variable := ⟨.continuous, cost, lower, upper, 0, false⟩

/-- A minimisation problem with variables named `x0`, `x1`, ... -/
def problem (columns : List (SVec ℕ)) (types : List ConstraintType) (b : List ℚ)
    (vars : List Variable) (names : List String) : GeneralForm :=
  .new .minimize ⟨columns, columns.length, types.length⟩ types b vars names 0

theorem problem_fresh (columns : List (SVec ℕ)) (types : List ConstraintType) (b : List ℚ)
    (vars : List Variable) (names : List String) (h1 : b.length = types.length)
    (h3 : columns.length = vars.length) (h5 : ∀ v ∈ columns, SVec.WF v)
    (h6 : ∀ v ∈ columns, ∀ p ∈ v, p.1 < types.length) (h7 : names.length = vars.length)
    (h8 : ∀ v ∈ vars, v.shift = 0 ∧ v.flipped = false) :
    (problem columns types b vars names).Fresh :=
  new_fresh (new_consistent _ _ _ _ _ _ _ h1 rfl h3 h3 h5 h6 h7 h8).1

/-- The problem of the test in presolve/test/with_application.rs:26-131. -/
def application : GeneralForm :=
  problem [[(0, 2), (1, 3), (2, 7), (3, 17)], [(1, 5), (2, 11), (3, 19)], [(2, 13), (3, 23)], [],
      [(3, 29)], [(3, 31)]]
    [.equal, .less, .greater, .equal] [101, 103, 107, 109]
    [vari 211 none none, vari 223 (some (-97 / 10)) none, vari 227 none none,
      vari (-229) none (some 131), vari 233 (some (-30736 / 1885)) (some 123), vari 0 (some 5) none]
    ["XONE", "XTWO", "XTHREE", "XFOUR", "XFIVE", "XSIX"]

/-- A problem in which a constraint becomes a bound, a fixed variable is substituted and a slack variable
is removed. -/
def reducible : GeneralForm :=
  problem [[(0, 1), (1, 1)], [(1, 1), (2, 2)], [(1, 1), (2, 1)], [(2, -1)], [(1, 1), (2, 3)]]
    [.less, .greater, .equal] [4, 10, 8]
    [vari 1 (some 0) none, vari 2 (some 0) none, vari 3 (some 0) none, vari 0 (some 0) none,
      vari 1 (some 1) (some 1)]
    ["x0", "x1", "x2", "x3", "x4"]

/-- What is left of `reducible`. -/
def reduced : GeneralForm where
  objective := .minimize
  fixedCost := 1
  constraints := ⟨[[(0, 1)], [(0, 1), (1, 2)], [(0, 1), (1, 1)]], 3, 2⟩
  constraintTypes := [.greater, .greater]
  b := [9, 5]
  vars := [vari 1 (some 0) (some 4), vari 2 (some 0) none, vari 3 (some 0) none]
  original := [("x0", .active 0), ("x1", .active 1), ("x2", .active 2),
    ("x3", .removed (.functionOfOthers (-5) [(1, -2), (2, -1)])), ("x4", .removed (.solved 1))]
  fromActive := [0, 1, 2]

theorem reducible_fresh : reducible.Fresh :=
  problem_fresh _ _ _ _ _ rfl rfl (by decide +kernel) (by decide +kernel) rfl (by decide +kernel)

theorem reducible_proper : reducible.Proper :=
  ⟨by decide +kernel, by intro r hr; simp [reducible, problem, GeneralForm.new] at hr⟩

theorem application_fresh : application.Fresh :=
  problem_fresh _ _ _ _ _ rfl rfl (by decide +kernel) (by decide +kernel) rfl (by decide +kernel)

theorem application_proper : application.Proper :=
  ⟨by decide +kernel, by intro r hr; simp [application, problem, GeneralForm.new] at hr⟩

theorem reducible_presolve : presolve 100 reducible = .ok reduced := by decide +kernel

end Example

/-! ### Reachable states -/

section

variable {G : GeneralForm}

/-- The state in which presolving starts is fit. -/
theorem start_fit (hG : G.Fresh) (hp : G.Proper) {s : Index} (h : Index.new G = .ok s) : s.Fit G :=
  ((indexNew_correct hG.toConsistent hp).1 s h).1

/-- A safe step leads to a fit state. -/
theorem step_fit (hG : G.Fresh) {s t : Index} {change : Change} (hs : s.Fit G) (hsafe : SafeStep G s)
    (h : presolveStep G s = .ok (t, change)) : t.Fit G := by
  have := presolveStep_correct hG hs hsafe
  rw [h] at this
  exact this.1

end

/-- The state after a number of steps that are safe. -/
def reached (G : GeneralForm) : ℕ → Option Index
  | 0 => (Index.new G).toOption
  | n + 1 => (reached G n).bind fun s =>
    if SafeStep G s then (presolveStep G s).toOption.map Prod.fst else none

theorem reached_fit {G : GeneralForm} (hG : G.Fresh) (hp : G.Proper) : ∀ (n : ℕ) {s : Index},
    reached G n = some s → s.Fit G
  | 0, s, h => by
    unfold reached at h
    cases hn : Index.new G with
    | error e => rw [hn] at h; cases h
    | ok t => rw [hn] at h; cases h; exact start_fit hG hp hn
  | n + 1, s, h => by
    obtain ⟨t, ht, h⟩ := Option.bind_eq_some_iff.1 h
    split at h
    · rename_i hsafe
      cases hstep : presolveStep G t with
      | error e => rw [hstep] at h; cases h
      | ok r =>
        rw [hstep] at h
        cases h
        exact step_fit hG (reached_fit hG hp n ht) hsafe hstep
    · cases h

theorem reached_exists {G : GeneralForm} (hG : G.Fresh) (hp : G.Proper) {n : ℕ} (p : Index → Prop)
    [DecidablePred p] (h : (reached G n).any (fun s => decide (p s)) = true) :
    ∃ s, reached G n = some s ∧ s.Fit G ∧ p s := by
  cases hs : reached G n with
  | none => rw [hs] at h; cases h
  | some s => rw [hs] at h; exact ⟨s, rfl, reached_fit hG hp n hs, of_decide_eq_true h⟩

/-! ### C31: fixed variables -/

section

variable {G : GeneralForm} {s : Index}

/-- **C31.** Substituting a variable whose bounds are equal gives a problem with the same solutions and
objective values, and infeasibility is reported only if there is no solution. -/
theorem C31_fixed_variable (hG : G.Fresh) (hs : s.Fit G) {j : ℕ} (hj : j < G.vars.length)
    (hj0 : s.counters.columns j ≠ 0) {value : ℚ}
    (hl : s.updates.variableBound G j .lower = some value)
    (hu : s.updates.variableBound G j .upper = some value) :
    match presolveFixedVariable G s j with
    | .ok t => t.Fit G ∧ (j, .solved value) ∈ t.updates.removedVariables ∧
        (∀ x, s.updates.Sat G x ↔ t.updates.Sat G x) ∧
        ∀ x, s.updates.Sat G x → x j = value ∧ s.updates.cost G x = t.updates.cost G x
    | .error e => e = .verdict .infeasible ∧ ∀ x, ¬s.updates.Sat G x := by
  have hf : s.updates.isVariableFixed G j = some value := by
    simp [Updates.isVariableFixed, hl, hu]
  have hf' : (s.updates.isVariableFixed G j).isSome := by rw [hf]; rfl
  have h := presolveFixedVariable_correct hG.toConsistent hs hf' hj hj0
  cases ht : presolveFixedVariable G s j with
  | error e => exact h.2 e ht
  | ok t =>
    have h1 := h.1 t ht
    have hm : (j, .solved value) ∈ t.updates.removedVariables := by
      rw [presolveFixedVariable_eq hG.toConsistent hs.toCounts hf hj hj0] at ht
      split at ht
      · cases ht
        simp [fixedState, removeVariable]
      · cases ht
    refine ⟨h1.1, hm, fun x => (h1.2.2 x).1, fun x hx => ⟨?_, (h1.2.2 x).2 hx⟩⟩
    exact ((h1.2.2 x).1.1 hx).removed _ hm

/-- At the start of presolving, variable `x4` is fixed. -/
example : ∃ s, Index.new Example.reducible = .ok s ∧ s.Fit Example.reducible ∧
    s.counters.columns 4 ≠ 0 ∧ s.updates.variableBound Example.reducible 4 .lower = some 1 ∧
    s.updates.variableBound Example.reducible 4 .upper = some 1 ∧
    ∃ t, presolveFixedVariable Example.reducible s 4 = .ok t :=
  ⟨_, rfl, start_fit Example.reducible_fresh Example.reducible_proper rfl, by decide +kernel,
    by decide +kernel, by decide +kernel, _, rfl⟩

/-! ### C32: constraints with one variable -/

/-- **C32.** Using a constraint with one remaining variable as a bound (it is taken from its queue, of
which `rest` is left) removes the constraint and gives a problem that can be solved instead, and a verdict
is right; it never aborts. If the variable occurs in another constraint (else it gets a best value), the
solutions are the same. -/
theorem C32_bound_constraint (hG : G.Fresh) (hs : s.Fit G) {i : ℕ} (hi : i < G.constraintTypes.length)
    (h1 : s.counters.constraint i = 1) {rest : List ℕ} (hq : s.queues.bound = i :: rest) :
    match presolveBoundConstraint G { s with queues := { s.queues with bound := rest } } i with
    | .ok t => t.Fit G ∧ i ∈ t.updates.constraintsRemoved ∧ Refines G s.updates t.updates ∧
        ∀ j < G.vars.length, coef G i j ≠ 0 → 1 < s.counters.columns j →
          ∀ x, s.updates.Sat G x ↔ t.updates.Sat G x
    | .error e => ∃ r, e = .verdict r ∧ VerdictCorrect G s.updates r := by
  have hsub : rest ⊆ s.queues.bound := by rw [hq]; exact List.subset_cons_self _ _
  have hrest : ∀ k ≠ i, s.counters.constraint k = 1 → k ∈ s.queues.bound → k ∈ rest := by
    intro k hk _ hm
    rw [hq] at hm
    exact (List.mem_cons.1 hm).resolve_left hk
  have h := presolveBoundConstraint_correct hG.toConsistent hs hi h1 hsub hrest
  cases ht : presolveBoundConstraint G { s with queues := { s.queues with bound := rest } } i with
  | error e =>
    rw [ht] at h
    cases e with
    | verdict r => exact ⟨r, rfl, h⟩
    | abort a => exact h.elim
    | outOfFuel => exact h.elim
  | ok t =>
    rw [ht] at h
    obtain ⟨j, t', hv, ha, he⟩ := presolveBoundConstraint_eq hG.toConsistent hs.toWF hi h1 hsub hrest
    rw [he] at ht
    have hm : i ∈ t'.updates.constraintsRemoved := by
      rw [ha.merged.constraintsRemoved]
      simp [boundRowGone, removeConstraint]
    have hequiv := bound_equivalent hs.toWF hi h1 hv ha.merged
    have hcol : t'.counters.columns j = s.counters.columns j - 1 := by
      rw [ha.columns]
      simp [boundRowGone, removeConstraint, insertAt]
    cases hfv : feasibleValue (t'.updates.variableBound G j .lower)
      (t'.updates.variableBound G j .upper) with
    | none => rw [hfv] at ht; cases ht
    | some v =>
      rw [hfv] at ht
      simp only [] at ht
      refine ⟨h.1, ?_, h.2, fun k hk hik hk1 => ?_⟩
      · unfold queueVariableByCounter at ht
        split at ht
        · split at ht
          · rw [hfv] at ht
            cases ht
            exact hm
          · cases ho : optimizeIndependentColumn G.objective (costOf G j)
              (t'.updates.variableBound G j .lower) (t'.updates.variableBound G j .upper) with
            | error e => rw [ho] at ht; cases ht
            | ok value => rw [ho] at ht; cases ht; exact hm
        · split at ht <;> cases ht <;> exact hm
        · cases ht
          exact hm
      · have hkj : k = j := by
          have : k ∈ varsOf G s.counters i := mem_varsOf.2 ⟨hk, hik, by omega⟩
          rw [hv] at this
          simpa using this
        subst hkj
        have : t.updates = t'.updates := by
          unfold queueVariableByCounter at ht
          split at ht
          · omega
          · split at ht <;> cases ht <;> rfl
          · cases ht
            rfl
        rw [this]
        exact fun x => (hequiv x).1

/-- At the start of presolving, the first constraint is `x0 ≤ 4`. -/
example : ∃ s, Index.new Example.reducible = .ok s ∧ s.Fit Example.reducible ∧
    s.counters.constraint 0 = 1 ∧ s.queues.bound = [0] ∧ 1 < s.counters.columns 0 ∧
    (presolveBoundConstraint Example.reducible { s with queues := { s.queues with bound := [] } } 0).map
      (fun t => t.updates.variableBound Example.reducible 0 .upper) = .ok (some 4) :=
  ⟨_, rfl, start_fit Example.reducible_fresh Example.reducible_proper rfl, by decide +kernel,
    by decide +kernel, by decide +kernel, by decide +kernel⟩

/-! ### C33: slack variables -/

/-- **C33**, partial: in the cases `SlackGood`, removing a variable without cost that occurs in one
constraint gives a problem that can be solved instead: in particular all its solutions, with the recovered
value of the variable, respect the bounds of the variable.

Missing: it is not true in the other cases, see `C33_not_positive` and `C33_not_range`. -/
theorem C33_slack_partial (hG : G.Fresh) (hs : s.Fit G) (hb : s.queues.bound = []) {j : ℕ}
    (hj : j < G.vars.length) (h1 : s.counters.columns j = 1) (hcost : costOf G j = 0)
    (hgood : ∀ i ∈ rowsOf G s.counters j, SlackGood (s.updates.constraintType G i)
      (s.updates.variableBound G j .lower) (s.updates.variableBound G j .upper) (coef G i j)) :
    match presolveSlack G s j with
    | .ok t => t.Fit G ∧ Refines G s.updates t.updates ∧
        ∀ x, t.updates.Sat G x → ∀ d : BoundDirection, d.Respects (s.updates.variableBound G j d) (x j)
    | .error e => ∃ r, e = .verdict r ∧ VerdictCorrect G s.updates r := by
  have h := presolveSlack_correct hG hs hb hj h1 hcost hgood
  cases ht : presolveSlack G s j with
  | error e =>
    rw [ht] at h
    cases e with
    | verdict r => exact ⟨r, rfl, h⟩
    | abort a => exact h.elim
    | outOfFuel => exact h.elim
  | ok t =>
    rw [ht] at h
    exact ⟨h.1, h.2, fun x hx d => (h.2.sound x hx).1.bounds j
      ((hs.mem_live).2 ⟨hj, by omega⟩) d⟩

/-- After two steps with `reducible`, the slack variable `x3` can be removed. -/
example : ∃ s, reached Example.reducible 2 = some s ∧ s.Fit Example.reducible ∧
    s.queues.bound = [] ∧ s.counters.columns 3 = 1 ∧ costOf Example.reducible 3 = 0 ∧
    (∀ i ∈ rowsOf Example.reducible s.counters 3,
      SlackGood (s.updates.constraintType Example.reducible i)
        (s.updates.variableBound Example.reducible 3 .lower)
        (s.updates.variableBound Example.reducible 3 .upper) (coef Example.reducible i 3)) ∧
    (presolveSlack Example.reducible s 3).isOk :=
  reached_exists Example.reducible_fresh Example.reducible_proper _ (by decide +kernel)

end

/-- `values` are not the values of a feasible point. -/
def NotFeasible (G : GeneralForm) (values : List (String × ℚ)) : Prop :=
  ∀ x, G.Extends x values → ¬G.toProgram.Feasible x

namespace Example

/-- Minimise `-3 x0 - 2 x2` with `x0 + x1 ≥ 5` and `x0 + x2 ≤ 20`, and all variables at least zero. -/
def slackPositive : GeneralForm :=
  problem [[(0, 1), (1, 1)], [(0, 1)], [(1, 1)]] [.greater, .less] [5, 20]
    [vari (-3) (some 0) none, vari 0 (some 0) none, vari (-2) (some 0) none] ["x0", "x1", "x2"]

/-- Minimise `x0 - 2 x2` with `0 ≤ x0 + x1 ≤ 10` and `x0 + x2 ≤ 20`, and all variables at least zero, `x1`
at most one. -/
def slackRange : GeneralForm :=
  problem [[(0, 1), (1, 1)], [(0, 1)], [(1, 1)]] [.range 10, .less] [10, 20]
    [vari 1 (some 0) none, vari 0 (some 0) (some 1), vari (-2) (some 0) none] ["x0", "x1", "x2"]

/-- Fresh and proper problems. -/
theorem slackPositive_fresh : slackPositive.Fresh ∧ slackPositive.Proper :=
  ⟨problem_fresh _ _ _ _ _ rfl rfl (by decide +kernel) (by decide +kernel) rfl (by decide +kernel),
    by decide +kernel, by intro r hr; simp [slackPositive, problem, GeneralForm.new] at hr⟩

theorem slackRange_fresh : slackRange.Fresh ∧ slackRange.Proper :=
  ⟨problem_fresh _ _ _ _ _ rfl rfl (by decide +kernel) (by decide +kernel) rfl (by decide +kernel),
    by decide +kernel, by
      intro r hr
      simp [slackRange, problem, GeneralForm.new] at hr
      rw [hr]
      norm_num⟩

/-- The second of three values violates a bound. -/
theorem notFeasible_second {G : GeneralForm} {values : List (String × ℚ)} (hl : 1 < G.vars.length)
    {v : ℚ} (ha : G.fromActive[1]? = some 1) (hv : (values[1]?).map (·.2) = some v)
    (h : ¬((∀ l ∈ G.vars[1].lowerBound, l ≤ v) ∧ ∀ u ∈ G.vars[1].upperBound, v ≤ u)) :
    NotFeasible G values := by
  intro x hx hf
  have := hx.active ⟨1, hl⟩ 1 ha
  rw [hv] at this
  cases this
  exact h (hf.2 ⟨1, hl⟩)

end Example

/-- **C33 is false** for a constraint `≥` with a variable that is bounded only from below and has a
positive coefficient (for which the code removes the constraint): presolving and solving gives `x1 = -15`,
although `x1 ≥ 0` is required. -/
theorem C33_not_positive : Example.slackPositive.Fresh ∧ Example.slackPositive.Proper ∧
    ∃ solution, Example.slackPositive.presolveAndSolve .rows .steepestDescentAlongObjective 100 30 =
        some (.finiteOptimum solution) ∧
      solution.values = [("x0", 20), ("x1", -15), ("x2", 0)] ∧
      NotFeasible Example.slackPositive solution.values :=
  ⟨Example.slackPositive_fresh.1, Example.slackPositive_fresh.2,
    ⟨-60, [("x0", 20), ("x1", -15), ("x2", 0)]⟩, by decide +kernel, rfl,
    Example.notFeasible_second (by decide) rfl rfl (by decide +kernel)⟩

/-- **C33 is false** for a two-sided constraint with a variable with two bounds: presolving and solving
gives `x1 = 10`, although `x1 ≤ 1` is required. -/
theorem C33_not_range : Example.slackRange.Fresh ∧ Example.slackRange.Proper ∧
    ∃ solution, Example.slackRange.presolveAndSolve .rows .steepestDescentAlongObjective 100 30 =
        some (.finiteOptimum solution) ∧
      solution.values = [("x0", 0), ("x1", 10), ("x2", 20)] ∧
      NotFeasible Example.slackRange solution.values :=
  ⟨Example.slackRange_fresh.1, Example.slackRange_fresh.2,
    ⟨-40, [("x0", 0), ("x1", 10), ("x2", 20)]⟩, by decide +kernel, rfl,
    Example.notFeasible_second (by decide) rfl rfl (by decide +kernel)⟩

/-! ### C34: domain propagation -/

section

variable {G : GeneralForm} {s : Index}

/-- **C34**, partial: if the extreme value of the constraint that is used was not stored earlier, or is
still right, propagating the bounds in a constraint gives a problem that can be solved instead; each
solution respects the derived bounds; and a verdict is right. It aborts only in one case of a two-sided
constraint.

Missing: it is not true if the stored value is outdated, see `C34_not_outdated`; and derived bounds may be
discarded afterwards although a constraint was removed because of them, see `C34_not_discarded`. -/
theorem C34_propagation_partial (hG : G.Fresh) (hs : s.Fit G) {i : ℕ} (hi : i < G.constraintTypes.length)
    (hi0 : s.counters.constraint i ≠ 0) {d : BoundDirection} (h1 : s.counters.activity i d ≤ 1)
    (ha : s.counters.activity i d = 0 → AccurateAt G s i d) :
    match presolveDomainPropagation G s i d with
    | .ok (t, _) => t.Fit G ∧ Refines G s.updates t.updates ∧
        ∀ x, s.updates.Sat G x → ∀ j ∈ t.updates.live G, ∀ e : BoundDirection,
          e.Respects (t.updates.variableBound G j e) (x j)
    | .error (.verdict r) => VerdictCorrect G s.updates r
    | .error (.abort a) => a = .unreachable ∧ d = .lower ∧
        (∃ r, s.updates.constraintType G i = .range r) ∧ s.updates.rhs G i = activityAt G s i d
    | .error .outOfFuel => False := by
  have h := presolveDomainPropagation_correct hG.toConsistent hs hi hi0 h1 ha
  cases ht : presolveDomainPropagation G s i d with
  | error e =>
    rw [ht] at h
    match e, h with
    | .verdict r, h => exact h
    | .abort a, h => exact ⟨h.1, h.2.1, h.2.2.2⟩
  | ok r =>
    rw [ht] at h
    refine ⟨h.1, h.2, fun x hx j hj e => ?_⟩
    obtain ⟨y, hy, -, hyx⟩ := h.2.complete x hx
    rw [← hyx j hj]
    exact hy.bounds j hj e

end

namespace Example

/-- Minimise `x0 + 2 x1 + 3 x2` with `x0 + x1 ≤ 4`, `x1 + x2 ≥ 1` and `x0 + x2 ≥ 1`, and all variables at
least zero. -/
def bounded : GeneralForm :=
  problem [[(0, 1), (2, 1)], [(0, 1), (1, 1)], [(1, 1), (2, 1)]] [.less, .greater, .greater] [4, 1, 1]
    [vari 1 (some 0) none, vari 2 (some 0) none, vari 3 (some 0) none] ["x0", "x1", "x2"]

theorem bounded_fresh : bounded.Fresh ∧ bounded.Proper :=
  ⟨problem_fresh _ _ _ _ _ rfl rfl (by decide +kernel) (by decide +kernel) rfl (by decide +kernel),
    by decide +kernel, by intro r hr; simp [bounded, problem, GeneralForm.new] at hr⟩

end Example

/-- At the start, the upper bound `4` for `x0` follows from the first constraint. -/
example : ∃ s, reached Example.bounded 0 = some s ∧ s.Fit Example.bounded ∧
    s.counters.constraint 0 ≠ 0 ∧ s.counters.activity 0 .lower ≤ 1 ∧
    (s.counters.activity 0 .lower = 0 → AccurateAt Example.bounded s 0 .lower) ∧
    (presolveDomainPropagation Example.bounded s 0 .lower).map
      (fun t => t.1.updates.variableBound Example.bounded 0 .upper) = .ok (some 4) :=
  reached_exists Example.bounded_fresh.1 Example.bounded_fresh.2 _ (by decide +kernel)

namespace Example

/-- A problem for which an outdated extreme value is used. -/
def outdated : GeneralForm :=
  problem [[(0, 1), (2, 1)], [(0, 1), (1, 1)], [(0, 1)], [(1, 1)], [(2, 1)]]
    [.less, .equal, .greater] [10, 8, 7 / 2]
    [vari 1 (some 0) none, vari 1 (some 8) (some 20), vari (-1) (some 0) none,
      vari 1 (some 0) (some 5), vari 1 (some 0) (some 3)]
    ["x0", "x1", "x2", "x3", "x4"]

theorem outdated_fresh : outdated.Fresh ∧ outdated.Proper :=
  ⟨problem_fresh _ _ _ _ _ rfl rfl (by decide +kernel) (by decide +kernel) rfl (by decide +kernel),
    by decide +kernel, by intro r hr; simp [outdated, problem, GeneralForm.new] at hr⟩

/-- Minimise `2 x0 + x1 + x2` with `x0 + 2 x1 ≤ 11`, `x0 + x1 ≥ 11` and `x1 - x2 ≥ 0`; it is infeasible
because of `1 ≤ x2`. -/
def discarded : GeneralForm :=
  problem [[(0, 1), (1, 1)], [(0, 2), (1, 1), (2, 1)], [(2, -1)]] [.less, .greater, .greater] [11, 11, 0]
    [vari 2 (some (-100000)) none, vari 1 none (some 100000), vari 1 (some 1) (some (3 / 2))]
    ["x0", "x1", "x2"]

theorem discarded_fresh : discarded.Fresh ∧ discarded.Proper :=
  ⟨problem_fresh _ _ _ _ _ rfl rfl (by decide +kernel) (by decide +kernel) rfl (by decide +kernel),
    by decide +kernel, by intro r hr; simp [discarded, problem, GeneralForm.new] at hr⟩

end Example

/-- **C34 is false** without the hypothesis: for this problem, which has a feasible point, presolving
reports that it is infeasible. The extreme value stored for a constraint is not updated if a fixed variable
is substituted. -/
theorem C34_not_outdated : Example.outdated.Fresh ∧ Example.outdated.Proper ∧
    presolve 100 Example.outdated = .error (.verdict .infeasible) ∧
    Example.outdated.toProgram.Feasible ![1, 8, 0, 0, 3] :=
  ⟨Example.outdated_fresh.1, Example.outdated_fresh.2, by decide +kernel, by decide +kernel, by decide +kernel⟩

/-- **C34 is false** for the result: for this problem, which has no feasible point, presolving and solving
gives an optimum. A constraint is removed because it follows from a derived bound, and then the derived
bound is discarded. -/
theorem C34_not_discarded : Example.discarded.Fresh ∧ Example.discarded.Proper ∧
    (∀ x, ¬Example.discarded.toProgram.Feasible x) ∧
    Example.discarded.presolveAndSolve .rows .steepestDescentAlongObjective 100 30 =
      some (.finiteOptimum ⟨23, [("x0", 11), ("x1", 0), ("x2", 1)]⟩) := by
  refine ⟨Example.discarded_fresh.1, Example.discarded_fresh.2, fun x hx => ?_, by decide +kernel⟩
  let z : Fin 3 → ℚ := x
  have hA : ∀ (i : Fin 3), (Example.discarded.toProgram.A.mulVec x) i =
      SVec.val [(0, 1), (1, 1)] i.val * z 0 + SVec.val [(0, 2), (1, 1), (2, 1)] i.val * z 1 +
        SVec.val [(2, -1)] i.val * z 2 :=
    fun i => Fin.sum_univ_three (fun j : Fin 3 => Example.discarded.toProgram.A i j * z j)
  have h0 : (Example.discarded.toProgram.A.mulVec x) (0 : Fin 3) ≤ 11 := hx.1 (0 : Fin 3)
  have h1 : 11 ≤ (Example.discarded.toProgram.A.mulVec x) (1 : Fin 3) := hx.1 (1 : Fin 3)
  have h2 : 0 ≤ (Example.discarded.toProgram.A.mulVec x) (2 : Fin 3) := hx.1 (2 : Fin 3)
  have h3 : 1 ≤ z 2 := (hx.2 (2 : Fin 3)).1 1 rfl
  rw [hA] at h0 h1 h2
  simp [SVec.val] at h0 h1 h2
  linarith

/-! The stored extreme values stay right when a rule shifts a bound. -/

section

variable {G : GeneralForm} {s : Index}

/-- **C34**, partial: an extreme value that is stored for a constraint, and right, is still right after
another constraint was used as a bound.

Missing: it is not true for the substitution of a fixed variable, see `C34_not_outdated`. -/
theorem C34_stored_bound_partial (hG : G.Fresh) (hs : s.Fit G) {i : ℕ}
    (hi : i < G.constraintTypes.length) (h1 : s.counters.constraint i = 1) {rest : List ℕ}
    (hq : s.queues.bound = i :: rest) {t : Index}
    (ht : presolveBoundConstraint G { s with queues := { s.queues with bound := rest } } i = .ok t)
    {k : ℕ} (hk : k < G.constraintTypes.length) (hk0 : t.counters.constraint k ≠ 0)
    {e : BoundDirection} (ha : AccurateAt G s k e) : AccurateAt G t k e := by
  refine presolveBoundConstraint_accurate hG.toConsistent hs.toWF hi h1 ?_ ?_ ht hk hk0 ha
  · rw [hq]; exact List.subset_cons_self _ _
  · intro k hk _ hm
    rw [hq] at hm
    exact (List.mem_cons.1 hm).resolve_left hk

/-- **C34**, partial: an extreme value that is stored for a constraint, and right, is still right after a
bound was derived for the one variable of a constraint that had none in a direction.

Missing: it is not true for the substitution of a fixed variable, see `C34_not_outdated`. -/
theorem C34_stored_derived_partial (hG : G.Fresh) (hs : s.Fit G) {i : ℕ}
    (hi : i < G.constraintTypes.length) {d : BoundDirection} (h1 : s.counters.activity i d = 1) {t : Index}
    {c : Change} (ht : presolveDomainPropagation G s i d = .ok (t, c))
    {k : ℕ} (hk : k < G.constraintTypes.length) (hk0 : s.counters.constraint k ≠ 0)
    {e : BoundDirection} (ha : AccurateAt G s k e) : AccurateAt G t k e := by
  unfold presolveDomainPropagation at ht
  rw [h1] at ht
  exact createVariableBound_accurate hG.toConsistent hs.toCounts hi ht hk hk0 ha

end

namespace Example

/-- Constraints `2 x0 + x2 ≤ 25`, `x0 + x1 ≤ 9` and `x1 + x3 ≥ 9`; the last one forces `x1 = 6`. -/
def shifted : GeneralForm :=
  problem [[(0, 2), (1, 1)], [(1, 1), (2, 1)], [(0, 1)], [(2, 1)]] [.less, .less, .greater] [25, 9, 9]
    [vari 1 (some 0) (some 10), vari 1 (some 1) (some 6), vari 1 (some 0) (some 10),
      vari 1 (some 0) (some 3)] ["x0", "x1", "x2", "x3"]

theorem shifted_fresh : shifted.Fresh ∧ shifted.Proper :=
  ⟨problem_fresh _ _ _ _ _ rfl rfl (by decide +kernel) (by decide +kernel) rfl (by decide +kernel),
    by decide +kernel, by intro r hr; simp [shifted, problem, GeneralForm.new] at hr⟩

/-- Constraints `2 x0 + x1 ≤ 25` and `x0 + x1 ≤ 4`, and `x0` has no lower bound. -/
def shifting : GeneralForm :=
  problem [[(0, 2), (1, 1)], [(0, 1), (1, 1)]] [.less, .less] [25, 4]
    [vari 1 none (some 10), vari (-1) (some 0) (some 10)] ["x0", "x1"]

theorem shifting_fresh : shifting.Fresh ∧ shifting.Proper :=
  ⟨problem_fresh _ _ _ _ _ rfl rfl (by decide +kernel) (by decide +kernel) rfl (by decide +kernel),
    by decide +kernel, by intro r hr; simp [shifting, problem, GeneralForm.new] at hr⟩

end Example

/-- The bound of `x0` decreases from `8` to `3`, and the stored extreme value from `26` to `16`. -/
example : ∃ s, reached Example.shifted 8 = some s ∧ s.Fit Example.shifted ∧
    s.counters.constraint 1 = 1 ∧ s.queues.bound = [1] ∧ s.activityBounds 0 .upper = some 26 ∧
    AccurateAt Example.shifted s 0 .upper ∧
    (presolveBoundConstraint Example.shifted { s with queues := { s.queues with bound := [] } } 1).map
      (fun t => (t.counters.constraint 0, t.activityBounds 0 .upper)) = .ok (2, some 16) :=
  reached_exists Example.shifted_fresh.1 Example.shifted_fresh.2 _ (by decide +kernel)

/-- The bound of `x0` decreases from `10` to `4`, and the stored extreme value from `30` to `18`. -/
example : ∃ s, reached Example.shifting 2 = some s ∧ s.Fit Example.shifting ∧
    s.counters.activity 1 .lower = 1 ∧ s.counters.constraint 0 ≠ 0 ∧
    s.activityBounds 0 .upper = some 30 ∧ AccurateAt Example.shifting s 0 .upper ∧
    (presolveDomainPropagation Example.shifting s 1 .lower).map
      (fun t => t.1.activityBounds 0 .upper) = .ok (some 18) :=
  reached_exists Example.shifting_fresh.1 Example.shifting_fresh.2 _ (by decide +kernel)

/-! ### C35: `unreachable!` -/

section

variable {G : GeneralForm} {s : Index}

/-- **C35**, partial: with an extreme value that is right, propagation aborts exactly if the constraint is
two-sided and the smallest value of its left-hand side is the right-hand side.

Missing: in that case it does abort, see `C35_not_unreachable`. -/
theorem C35_unreachable_partial (hG : G.Fresh) (hs : s.Fit G) {i : ℕ}
    (hi : i < G.constraintTypes.length) (hi0 : s.counters.constraint i ≠ 0) {d : BoundDirection}
    (h1 : s.counters.activity i d ≤ 1) (ha : s.counters.activity i d = 0 → AccurateAt G s i d)
    (a : Abort) :
    presolveDomainPropagation G s i d = .error (.abort a) ↔
      a = .unreachable ∧ d = .lower ∧ s.counters.activity i d = 0 ∧
        (∃ r, s.updates.constraintType G i = .range r) ∧ s.updates.rhs G i = activityAt G s i d := by
  constructor
  · intro h
    have := presolveDomainPropagation_correct hG.toConsistent hs hi hi0 h1 ha
    rw [h] at this
    exact this
  · rintro ⟨rfl, rfl, h0, ⟨r, hr⟩, he⟩
    unfold presolveDomainPropagation
    rw [h0]
    simp only []
    unfold forEntireConstraint
    rw [activityBoundIfNeeded_eq hG.toConsistent hs.toCounts hi hi0 h0 (ha h0)]
    simp only [bind, Except.bind]
    unfold constraintPart
    simp only [hr, he, constraintUpdate, lt_irrefl, if_false, if_true, bind, Except.bind]

end

namespace Example

/-- Minimise `x0 - x1` with `-1 ≤ x0 + x1 ≤ 0` and `x0 + 2 x1 ≤ 20`, and all variables at least zero. -/
def zero : GeneralForm :=
  problem [[(0, 1), (1, 1)], [(0, 1), (1, 2)]] [.range 1, .less] [0, 20]
    [vari 1 (some 0) none, vari (-1) (some 0) none] ["x0", "x1"]

theorem zero_fresh : zero.Fresh ∧ zero.Proper :=
  ⟨problem_fresh _ _ _ _ _ rfl rfl (by decide +kernel) (by decide +kernel) rfl (by decide +kernel),
    by decide +kernel, by
      intro r hr
      simp [zero, problem, GeneralForm.new] at hr
      rw [hr]
      norm_num⟩

end Example

/-- At the start, propagation of the first constraint of this problem aborts. -/
example : ∃ s, reached Example.zero 0 = some s ∧ s.Fit Example.zero ∧
    s.counters.constraint 0 ≠ 0 ∧ s.counters.activity 0 .lower ≤ 1 ∧
    (s.counters.activity 0 .lower = 0 → AccurateAt Example.zero s 0 .lower) ∧
    s.updates.rhs Example.zero 0 = activityAt Example.zero s 0 .lower :=
  reached_exists Example.zero_fresh.1 Example.zero_fresh.2 _ (by decide +kernel)

/-- **C35 is false**: presolving aborts at `unreachable!` for this problem, which has a feasible point. -/
theorem C35_not_unreachable : Example.zero.Fresh ∧ Example.zero.Proper ∧
    Example.zero.toProgram.Feasible ![0, 0] ∧
    presolve 100 Example.zero = .error (.abort .unreachable) :=
  ⟨Example.zero_fresh.1, Example.zero_fresh.2, ⟨by decide +kernel, by decide +kernel⟩,
    by decide +kernel⟩

/-! ### C44: presolving and solving -/

section

variable {G : GeneralForm} (hG : G.Fresh) (hp : G.Proper) (presolveFuel : ℕ)

include hG hp

/-- **C44**, partial, presolving by itself: if all steps are safe and the derived bounds that are discarded
follow from the rest, the result of presolving is right: see `ResultCorrect`.

Missing: runs with steps that are not safe (see C33, C34); and an abort at `unreachable!` (see C35). -/
theorem C44_presolve_partial (hsafe : ∀ s, Index.new G = .ok s → SafeRun G presolveFuel s 0)
    (hd : ∀ s t, Index.new G = .ok s → presolveLoop G presolveFuel s 0 = .ok t →
      DiscardedFollow G t.updates) :
    ResultCorrect G (fun a => a = .unreachable) (presolve presolveFuel G) :=
  presolve_correct hG hp presolveFuel hsafe fun s t h1 h2 _ => hd s t h1 h2

/-- **C44**, partial, presolving by itself, by conditions on the single steps: all steps are safe; and if a
constraint, or one of its sides, is given up because it holds within the bounds of its variables, these
bounds are certain, or derived bounds of variables (given by `F`) that were free and for which only derived
bounds are found, which are kept. Then the result of presolving is right. Any other derived bounds may be
found and discarded.

Missing: as above, and runs in which a constraint is given up because of bounds that are discarded, see
`C34_not_discarded`. -/
theorem C44_presolve_steps_partial (F : ℕ → Bool)
    (hsafe : ∀ s, Index.new G = .ok s → SafeRun G presolveFuel s 0 ∧ KeptRun G F presolveFuel s 0)
    (hF : ∀ s t, Index.new G = .ok s → presolveLoop G presolveFuel s 0 = .ok t →
      ∀ j, F j = true → OnlyDerived G t.updates j) :
    ResultCorrect G (fun a => a = .unreachable) (presolve presolveFuel G) :=
  presolve_correct hG hp presolveFuel (fun s h => (hsafe s h).1) fun s t h1 h2 _ =>
    discardedFollow_of_kept' hG hp presolveFuel h1 (hsafe s h1).1 (hsafe s h1).2 h2 (hF s t h1 h2)

variable (inv : InverseName) (rule : RuleName) (fuel : ℕ)

omit hG hp in
/-- **C44**, partial: if presolving is right, an optimum that is found by presolving and solving is one of
the problem. -/
theorem C44_optimum_partial (hc : ResultCorrect G (fun a => a = .unreachable) (presolve presolveFuel G))
    {solution : Solution}
    (hz : G.presolveAndSolve inv rule presolveFuel fuel = some (.finiteOptimum solution)) :
    ∃ x, G.Best x ∧ G.Extends x solution.values ∧
      (G.objective = .minimize → solution.objectiveValue = G.toProgram.objective x) := by
  unfold presolveAndSolve at hz
  cases h : presolve presolveFuel G with
  | error e =>
    rw [h] at hz hc
    match e, hz, hc with
    | .verdict r, hz, hc =>
      cases hz
      obtain ⟨x, h1, h2, h3⟩ := hc
      exact ⟨x, h1, h2, fun _ => h3.symm⟩
  | ok H =>
    rw [h] at hz hc
    obtain ⟨⟨hH, hHp, hHa, ho⟩, hex, hsound, hcomplete⟩ := hc
    have hz' : H.solve inv rule fuel = .ok (.finiteOptimum solution) := by
      simp only [] at hz
      cases hs : H.solve inv rule fuel with
      | error e => rw [hs] at hz; cases hz
      | ok r => rw [hs] at hz; cases hz; rfl
    obtain ⟨y, ⟨hy, hbest⟩, hext, hval⟩ := C43_optimum H hH hHp inv rule fuel solution hz' hHa
    obtain ⟨x, hx, hxe, hxo⟩ := hsound y _ hy hext
    refine ⟨x, ⟨hx, fun x' hx' => ?_⟩, hxe, fun hm => by rw [hval (ho.trans hm), hxo]⟩
    obtain ⟨y', hy', hgood, -⟩ := hcomplete x' hx'
    have := hbest y' hy'
    rw [ho] at this
    rw [hxo]
    cases hob : G.objective with
    | minimize => rw [hob] at this hgood; exact le_trans (α := ℚ) this hgood
    | maximize => rw [hob] at this hgood; exact le_trans (α := ℚ) hgood this

omit hG hp in
/-- **C44**, partial: if presolving is right, a problem that is reported as infeasible is infeasible. -/
theorem C44_infeasible_partial
    (hc : ResultCorrect G (fun a => a = .unreachable) (presolve presolveFuel G))
    (hz : G.presolveAndSolve inv rule presolveFuel fuel = some .infeasible) :
    G.toProgram.Infeasible := by
  unfold presolveAndSolve at hz
  cases h : presolve presolveFuel G with
  | error e =>
    rw [h] at hz hc
    match e, hz, hc with
    | .verdict r, hz, hc =>
      cases hz
      exact hc
  | ok H =>
    rw [h] at hz hc
    obtain ⟨⟨hH, hHp, hHa, ho⟩, hex, hsound, hcomplete⟩ := hc
    have hz' : H.solve inv rule fuel = .ok .infeasible := by
      simp only [] at hz
      cases hs : H.solve inv rule fuel with
      | error e => rw [hs] at hz; cases hz
      | ok r => rw [hs] at hz; cases hz; rfl
    intro x hx
    obtain ⟨y, hy, -⟩ := hcomplete x hx
    exact C43_infeasible H hH hHp inv rule fuel hz' y hy

omit hG hp in
/-- **C44**, partial: if presolving is right, a problem that is reported as unbounded is unbounded or
infeasible. -/
theorem C44_unbounded_partial
    (hc : ResultCorrect G (fun a => a = .unreachable) (presolve presolveFuel G))
    (hz : G.presolveAndSolve inv rule presolveFuel fuel = some .unbounded) :
    G.Unbounded ∨ G.toProgram.Infeasible := by
  unfold presolveAndSolve at hz
  cases h : presolve presolveFuel G with
  | error e =>
    rw [h] at hz hc
    match e, hz, hc with
    | .verdict r, hz, hc =>
      cases hz
      by_cases hx : ∃ x, G.toProgram.Feasible x
      · exact Or.inl (hc hx)
      · exact Or.inr fun x hf => hx ⟨x, hf⟩
  | ok H =>
    rw [h] at hz hc
    obtain ⟨⟨hH, hHp, hHa, ho⟩, hex, hsound, hcomplete⟩ := hc
    have hz' : H.solve inv rule fuel = .ok .unbounded := by
      simp only [] at hz
      cases hs : H.solve inv rule fuel with
      | error e => rw [hs] at hz; cases hz
      | ok r => rw [hs] at hz; cases hz; rfl
    refine Or.inl fun M => ?_
    obtain ⟨y, hy, hM⟩ := C43_unbounded H hH hHp inv rule fuel hz' M
    obtain ⟨values, hv⟩ := hex y
    obtain ⟨x, hx, -, hxo⟩ := hsound y values hy hv
    refine ⟨x, hx, ?_⟩
    rw [ho] at hM
    rw [hxo]
    exact hM

end

/-- The hypotheses of `C44_presolve_partial` hold for both examples, with all rules used in them. -/
example : (∀ s, Index.new Example.reducible = .ok s → SafeRun Example.reducible 100 s 0) ∧
    (∀ s t, Index.new Example.reducible = .ok s → presolveLoop Example.reducible 100 s 0 = .ok t →
      DiscardedFollow Example.reducible t.updates) :=
  safe_spec (by decide +kernel)

example : (∀ s, Index.new Example.application = .ok s → SafeRun Example.application 100 s 0) ∧
    (∀ s t, Index.new Example.application = .ok s → presolveLoop Example.application 100 s 0 = .ok t →
      DiscardedFollow Example.application t.updates) :=
  safe_spec (by decide +kernel)

/-- The result is the one that the test in presolve/test/with_application.rs expects (without the constant
`1`). -/
example : presolve 100 Example.application = .error (.verdict (.finiteOptimum
    ⟨211 * 101 / 2 + 223 * -97 / 10 + 227 * -699 / 65 + -229 * 131 + 233 * -30736 / 1885,
      [("XONE", 101 / 2), ("XTWO", (103 - 101 / 2 * 3) / 5),
        ("XTHREE", (-3601 / 5 + 29 * 30736 / 1885) / 23), ("XFOUR", 131), ("XFIVE", -30736 / 1885),
        ("XSIX", 5)]⟩)) := by decide +kernel

theorem Example.reducible_solved :
    Example.reducible.presolveAndSolve .lu .steepestDescentAlongObjective 100 30 =
      some (.finiteOptimum ⟨15, [("x0", 4), ("x1", 5), ("x2", 0), ("x3", 5), ("x4", 1)]⟩) := by
  decide +kernel

attribute [local irreducible] presolve in
theorem Example.reducible_correct :
    ResultCorrect Example.reducible (fun a => a = .unreachable) (presolve 100 Example.reducible) :=
  have h := safe_spec (G := Example.reducible) (fuel := 100) (by decide +kernel)
  C44_presolve_partial Example.reducible_fresh Example.reducible_proper 100 h.1 h.2

attribute [local irreducible] presolve in
/-- The optimum found for `reducible` by presolving and solving is one. -/
example : ∃ x, Example.reducible.Best x ∧
    Example.reducible.Extends x [("x0", 4), ("x1", 5), ("x2", 0), ("x3", 5), ("x4", 1)] :=
  have h := C44_optimum_partial 100 .lu
    .steepestDescentAlongObjective 30 Example.reducible_correct Example.reducible_solved
  h.imp fun _ h => ⟨h.1, h.2.1⟩

namespace Example

/-- Minimise `-3 x0 - 2 x1 - x2` with `x0 + x1 ≤ 4`, `x0 + 3 x1 ≤ 6`, `x0 - x1 ≤ 10`, `x2 - x0 ≤ 0`,
`x0 + x2 ≤ 20`, `0 ≤ x0 ≤ 3` and `0 ≤ x1`. -/
def textbook : GeneralForm :=
  problem [[(0, 1), (1, 1), (2, 1), (3, -1), (4, 1)], [(0, 1), (1, 3), (2, -1)], [(3, 1), (4, 1)]]
    [.less, .less, .less, .less, .less] [4, 6, 10, 0, 20]
    [vari (-3) (some 0) (some 3), vari (-2) (some 0) none, vari (-1) none none] ["x0", "x1", "x2"]

/-- What is left of `textbook`. The third constraint is dropped because of the bounds of the problem, the
last one because of the derived bound `x2 ≤ 3`, which is kept. The derived bound `x1 ≤ 2` is discarded. -/
def textbookLeft : GeneralForm :=
  { textbook with
    constraints := ⟨[[(0, 1), (1, 1), (2, -1)], [(0, 1), (1, 3)], [(2, 1)]], 3, 3⟩
    constraintTypes := [.less, .less, .less]
    b := [4, 6, 0]
    vars := [vari (-3) (some 0) (some 3), vari (-2) (some 0) none, vari (-1) none (some 3)] }

theorem textbook_fresh : textbook.Fresh ∧ textbook.Proper :=
  ⟨problem_fresh _ _ _ _ _ rfl rfl (by decide +kernel) (by decide +kernel) rfl (by decide +kernel),
    by decide +kernel, by intro r hr; simp [textbook, problem, GeneralForm.new] at hr⟩

theorem textbook_presolved : presolve 100 textbook = .ok textbookLeft := by decide +kernel

/-- Not all derived bounds are kept. -/
theorem textbook_discards : safe textbook 100 = false := by decide +kernel

attribute [local irreducible] presolve in
/-- The hypotheses of `C44_presolve_steps_partial` hold for `textbook`. -/
theorem textbook_correct :
    ResultCorrect textbook (fun a => a = .unreachable) (presolve 100 textbook) :=
  have h := careful_spec (G := textbook) (L := [2]) (fuel := 100) (by decide +kernel)
  C44_presolve_steps_partial textbook_fresh.1 textbook_fresh.2 100 _ h.1 h.2

/-- They do not hold for the problem of `C34_not_discarded`, although all steps are safe. -/
example : (match Index.new discarded with
    | .ok s => decide (SafeRun discarded 100 s 0) && !decide (KeptRun discarded (fun _ => false) 100 s 0)
    | .error _ => false) = true := by decide +kernel

end Example

attribute [local irreducible] presolve in
/-- The optimum found for `textbook` by presolving and solving is one. -/
example : ∃ x, Example.textbook.Best x ∧
    Example.textbook.Extends x [("x0", 3), ("x1", 1), ("x2", 3)] :=
  have h := C44_optimum_partial 100 .lu
    .steepestDescentAlongObjective 30 Example.textbook_correct
    (solution := ⟨-14, [("x0", 3), ("x1", 1), ("x2", 3)]⟩) (by decide +kernel)
  h.imp fun _ h => ⟨h.1, h.2.1⟩

/-! ### C45: unboundedness -/

namespace Example

/-- Minimise `x0 + x1` with `x0 ≤ -1` and `x0 ≥ 0`, `x1` free. -/
def hasty : GeneralForm :=
  problem [[(0, 1)], []] [.less] [-1] [vari 1 (some 0) none, vari 1 none none] ["x0", "x1"]

theorem hasty_fresh : hasty.Fresh ∧ hasty.Proper :=
  ⟨problem_fresh _ _ _ _ _ rfl rfl (by decide +kernel) (by decide +kernel) rfl (by decide +kernel),
    by decide +kernel, by intro r hr; simp [hasty, problem, GeneralForm.new] at hr⟩

end Example

/-- **C45 is false**: presolving reports that this problem is unbounded, although it is infeasible. -/
theorem C45_not_feasible : Example.hasty.Fresh ∧ Example.hasty.Proper ∧
    Example.hasty.toProgram.Infeasible ∧
    presolve 100 Example.hasty = .error (.verdict .unbounded) := by
  refine ⟨Example.hasty_fresh.1, Example.hasty_fresh.2, fun x hx => ?_, by decide +kernel⟩
  let z : Fin 2 → ℚ := x
  have e : (Example.hasty.toProgram.A.mulVec x) (0 : Fin 1) =
      SVec.val [(0, 1)] 0 * z 0 + SVec.val [] 0 * z 1 :=
    Fin.sum_univ_two (fun j : Fin 2 => Example.hasty.toProgram.A (0 : Fin 1) j * z j)
  have h0 : (Example.hasty.toProgram.A.mulVec x) (0 : Fin 1) ≤ -1 := hx.1 (0 : Fin 1)
  have h1 : 0 ≤ z 0 := (hx.2 (0 : Fin 2)).1 0 rfl
  rw [e] at h0
  simp [SVec.val] at h0
  linarith

/-- **C45**, partial: if all steps are safe, a problem that presolving reports to be unbounded and that has
a feasible point is unbounded.

Missing: it may be infeasible, see `C45_not_feasible`; and unsafe steps. -/
theorem C45_unbounded_partial {G : GeneralForm} (hG : G.Fresh) (hp : G.Proper) (fuel : ℕ)
    (hsafe : ∀ s, Index.new G = .ok s → SafeRun G fuel s 0)
    (hz : presolve fuel G = .error (.verdict .unbounded)) (hx : ∃ x, G.toProgram.Feasible x) :
    G.Unbounded := by
  have := presolve_correct hG hp fuel hsafe fun s t _ _ h => (by rw [hz] at h; obtain ⟨H, h⟩ := h; cases h)
  rw [hz] at this
  exact this hx

namespace Example

/-- Minimise `x0 + x1` with `x0 ≤ 1` and `x0 ≥ 0`, `x1` free. -/
def drifting : GeneralForm :=
  problem [[(0, 1)], []] [.less] [1] [vari 1 (some 0) none, vari 1 none none] ["x0", "x1"]

theorem drifting_fresh : drifting.Fresh ∧ drifting.Proper :=
  ⟨problem_fresh _ _ _ _ _ rfl rfl (by decide +kernel) (by decide +kernel) rfl (by decide +kernel),
    by decide +kernel, by intro r hr; simp [drifting, problem, GeneralForm.new] at hr⟩

end Example

/-- The hypotheses are met. -/
example : Example.drifting.Unbounded :=
  C45_unbounded_partial Example.drifting_fresh.1 Example.drifting_fresh.2 100 (safe_spec (by decide +kernel)).1
    (by decide +kernel) ⟨![0, 0], by decide +kernel, by decide +kernel⟩

/-! ### C46: contradictory bounds -/

namespace Example

/-- A problem with a variable `x1`, that is in no constraint, with bounds `2 ≤ x1 ≤ 1`. -/
def crossingEmpty : GeneralForm :=
  problem [[(0, 1)], []] [.less] [1] [vari 1 (some 0) none, vari 0 (some 2) (some 1)] ["x0", "x1"]

theorem crossingEmpty_fresh : crossingEmpty.Fresh :=
  problem_fresh _ _ _ _ _ rfl rfl (by decide +kernel) (by decide +kernel) rfl (by decide +kernel)

end Example

/-- **C46 is false**: presolving aborts for this problem with contradictory bounds. -/
theorem C46_not_reported : Example.crossingEmpty.Fresh ∧ Example.crossingEmpty.toProgram.Infeasible ∧
    presolve 100 Example.crossingEmpty = .error (.abort .unwrapNone) := by
  refine ⟨Example.crossingEmpty_fresh, fun x hx => ?_, by decide +kernel⟩
  have h0 : 2 ≤ x (1 : Fin 2) := (hx.2 (1 : Fin 2)).1 2 rfl
  have h1 : x (1 : Fin 2) ≤ 1 := (hx.2 (1 : Fin 2)).2 1 rfl
  linarith

/-- **C46**, partial: without contradictory bounds, and if all steps are safe, the only abort is at
`unreachable!`.

Missing: contradictory bounds, see `C46_not_reported`. -/
theorem C46_abort_partial {G : GeneralForm} (hG : G.Fresh) (hp : G.Proper) (fuel : ℕ)
    (hsafe : ∀ s, Index.new G = .ok s → SafeRun G fuel s 0) {a : Abort}
    (hz : presolve fuel G = .error (.abort a)) : a = .unreachable := by
  have := presolve_correct hG hp fuel hsafe fun s t _ _ h => (by rw [hz] at h; obtain ⟨H, h⟩ := h; cases h)
  rw [hz] at this
  exact this

/-- The hypotheses are met. -/
example {a : Abort} (h : presolve 100 Example.zero = .error (.abort a)) : a = .unreachable :=
  C46_abort_partial Example.zero_fresh.1 Example.zero_fresh.2 100 (safe_spec (by decide +kernel)).1 h

/-! ### C47: presolving again -/

namespace Example

/-- A problem that still has variables after presolving. -/
def again : GeneralForm :=
  problem [[(0, 1), (1, 1)], [(1, 1)], [(0, 1)], [(0, 1)]] [.less, .equal] [10, 4]
    [vari 1 (some 4) (some 100), vari (-1) (some 0) none, vari (-1) (some 0) (some 3),
      vari (-1) (some 0) (some 3)]
    ["x0", "x1", "x2", "x3"]

/-- What is left of `again`. -/
def once : GeneralForm where
  objective := .minimize
  fixedCost := 4
  constraints := ⟨[[(0, 1)], [(0, 1)]], 2, 1⟩
  constraintTypes := [.less]
  b := [6]
  vars := [vari (-1) (some 0) (some 3), vari (-1) (some 0) (some 3)]
  original := [("x0", .removed (.solved 4)), ("x1", .removed (.solved 0)), ("x2", .active 0),
    ("x3", .active 1)]
  fromActive := [2, 3]

/-- What is left after presolving again. -/
def twice : GeneralForm where
  objective := .minimize
  fixedCost := -2
  constraints := ⟨[], 0, 0⟩
  constraintTypes := []
  b := []
  vars := []
  original := [("x0", .removed (.solved 3)), ("x1", .removed (.solved 3)), ("x2", .active 0),
    ("x3", .active 1)]
  fromActive := []

theorem again_fresh : again.Fresh :=
  problem_fresh _ _ _ _ _ rfl rfl (by decide +kernel) (by decide +kernel) rfl (by decide +kernel)

end Example

/-- **C47 is false**: presolving a problem that has been presolved overwrites the recorded values of other
variables, and leaves variables without a value. The first result is right, the second is not even
consistent. -/
theorem C47_not_again : Example.again.Fresh ∧ presolve 100 Example.again = .ok Example.once ∧
    Example.once.Consistent ∧ presolve 100 Example.once = .ok Example.twice ∧
    ¬Example.twice.Consistent := by
  refine ⟨Example.again_fresh, by decide +kernel, ?_, by decide +kernel, fun h => ?_⟩
  · have hr : ResultCorrect Example.again (fun a => a = .unreachable) (presolve 100 Example.again) := by
      obtain ⟨h1, h2⟩ := safe_spec (G := Example.again) (fuel := 100) (by decide +kernel)
      exact C44_presolve_partial Example.again_fresh ⟨by decide +kernel, by
        intro r hr; simp [Example.again, Example.problem, GeneralForm.new] at hr⟩ 100 h1 h2
    rw [show presolve 100 Example.again = .ok Example.once by decide +kernel] at hr
    exact hr.1.1
  · have := (h.active 2 0).2 ⟨"x2", rfl⟩
    cases this

/-! ### C48: presolving ends -/

/-- **C48.** Presolving ends, whether its steps are safe or not: there is one result that it has with
any large enough amount of fuel, and that result does not come from a lack of fuel. -/
theorem C48_presolve_terminates (G : GeneralForm) (hG : G.Consistent) :
    ∃ bound, ∃ result : Run GeneralForm, result ≠ .error .outOfFuel ∧
      ∀ fuel, bound ≤ fuel → presolve fuel G = result :=
  ends_presolve hG

/-- `2 x₀ - x₁ ≤ 0`, `-x₀ + 2 x₁ ≤ 0` with both variables between zero and one: the upper bounds can be
halved in turn without end. -/
def Example.zeno : GeneralForm :=
  Example.problem [[(0, 2), (1, -1)], [(0, -1), (1, 2)]] [.less, .less] [0, 0]
    [Example.vari 1 (some 0) (some 1), Example.vari 1 (some 0) (some 1)] ["x0", "x1"]

theorem Example.zeno_fresh : Example.zeno.Fresh :=
  Example.problem_fresh _ _ _ _ _ (by decide +kernel) (by decide +kernel) (by decide +kernel)
    (by decide +kernel) (by decide +kernel) (by decide +kernel)

/-- The limit on the number of steps that only tighten bounds stops it after some of these. -/
example : (∃ bound, ∃ result : Run GeneralForm, result ≠ .error .outOfFuel ∧
      ∀ fuel, bound ≤ fuel → presolve fuel Example.zeno = result) ∧
    (presolve 20 Example.zeno).toOption.isSome ∧ presolve 3 Example.zeno = .error .outOfFuel :=
  ⟨C48_presolve_terminates _ Example.zeno_fresh.toConsistent, by decide +kernel, by decide +kernel⟩

end Relp
