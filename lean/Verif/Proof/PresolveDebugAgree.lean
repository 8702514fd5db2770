import Verif.Proof.PresolveDebug

/-!
# The checks of a debug build do not change what presolving does

Unless a check fails, a debug build does the same as a release build.
-/

namespace Relp

namespace Presolve

/-- The same result, or a failed check. -/
def Agree {α : Type} (d r : Run α) : Prop := d = r ∨ d = .error (.abort .debugAssertion)

namespace Agree

variable {α β : Type}

theorem refl (r : Run α) : Agree r r := .inl rfl

theorem bind {d r : Run α} {f g : α → Run β} (h : Agree d r) (h' : ∀ a, Agree (f a) (g a)) :
    Agree (d >>= f) (r >>= g) := by
  rcases h with rfl | rfl
  · cases d with
    | ok a => exact h' a
    | error e => exact .inl rfl
  · exact .inr rfl

/-- What is looked up in a debug build is the same. -/
theorem lookup {d : Run α} {a : α} {f : α → Run β} {r : Run β} (h : Agree d (.ok a)) (h' : Agree (f a) r) :
    Agree (d >>= f) r := by
  rcases h with rfl | rfl
  · exact h'
  · exact .inr rfl

theorem check {c : Bool} {f : Unit → Run β} {r : Run β} (h : Agree (f ()) r) :
    Agree (check c >>= f) r := by
  cases c with
  | true => exact h
  | false => exact .inr rfl

theorem checkPure {c : Bool} {a : α} : Agree (Presolve.check c >>= fun _ => (pure a : Run α)) (.ok a) :=
  check (refl _)

theorem foldlM {f g : β → α → Run β} (h : ∀ b a, Agree (f b a) (g b a)) (l : List α) (b : β) :
    Agree (l.foldlM f b) (l.foldlM g b) := by
  induction l generalizing b with
  | nil => exact refl _
  | cons a l ih =>
    rw [List.foldlM_cons, List.foldlM_cons]
    exact (h b a).bind fun b => ih b

theorem foldl {f : β → α → Run β} {g : β → α → β} (h : ∀ b a, Agree (f b a) (.ok (g b a))) (l : List α)
    (b : β) : Agree (l.foldlM f b) (.ok (l.foldl g b)) := by
  induction l generalizing b with
  | nil => exact refl _
  | cons a l ih =>
    rw [List.foldlM_cons, List.foldl_cons]
    exact (h b a).lookup (ih _)

theorem mapM {f g : α → Run β} (h : ∀ a, Agree (f a) (g a)) (l : List α) :
    Agree (l.mapM f) (l.mapM g) := by
  induction l with
  | nil => exact refl _
  | cons a l ih =>
    rw [List.mapM_cons, List.mapM_cons]
    exact (h a).bind fun b => ih.bind fun l => refl _

theorem map {f : α → Run β} {g : α → β} (h : ∀ a, Agree (f a) (.ok (g a))) (l : List α) :
    Agree (l.mapM f) (.ok (l.map g)) := by
  induction l with
  | nil => exact refl _
  | cons a l ih =>
    rw [List.mapM_cons]
    exact (h a).lookup (ih.lookup (refl _))

end Agree

variable {G : GeneralForm}

/-! ### Start -/

theorem newDebug_agree : Agree (Index.newDebug G) (Index.new G) := by
  unfold Index.newDebug Index.new Updates.newDebug Updates.new
  refine .bind (.bind (.foldlM (fun s j => ?_) _ _) fun _ => .refl _) fun _ => .refl _
  exact .check (.refl _)

/-! ### Access -/

theorem activeRow_agree (c : Counters) (i : ℕ) : Agree (activeRowDebug G c i) (.ok (activeRow G c i)) :=
  .checkPure

theorem rhs_agree (u : Updates) (i : ℕ) : Agree (u.rhsDebug G i) (.ok (u.rhs G i)) := .checkPure

theorem changeB_agree (u : Updates) (i : ℕ) (q : ℚ) : Agree (u.changeBDebug G i q) (.ok (u.changeB G i q)) :=
  .checkPure

theorem constraintType_agree (u : Updates) (i : ℕ) :
    Agree (u.constraintTypeDebug G i) (.ok (u.constraintType G i)) := .checkPure

theorem variableBound_agree (u : Updates) (j : ℕ) (d : BoundDirection) :
    Agree (u.variableBoundDebug G j d) (.ok (u.variableBound G j d)) := .check .checkPure

theorem isVariableFixed_agree (u : Updates) (j : ℕ) :
    Agree (u.isVariableFixedDebug G j) (.ok (u.isVariableFixed G j)) :=
  .check ((variableBound_agree u j _).lookup ((variableBound_agree u j _).lookup (.refl _)))

theorem variableFeasibleValue_agree (u : Updates) (j : ℕ) :
    Agree (u.variableFeasibleValueDebug G j)
      (.ok (feasibleValue (u.variableBound G j .lower) (u.variableBound G j .upper))) :=
  .check ((variableBound_agree u j _).lookup ((variableBound_agree u j _).lookup (.refl _)))

theorem updateBound_agree (u : Updates) (j : ℕ) (d : BoundDirection) (q : ℚ) :
    Agree (u.updateBoundDebug G j d q) (.ok (u.updateBound G j d q)) := .checkPure

theorem updateActivityVariableBound_agree (u : Updates) (j : ℕ) (d : BoundDirection) (q : ℚ) :
    Agree (u.updateActivityVariableBoundDebug G j d q) (.ok (u.updateActivityVariableBound G j d q)) :=
  .checkPure

/-! ### Shared steps -/

theorem removeConstraint_agree (s : Index) (i : ℕ) :
    Agree (removeConstraintDebug s i) (.ok (removeConstraint s i)) := .checkPure

theorem removeVariable_agree (s : Index) (j : ℕ) (v : RemovedVariable) :
    Agree (removeVariableDebug s j v) (.ok (removeVariable s j v)) := .checkPure

theorem queueVariableByCounter_agree (s : Index) (j : ℕ) :
    Agree (queueVariableByCounterDebug G s j) (queueVariableByCounter G s j) := by
  unfold queueVariableByCounterDebug queueVariableByCounter
  rcases s.counters.columns j with _ | _ | n
  · simp only
    refine (variableFeasibleValue_agree _ _).lookup (.check ?_)
    by_cases h : costOf G j = 0
    · rw [if_pos h, if_pos h]
      exact (Agree.refl _).bind fun v => removeVariable_agree _ _ _
    · rw [if_neg h, if_neg h]
      exact .check ((variableBound_agree _ _ _).lookup ((variableBound_agree _ _ _).lookup
        ((Agree.refl _).bind fun v => removeVariable_agree _ _ _)))
  · exact .refl _
  · exact .refl _

theorem queueConstraintByCounter_agree (s : Index) (i : ℕ) :
    Agree (queueConstraintByCounterDebug G s i) (queueConstraintByCounter G s i) := by
  unfold queueConstraintByCounterDebug queueConstraintByCounter
  rcases s.counters.constraint i with _ | _ | n
  · simp only
    refine (rhs_agree _ _).lookup ((constraintType_agree _ _).lookup ?_)
    by_cases h : isEmptyConstraintFeasible (s.updates.rhs G i) (s.updates.constraintType G i) = true
    · rw [if_pos h, if_pos h]
      exact removeConstraint_agree _ _
    · rw [if_neg h, if_neg h]
      exact .refl _
  · exact .refl _
  · exact .refl _

theorem removeConstraintValues_agree (s : Index) (i : ℕ) :
    Agree (removeConstraintValuesDebug G s i) (removeConstraintValues G s i) := by
  unfold removeConstraintValuesDebug removeConstraintValues
  refine (activeRow_agree _ _).lookup ?_
  have h := Agree.foldlM (f := fun (s : Index) j => do
      let s ← decrementConstraint s i
      let s ← decrementColumn s j
      queueVariableByCounterDebug G s j)
    (g := fun (s : Index) j => do
      let s ← decrementConstraint s i
      let s ← decrementColumn s j
      queueVariableByCounter G s j)
    (fun s j => (Agree.refl _).bind fun s => (Agree.refl _).bind fun s => queueVariableByCounter_agree s j)
    ((activeRow G s.counters i).map (·.1)) s
  have h2 := h.bind (f := fun t => do
      check (t.counters.constraint i = 0)
      pure t) (g := fun t => pure t) fun t => .checkPure
  rwa [bind_pure] at h2

theorem updateActivityBound_agree (d : BoundDirection) (q : ℚ) (s : Index) (p : ℕ × ℚ) :
    Agree (updateActivityBoundDebug d q s p) (.ok (updateActivityBound d q s p)) := by
  unfold updateActivityBoundDebug
  by_cases h : 0 < s.counters.constraint p.1 ∧ (s.activityBounds p.1 (d.times p.2)).isSome = true
  · simp only [if_pos h]
    exact .checkPure
  · simp only [if_neg h]
    exact .refl _

theorem updateActivityBounds_agree (s : Index) (j : ℕ) (d : BoundDirection) (q : ℚ) :
    Agree (updateActivityBoundsDebug G s j d q) (.ok (updateActivityBounds G s j d q)) :=
  .check (.foldl (updateActivityBound_agree d q) _ _)

theorem afterBoundChange_agree (s : Index) (j : ℕ) (d : BoundDirection) (change : BoundChange) :
    Agree (afterBoundChangeDebug G s j d change) (afterBoundChange G s j d change) := by
  have hq : Agree (do
      check (!s.updates.isRemoved j)
      check (match change with
        | .boundShift difference => tightens difference d
        | _ => true)
      let fixed ← s.updates.isVariableFixedDebug G j
      if fixed.isSome ∧ 0 < s.counters.columns j then
        pure { s with queues := { s.queues with substitution := j :: s.queues.substitution } }
      else pure s : Run Index)
      (.ok (if (s.updates.isVariableFixed G j).isSome ∧ 0 < s.counters.columns j then
        { s with queues := { s.queues with substitution := j :: s.queues.substitution } }
      else s)) := by
    refine .check (.check ((isVariableFixed_agree _ _).lookup ?_))
    by_cases h : (s.updates.isVariableFixed G j).isSome = true ∧ 0 < s.counters.columns j
    · rw [if_pos h, if_pos h]
      exact .refl _
    · rw [if_neg h, if_neg h]
      exact .refl _
  unfold afterBoundChangeDebug afterBoundChange
  cases change with
  | none => exact .refl _
  | newBound => exact hq.lookup (.refl _)
  | boundShift q => exact hq.lookup (updateActivityBounds_agree _ _ _ _)

/-! ### Rules -/

theorem presolveFixedVariable_agree (s : Index) (j : ℕ) :
    Agree (presolveFixedVariableDebug G s j) (presolveFixedVariable G s j) := by
  unfold presolveFixedVariableDebug presolveFixedVariable
  refine .check ((isVariableFixed_agree _ _).lookup (.check ((Agree.refl _).bind fun value => ?_)))
  refine (Agree.foldl (g := fun u p => u.changeB G p.1 (-p.2 * value))
    (fun u p => changeB_agree _ _ _) _ _).lookup ?_
  exact (Agree.foldlM (fun s i => (Agree.refl _).bind fun s => (Agree.refl _).bind fun s =>
    queueConstraintByCounter_agree s i) _ _).bind fun s => removeVariable_agree _ _ _

theorem presolveBoundConstraint_agree (s : Index) (i : ℕ) :
    Agree (presolveBoundConstraintDebug G s i) (presolveBoundConstraint G s i) := by
  unfold presolveBoundConstraintDebug presolveBoundConstraint
  refine .check ((activeRow_agree _ _).lookup (.check ((Agree.refl _).bind fun p => ?_)))
  obtain ⟨j, c⟩ := p
  refine .check ((rhs_agree _ _).lookup ((constraintType_agree _ _).lookup ?_))
  refine (Agree.refl _).bind fun s => (Agree.refl _).bind fun s => (removeConstraint_agree _ _).lookup ?_
  refine (Agree.foldlM (fun s p => (updateBound_agree _ _ _ _).lookup (afterBoundChange_agree _ _ _ _))
    _ _).bind fun s => (variableFeasibleValue_agree _ _).lookup ?_
  cases feasibleValue (s.updates.variableBound G j .lower) (s.updates.variableBound G j .upper) with
  | none => exact .refl _
  | some _ => exact queueVariableByCounter_agree _ _

theorem removedVariableSolution_agree (s : Index) (i j : ℕ) (c : ℚ) :
    Agree (removedVariableSolutionDebug G s i j c) (.ok (removedVariableSolution G s i j c)) :=
  (rhs_agree _ _).lookup ((activeRow_agree _ _).lookup (.refl _))

theorem slackColumn_agree (s : Index) (i j : ℕ) (c : ℚ) (removed : RemovedVariable)
    (newType : ConstraintType) (bound : ℚ) :
    Agree (do
      let s' ← decrementColumn s j
      let s' ← removeVariableDebug s' j removed
      let s' ← activityQueueIfNeeded s' i .lower
        (if 0 < c then (s.updates.variableBound G j .lower).isNone
          else (s.updates.variableBound G j .upper).isNone)
      let s' ← activityQueueIfNeeded s' i .upper
        (if 0 < c then (s.updates.variableBound G j .upper).isNone
          else (s.updates.variableBound G j .lower).isNone)
      let s' ← decrementConstraint s' i
      let s' ← queueConstraintByCounterDebug G s' i
      let u ← s'.updates.changeBDebug G i (-c * bound)
      pure { s' with updates := { u with constraints := insertAt u.constraints i (some newType) } } :
      Run Index)
    (do
      let s' ← decrementColumn s j
      let s' := removeVariable s' j removed
      let s' ← activityQueueIfNeeded s' i .lower
        (s'.updates.variableBound G j (BoundDirection.lower.times c)).isNone
      let s' ← activityQueueIfNeeded s' i .upper
        (s'.updates.variableBound G j (BoundDirection.upper.times c)).isNone
      let s' ← decrementConstraint s' i
      let s' ← queueConstraintByCounter G s' i
      let u := s'.updates.changeB G i (-c * bound)
      pure { s' with updates := { u with constraints := insertAt u.constraints i (some newType) } } :
      Run Index) := by
  have eL : (if 0 < c then (s.updates.variableBound G j .lower).isNone
      else (s.updates.variableBound G j .upper).isNone) =
      (s.updates.variableBound G j (BoundDirection.lower.times c)).isNone := by
    unfold BoundDirection.times
    split <;> rfl
  have eU : (if 0 < c then (s.updates.variableBound G j .upper).isNone
      else (s.updates.variableBound G j .lower).isNone) =
      (s.updates.variableBound G j (BoundDirection.upper.times c)).isNone := by
    unfold BoundDirection.times
    split <;> rfl
  rw [eL, eU]
  cases hd : decrementColumn s j with
  | error e => exact .refl _
  | ok s1 =>
    have e1 := decrementColumn_ok hd
    subst e1
    rw [ok_bind, ok_bind]
    refine (removeVariable_agree _ _ _).lookup ?_
    change Agree _ (activityQueueIfNeeded (removeVariable _ j removed) i .lower
      (s.updates.variableBound G j (BoundDirection.lower.times c)).isNone >>= _)
    cases ha : activityQueueIfNeeded (removeVariable { s with counters := { s.counters with
        columns := insertAt s.counters.columns j (s.counters.columns j - 1) } } j removed) i .lower
        (s.updates.variableBound G j (BoundDirection.lower.times c)).isNone with
    | error e => exact .refl _
    | ok s2 =>
      obtain ⟨u2, -⟩ := activityQueueIfNeeded_ok ha
      rw [ok_bind, ok_bind]
      have hb2 : s2.updates.variableBound G j (BoundDirection.upper.times c) =
          s.updates.variableBound G j (BoundDirection.upper.times c) := by
        rw [u2]; rfl
      rw [hb2]
      exact (Agree.refl _).bind fun s => (Agree.refl _).bind fun s =>
        (queueConstraintByCounter_agree s i).bind fun s => (changeB_agree _ _ _).lookup (.refl _)

theorem presolveSlack_agree (s : Index) (j : ℕ) :
    Agree (presolveSlackDebug G s j) (presolveSlack G s j) := by
  unfold presolveSlackDebug presolveSlack
  refine .check (.check (.check ((isVariableFixed_agree _ _).lookup (.check
    ((Agree.refl _).bind fun p => ?_)))))
  obtain ⟨i, c⟩ := p
  refine (constraintType_agree _ _).lookup ((variableBound_agree _ _ _).lookup
    ((variableBound_agree _ _ _).lookup ?_))
  simp only
  cases slackCase (s.updates.constraintType G i) (s.updates.variableBound G j .lower)
      (s.updates.variableBound G j .upper) c with
  | none =>
    simp only
    refine (removedVariableSolution_agree _ _ _ _).lookup ((activeRow_agree _ _).lookup ?_)
    refine (Agree.foldlM (fun s k => (Agree.refl _).bind fun s => (Agree.refl _).bind fun s => ?_)
      _ _).bind fun s => (removeVariable_agree _ _ _).lookup (removeConstraint_agree _ _)
    by_cases h : k ≠ j
    · rw [if_pos h, if_pos h]
      exact queueVariableByCounter_agree _ _
    · rw [if_neg h, if_neg h]
      exact .refl _
  | some q =>
    obtain ⟨newType, bound⟩ := q
    simp only
    cases hT : s.updates.constraintType G i with
    | equal =>
      exact (removedVariableSolution_agree _ _ _ _).lookup (slackColumn_agree s i j c _ newType bound)
    | range r =>
      exact (removedVariableSolution_agree _ _ _ _).lookup (slackColumn_agree s i j c _ newType bound)
    | less => exact slackColumn_agree s i j c _ newType bound
    | greater => exact slackColumn_agree s i j c _ newType bound

theorem activityBoundIfNeeded_agree (s : Index) (i : ℕ) (d : BoundDirection) :
    Agree (activityBoundIfNeededDebug G s i d) (activityBoundIfNeeded G s i d) := by
  unfold activityBoundIfNeededDebug activityBoundIfNeeded
  refine .check ?_
  cases s.activityBounds i d with
  | some b => exact .refl _
  | none =>
    refine Agree.bind ?_ fun b => .refl _
    refine (activeRow_agree _ _).lookup (Agree.bind (.mapM (fun p => ?_) _) fun l => .refl _)
    exact (variableBound_agree _ _ _).lookup (.refl _)

theorem setVariableToBound_agree (d : BoundDirection) (s : Index × List (ℕ × BoundDirection)) (p : ℕ × ℚ) :
    Agree (setVariableToBoundDebug G d s p) (setVariableToBound G d s p) := by
  unfold setVariableToBoundDebug setVariableToBound
  refine (variableBound_agree _ _ _).lookup ((Agree.refl _).bind fun b => ?_)
  exact (updateBound_agree _ _ _ _).lookup ((isVariableFixed_agree _ _).lookup (.check (.refl _)))

theorem constraintPart_agree (s : Index) (i : ℕ) (b : ℚ) (d : BoundDirection) :
    Agree (constraintPartDebug G s i b d) (constraintPart G s i b d) := by
  unfold constraintPartDebug constraintPart
  refine (rhs_agree _ _).lookup ((constraintType_agree _ _).lookup ((Agree.refl _).bind fun w => ?_))
  cases w with
  | none => exact .refl _
  | some w =>
    cases w with
    | remove => exact .refl _
    | replace T shift => exact (changeB_agree _ _ _).lookup (.refl _)
    | setVariablesToBound =>
      exact (activeRow_agree _ _).lookup ((Agree.foldlM (setVariableToBound_agree d) _ _).bind fun r =>
        .refl _)

theorem variableRuleRhs_agree (s : Index) (i : ℕ) (d : BoundDirection) :
    Agree (variableRuleRhsDebug G s i d) (.ok (variableRuleRhs G s i d)) :=
  (rhs_agree _ _).lookup ((constraintType_agree _ _).lookup (.refl _))

theorem variableStep_agree (rhs b : ℚ) (d : BoundDirection) (s : Index × Change) (p : ℕ × ℚ) :
    Agree (variableStepDebug G rhs b d s p) (variableStep G rhs b d s p) := by
  unfold variableStepDebug variableStep
  refine (variableBound_agree _ _ _).lookup ((Agree.refl _).bind fun value => ?_)
  exact (updateActivityVariableBound_agree _ _ _ _).lookup ((afterBoundChange_agree _ _ _ _).bind fun t =>
    .refl _)

theorem variablePart_agree (s : Index) (i : ℕ) (rhs b : ℚ) (d : BoundDirection) (change : Change) :
    Agree (variablePartDebug G s i rhs b d change) (variablePart G s i rhs b d change) :=
  (activeRow_agree _ _).lookup (.foldlM (variableStep_agree rhs b d) _ _)

theorem forEntireConstraint_agree (s : Index) (i : ℕ) (d : BoundDirection) :
    Agree (forEntireConstraintDebug G s i d) (forEntireConstraint G s i d) := by
  unfold forEntireConstraintDebug forEntireConstraint
  refine .check ((activityBoundIfNeeded_agree _ _ _).bind fun r => ?_)
  obtain ⟨s, b⟩ := r
  refine (constraintPart_agree _ _ _ _).bind fun r => ?_
  obtain ⟨s, remove, apply, change⟩ := r
  have key : ∀ r : Index × Change, Agree (if remove = true then (do
        let s ← removeConstraintValuesDebug G r.1 i
        let s ← removeConstraintDebug s i
        pure (s, r.2)) else pure (r.1, r.2) : Run (Index × Change))
      (if remove = true then (do
        let s ← removeConstraintValues G r.1 i
        pure (removeConstraint s i, r.2)) else pure (r.1, r.2)) := by
    intro r
    cases remove with
    | false => exact .refl _
    | true =>
      exact (removeConstraintValues_agree _ _).bind fun s => (removeConstraint_agree _ _).lookup (.refl _)
  simp only
  cases apply with
  | false => exact key (s, change)
  | true =>
    simp only [if_true]
    refine (variableRuleRhs_agree _ _ _).lookup ?_
    cases variableRuleRhs G s i d with
    | none => exact key (s, change)
    | some rhs => exact (variablePart_agree _ _ _ _ _ _).bind fun r => key r

theorem createVariableBound_agree (s : Index) (i : ℕ) (d : BoundDirection) :
    Agree (createVariableBoundDebug G s i d) (createVariableBound G s i d) := by
  unfold createVariableBoundDebug createVariableBound
  refine .check ((variableRuleRhs_agree _ _ _).lookup ?_)
  cases variableRuleRhs G s i d with
  | none => exact .refl _
  | some rhs =>
    simp only
    refine (activeRow_agree _ _).lookup ((Agree.map (g := fun p =>
      (s.updates.variableBound G p.1 (d.times p.2)).map fun bound => p.2 * bound) (fun p =>
        (variableBound_agree _ _ _).lookup (.refl _)) _).lookup ?_)
    have hsum : ((activeRow G s.counters i).map fun p =>
        (s.updates.variableBound G p.1 (d.times p.2)).map fun bound => p.2 * bound).filterMap id =
        (activeRow G s.counters i).filterMap fun p =>
          (s.updates.variableBound G p.1 (d.times p.2)).map fun bound => p.2 * bound := by
      rw [List.filterMap_map]
      rfl
    rw [hsum]
    refine (Agree.refl _).bind fun p => ?_
    obtain ⟨j, c⟩ := p
    exact (updateActivityVariableBound_agree _ _ _ _).lookup ((afterBoundChange_agree _ _ _ _).bind fun t =>
      .refl _)

theorem presolveDomainPropagation_agree (s : Index) (i : ℕ) (d : BoundDirection) :
    Agree (presolveDomainPropagationDebug G s i d) (presolveDomainPropagation G s i d) := by
  unfold presolveDomainPropagationDebug presolveDomainPropagation
  refine (activeRow_agree _ _).lookup ((Agree.map (fun p => variableBound_agree _ _ _) _).lookup
    (.check ?_))
  rcases s.counters.activity i d with _ | _ | n
  · exact forEntireConstraint_agree _ _ _
  · exact createVariableBound_agree _ _ _
  · exact .refl _

/-! ### The loop -/

theorem presolveStep_agree (s : Index) : Agree (presolveStepDebug G s) (presolveStep G s) := by
  unfold presolveStepDebug presolveStep
  simp only []
  cases s.queues.substitution.head?.filter fun j => 0 < s.counters.columns j with
  | some j => exact (presolveFixedVariable_agree _ _).bind fun s => .refl _
  | none =>
    simp only
    cases s.queues.bound.dropWhile fun i => s.counters.constraint i = 0 with
    | cons i rest => exact (presolveBoundConstraint_agree _ _).bind fun s => .refl _
    | nil =>
      simp only
      cases s.queues.slack.dropWhile fun j => s.counters.columns j = 0 with
      | cons j rest => exact (presolveSlack_agree _ _).bind fun s => .refl _
      | nil =>
        simp only
        cases s.queues.activity.dropWhile fun p => s.counters.constraint p.1 = 0 with
        | cons p rest =>
          obtain ⟨i, d⟩ := p
          exact .check (presolveDomainPropagation_agree _ _ _)
        | nil => exact .refl _

theorem presolveLoop_agree (fuel : ℕ) : ∀ (s : Index) (iterations : ℕ),
    Agree (presolveLoopDebug G fuel s iterations) (presolveLoop G fuel s iterations) := by
  induction fuel with
  | zero =>
    intro s k
    unfold presolveLoopDebug presolveLoop
    exact .refl _
  | succ fuel ih =>
    intro s k
    unfold presolveLoopDebug presolveLoop
    by_cases h : (!s.queues.areEmpty && decide (k < remaining G s)) = true
    · rw [if_pos h, if_pos h]
      refine (presolveStep_agree s).bind fun r => ?_
      obtain ⟨t, c⟩ := r
      cases c <;> exact ih _ _
    · rw [if_neg h, if_neg h]
      exact .refl _

theorem checkIndices_agree (indices : List ℕ) (n : ℕ) : Agree (checkIndices indices n) (.ok ()) := by
  unfold checkIndices
  refine .check (.check (.check ?_))
  unfold Presolve.check
  split
  · exact .refl _
  · exact .inr rfl

theorem removeRowsAndColumns_agree (G : GeneralForm) (constraints vars : List ℕ) :
    Agree (removeRowsAndColumnsDebug G constraints vars) (removeRowsAndColumns G constraints vars) := by
  unfold removeRowsAndColumnsDebug
  refine (checkIndices_agree _ _).lookup ((checkIndices_agree _ _).lookup ?_)
  have h := (Agree.refl (removeRowsAndColumns G constraints vars)).bind (f := fun H => do
      checkIndices constraints G.constraints.minor
      checkIndices constraints G.b.length
      check H.isConsistent
      pure H) (g := fun H => pure H) fun H => (checkIndices_agree _ _).lookup
        ((checkIndices_agree _ _).lookup .checkPure)
  rwa [bind_pure] at h

/-- Unless a check fails, a debug build presolves as a release build does. -/
theorem presolveDebug_agree (fuel : ℕ) (G : GeneralForm) :
    Agree (presolveDebug fuel G) (presolve fuel G) := by
  unfold presolveDebug presolve
  refine newDebug_agree.bind fun s => (presolveLoop_agree _ _ _).bind fun t => ?_
  exact (removeRowsAndColumns_agree _ _ _).bind fun H => .refl _

end Presolve

end Relp
