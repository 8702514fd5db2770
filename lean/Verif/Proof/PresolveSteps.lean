import Verif.Proof.PresolveEnds
import Mathlib.Combinatorics.Enumerative.DoubleCounting
import Mathlib.Tactic.Ring

/-!
# The number of steps of presolving
-/

namespace Relp

open Finset

namespace Presolve

variable {G : GeneralForm} {s t : Index}

/-! ### The queue of constraints for domain propagation has no duplicates -/

/-- What a computation returns, if it returns, has a property. -/
def Yields {α : Type} (P : α → Prop) (r : Run α) : Prop := ∀ a, r = .ok a → P a

theorem Yields.ok {α : Type} {P : α → Prop} {a : α} (h : P a) : Yields P (.ok a : Run α) := by
  intro b hb
  cases hb
  exact h

theorem Yields.pure {α : Type} {P : α → Prop} {a : α} (h : P a) : Yields P (Pure.pure a : Run α) :=
  .ok h

theorem Yields.error {α : Type} {P : α → Prop} (e : Halt) : Yields P (.error e : Run α) := by
  intro b hb
  cases hb

theorem Yields.bind {α β : Type} {P : α → Prop} {Q : β → Prop} {r : Run α} {f : α → Run β}
    (hr : Yields P r) (hf : ∀ a, P a → Yields Q (f a)) : Yields Q (r >>= f) := by
  cases r with
  | ok a => exact hf a (hr a rfl)
  | error e => exact .error e

theorem Yields.any {α : Type} (r : Run α) : Yields (fun _ => True) r := fun _ _ => trivial

theorem Yields.ite {α : Type} {P : α → Prop} {c : Prop} [Decidable c] {r r' : Run α}
    (h : Yields P r) (h' : Yields P r') : Yields P (if c then r else r') := by
  split <;> assumption

theorem Yields.foldlM {α β : Type} {P : β → Prop} {f : β → α → Run β} (l : List α)
    (hf : ∀ b a, P b → Yields P (f b a)) : ∀ b, P b → Yields P (l.foldlM f b) := by
  induction l with
  | nil => intro b hb; rw [List.foldlM_nil]; exact .pure hb
  | cons a l ih => intro b hb; rw [List.foldlM_cons]; exact (hf b a hb).bind ih

/-- No constraint is queued twice in the same direction. -/
structure Single (s : Index) : Prop where
  nodup : s.queues.activity.Nodup

theorem pushFifo_nodup {queue : List (ℕ × BoundDirection)} (h : queue.Nodup)
    (item : ℕ × BoundDirection) : (pushFifo queue item).Nodup := by
  unfold pushFifo
  split
  · exact h
  · rename_i hn
    rw [List.nodup_append]
    refine ⟨h, by simp, fun a ha b hb => ?_⟩
    rw [List.mem_singleton] at hb
    subst hb
    rintro rfl
    exact hn ha

theorem Single.decrementColumn (h : Single s) (j : ℕ) :
    Yields Single (Presolve.decrementColumn s j) :=
  .bind (.any _) fun _ _ => .pure ⟨h.nodup⟩

theorem Single.decrementConstraint (h : Single s) (i : ℕ) :
    Yields Single (Presolve.decrementConstraint s i) :=
  .bind (.any _) fun _ _ => .pure ⟨h.nodup⟩

theorem Single.queueVariable (h : Single s) (j : ℕ) : Yields Single (queueVariableByCounter G s j) := by
  unfold queueVariableByCounter
  split
  · exact .ite (.bind (.any _) fun _ _ => .pure ⟨h.nodup⟩) (.bind (.any _) fun _ _ => .pure ⟨h.nodup⟩)
  · exact .ite (.pure ⟨h.nodup⟩) (.pure ⟨h.nodup⟩)
  · exact .pure ⟨h.nodup⟩

theorem Single.queueConstraint (h : Single s) (i : ℕ) :
    Yields Single (queueConstraintByCounter G s i) := by
  unfold queueConstraintByCounter
  split
  · exact .ite (.pure ⟨h.nodup⟩) (.error _)
  · exact .pure ⟨h.nodup⟩
  · exact .pure ⟨h.nodup⟩

theorem Single.removeConstraintValues (h : Single s) (i : ℕ) :
    Yields Single (Presolve.removeConstraintValues G s i) :=
  .foldlM _ (fun _ _ h => (h.decrementConstraint _).bind fun _ h =>
    (h.decrementColumn _).bind fun _ h => h.queueVariable _) _ h

theorem Single.updateActivityCounters (h : Single s) (j : ℕ) (d : BoundDirection) :
    Yields Single (Presolve.updateActivityCounters G s j d) := by
  refine .foldlM (P := Single) _ (fun s p h => ?_) _ h
  refine .bind (.any _) fun n _ => .ite ?_ ?_
  · exact .pure ⟨pushFifo_nodup h.nodup _⟩
  · exact .pure ⟨h.nodup⟩

theorem Single.updateActivityBounds (h : Single s) (j : ℕ) (d : BoundDirection) (x : ℚ) :
    Single (Presolve.updateActivityBounds G s j d x) := by
  unfold Presolve.updateActivityBounds
  generalize activeColumn G s.counters j = l
  induction l generalizing s with
  | nil => exact h
  | cons p l ih =>
    rw [List.foldl_cons]
    apply ih
    unfold updateActivityBound
    split
    · simp only []
      split
      · exact ⟨pushFifo_nodup h.nodup _⟩
      · exact h
    · exact h

theorem Single.afterBoundChange (h : Single s) (j : ℕ) (d : BoundDirection) (change : BoundChange) :
    Yields Single (Presolve.afterBoundChange G s j d change) := by
  unfold Presolve.afterBoundChange
  cases change with
  | none => exact .pure h
  | newBound =>
    refine Single.updateActivityCounters ?_ _ _
    simp only []
    split
    · exact ⟨h.nodup⟩
    · exact h
  | boundShift x =>
    refine .pure (Single.updateActivityBounds ?_ _ _ _)
    simp only []
    split
    · exact ⟨h.nodup⟩
    · exact h

theorem Single.fixed (h : Single s) (j : ℕ) : Yields Single (presolveFixedVariable G s j) := by
  refine .bind (.any _) fun _ _ => .bind (.foldlM (P := Single) _ (fun s i h => ?_) _ ⟨h.nodup⟩)
    fun _ h => .pure ⟨h.nodup⟩
  exact (h.decrementColumn _).bind fun _ h => (h.decrementConstraint _).bind fun _ h =>
    h.queueConstraint _

theorem Single.boundConstraint (h : Single s) (i : ℕ) :
    Yields Single (presolveBoundConstraint G s i) := by
  refine .bind (.any _) fun _ _ => (h.decrementColumn _).bind fun _ h =>
    (h.decrementConstraint _).bind fun _ h =>
    .bind (.foldlM (P := Single) _ (fun s p h => ?_) _ ⟨h.nodup⟩) fun _ h => ?_
  · refine Single.afterBoundChange ?_ _ _ _
    exact ⟨h.nodup⟩
  · split
    · exact .error _
    · exact h.queueVariable _

theorem Single.activityQueueIfNeeded (h : Single s) (i : ℕ) (d : BoundDirection) (b : Bool) :
    Yields Single (Presolve.activityQueueIfNeeded s i d b) := by
  refine .ite (.bind (.any _) fun n _ => .ite ?_ ?_) (.pure h)
  · exact .pure ⟨pushFifo_nodup h.nodup _⟩
  · exact .pure ⟨h.nodup⟩

theorem Single.slack (h : Single s) (j : ℕ) : Yields Single (presolveSlack G s j) := by
  refine .bind (.any _) fun _ _ => ?_
  simp only []
  split
  · refine .bind (.foldlM (P := Single) _ (fun s k h => ?_) _ h) fun _ h => .pure ⟨h.nodup⟩
    exact (h.decrementConstraint _).bind fun _ h => (h.decrementColumn _).bind fun _ h =>
      .ite (h.queueVariable _) (.pure h)
  · refine (h.decrementColumn _).bind fun _ h => ?_
    refine .bind (Single.activityQueueIfNeeded ?_ _ _ _) fun _ h => ?_
    · exact ⟨h.nodup⟩
    refine (h.activityQueueIfNeeded _ _ _).bind fun _ h => (h.decrementConstraint _).bind fun _ h =>
      (h.queueConstraint _).bind fun _ h => ?_
    exact .pure ⟨h.nodup⟩

theorem Single.constraintPart (h : Single s) (i : ℕ) (b : ℚ) (d : BoundDirection) :
    Yields (fun x : Index × Bool × Bool × Change => Single x.1)
      (Presolve.constraintPart G s i b d) := by
  refine .bind (.any _) fun c _ => ?_
  split
  · exact .pure h
  · exact .pure h
  · exact .pure ⟨h.nodup⟩
  · refine .bind (P := fun x : Index × List (ℕ × BoundDirection) => Single x.1)
      (.foldlM (P := fun x : Index × List (ℕ × BoundDirection) => Single x.1) _ (fun x p h => ?_) _ h)
      fun _ h => .bind (.foldlM (P := Single) _ (fun _ _ h => h.updateActivityCounters _ _) _ h)
      fun _ h => .pure h
    exact .bind (.any _) fun _ _ => .pure ⟨h.nodup⟩

theorem Single.propagation (h : Single s) (i : ℕ) (d : BoundDirection) :
    Yields (fun x : Index × Change => Single x.1) (presolveDomainPropagation G s i d) := by
  unfold presolveDomainPropagation
  split
  · refine .bind (P := fun x : Index × ℚ => Single x.1) ?_ fun x h =>
      (h.constraintPart _ _ _).bind fun y h => ?_
    · unfold activityBoundIfNeeded
      split
      · exact .pure h
      · exact .bind (.any _) fun _ _ => .pure ⟨h.nodup⟩
    · have key : ∀ z : Index × Change, Single z.1 → Yields (fun x : Index × Change => Single x.1)
          (if y.2.1 = true then do
            let s ← Presolve.removeConstraintValues G z.1 i
            Pure.pure (removeConstraint s i, z.2)
          else Pure.pure (z.1, z.2)) := fun z h =>
        .ite ((h.removeConstraintValues _).bind fun _ h => .pure ⟨h.nodup⟩) (.pure h)
      refine .ite ?_ (.bind (.pure h) key)
      split
      · refine .bind (P := fun x : Index × Change => Single x.1) ?_ key
        refine .foldlM (P := fun x : Index × Change => Single x.1) _ (fun x p h => ?_) _ h
        refine .bind (.any _) fun _ _ => .bind (Single.afterBoundChange ?_ _ _ _) fun _ h => .pure h
        exact ⟨h.nodup⟩
      · exact .bind (.pure h) key
  · unfold createVariableBound
    split
    · exact .pure h
    · refine .bind (.any _) fun _ _ => .bind (Single.afterBoundChange ?_ _ _ _) fun _ h => .pure h
      exact ⟨h.nodup⟩
  · exact .error _

theorem Single.step (h : Single s) :
    Yields (fun x : Index × Change => Single x.1) (presolveStep G s) := by
  unfold presolveStep
  simp only []
  split
  · refine .bind (Single.fixed ?_ _) fun _ h => .pure h
    exact ⟨h.nodup⟩
  · split
    · refine .bind (Single.boundConstraint ?_ _) fun _ h => .pure h
      exact ⟨h.nodup⟩
    · split
      · refine .bind (Single.slack ?_ _) fun _ h => .pure h
        exact ⟨h.nodup⟩
      · split
        · rename_i i d rest ha
          refine Single.propagation ⟨?_⟩ _ _
          have hsuf : (i, d) :: rest <:+ s.queues.activity := ha ▸ List.dropWhile_suffix _
          exact (List.nodup_cons.1 (h.nodup.sublist hsuf.sublist)).2
        · exact .pure ⟨List.nodup_nil⟩

/-- At most both directions of every constraint are queued. -/
theorem Single.length (h : Single s) (hs : Queued G s) :
    s.queues.activity.length ≤ 2 * G.constraintTypes.length := by
  have h1 : s.queues.activity ⊆
      (List.range G.constraintTypes.length).flatMap fun i => [(i, .lower), (i, .upper)] := by
    rintro ⟨i, d⟩ hp
    rw [List.mem_flatMap]
    refine ⟨i, List.mem_range.2 (hs.activity _ hp), ?_⟩
    cases d <;> simp
  have h2 := (List.Nodup.subperm h.nodup h1).length_le
  simpa [List.length_flatMap, mul_comm] using h2

/-! ### The measure -/

/-- A step without any change takes a constraint from the queue. -/
theorem step_none (hG : G.Consistent) (hs : Queued G s) (h : presolveStep G s = .ok (t, .none)) :
    t.queues.activity.length < s.queues.activity.length := by
  unfold presolveStep at h
  simp only [] at h
  split at h
  · simp only [bind, Except.bind, pure, Except.pure] at h
    split at h <;> cases h
  · split at h
    · simp only [bind, Except.bind, pure, Except.pure] at h
      split at h <;> cases h
    · split at h
      · simp only [bind, Except.bind, pure, Except.pure] at h
        split at h <;> cases h
      · split at h
        · rename_i i d rest ha
          have hsuf : (i, d) :: rest <:+ s.queues.activity := ha ▸ List.dropWhile_suffix _
          have hi := hs.activity (i, d) (hsuf.subset (by simp))
          have hi0 : s.counters.constraint i ≠ 0 := by
            have h := dropWhile_head ha
            simpa using h
          have hq : Queued G { s with queues := { s.queues with
              substitution := s.queues.substitution.tail, bound := [], slack := [],
              activity := rest } } := ⟨hs.linked,
            fun j hj => hs.substitution j (List.tail_subset _ hj), by simp, by simp,
            fun p hp => hs.activity p (hsuf.subset (List.mem_cons_of_mem _ hp))⟩
          have := ends_propagation hG hq hi hi0 h
          rw [this.same rfl]
          have h1 := hsuf.length_le
          simp only [List.length_cons] at h1
          exact h1
        · cases h

/-- An upper bound for the number of steps that follow. -/
def stepsLeft (G : GeneralForm) (s : Index) (iterations : ℕ) : ℕ :=
  (potential G s * (G.vars.length + G.constraintTypes.length + 1) +
    (G.vars.length + G.constraintTypes.length - iterations)) * (2 * G.constraintTypes.length + 1) +
    s.queues.activity.length

theorem stepsLeft_step {p p' k k' L A a a' : ℕ} (ha' : a' ≤ A)
    (h : p' < p ∧ k' ≤ L ∨ p' ≤ p ∧ k' < k ∨ p' ≤ p ∧ k' ≤ k ∧ a' < a) :
    (p' * (L + 1) + k') * (A + 1) + a' < (p * (L + 1) + k) * (A + 1) + a := by
  have key : p' * (L + 1) + k' < p * (L + 1) + k →
      (p' * (L + 1) + k') * (A + 1) + a' < (p * (L + 1) + k) * (A + 1) + a := by
    intro h
    have := Nat.mul_le_mul_right (A + 1) (Nat.succ_le_of_lt h)
    rw [Nat.succ_mul] at this
    omega
  rcases h with ⟨h1, h2⟩ | ⟨h1, h2⟩ | ⟨h1, h2, h3⟩
  · apply key
    have := Nat.mul_le_mul_right (L + 1) (Nat.succ_le_of_lt h1)
    rw [Nat.succ_mul] at this
    omega
  · apply key
    have := Nat.mul_le_mul_right (L + 1) h1
    omega
  · have h4 : p' * (L + 1) + k' ≤ p * (L + 1) + k := by
      have := Nat.mul_le_mul_right (L + 1) h1
      omega
    have := Nat.mul_le_mul_right (A + 1) h4
    omega

/-- The loop ends after at most so many steps. -/
theorem loop_steps (hG : G.Consistent) : ∀ (fuel : ℕ) (s : Index) (iterations : ℕ), Queued G s →
    Single s → stepsLeft G s iterations ≤ fuel → Halts (presolveLoop G fuel s iterations) := by
  intro fuel
  induction fuel with
  | zero =>
    intro s iterations hs h1 hf
    have hf0 : stepsLeft G s iterations = 0 := Nat.le_zero.1 hf
    by_cases hc : (!s.queues.areEmpty && decide (iterations < remaining G s)) = true
    · exfalso
      rw [Bool.and_eq_true, decide_eq_true_eq] at hc
      have hR := remaining_le (G := G) s
      unfold stepsLeft at hf0
      have h2 : 0 < G.vars.length + G.constraintTypes.length - iterations := by omega
      have : 0 < (potential G s * (G.vars.length + G.constraintTypes.length + 1) +
          (G.vars.length + G.constraintTypes.length - iterations)) *
            (2 * G.constraintTypes.length + 1) := Nat.mul_pos (by omega) (by omega)
      omega
    · rw [presolveLoop.eq_def]
      simp only [hc]
      exact .pure _
  | succ fuel ih =>
    intro s iterations hs h1 hf
    rw [presolveLoop.eq_def]
    by_cases hc : (!s.queues.areEmpty && decide (iterations < remaining G s)) = true
    · simp only [hc, if_true]
      cases hstep : presolveStep G s with
      | error e =>
        have := Halts.presolveStep (G := G) s
        rw [hstep] at this
        intro h
        apply this
        cases h
        rfl
      | ok x =>
        obtain ⟨t, change⟩ := x
        show Halts (presolveLoop G fuel t (nextIterations iterations change))
        obtain ⟨h2, h3, h4, -⟩ := ends_step hG hs hstep
        have h5 := h1.step _ hstep
        refine ih t _ h2 h5 ?_
        rw [Bool.and_eq_true, decide_eq_true_eq] at hc
        have hR := remaining_le (G := G) s
        have hlt : stepsLeft G t (nextIterations iterations change) < stepsLeft G s iterations := by
          refine stepsLeft_step (Single.length h5 h2) ?_
          cases change with
          | meaningful => exact .inl ⟨h4 rfl, by omega⟩
          | notMeaningful => exact .inr (.inl ⟨h3, by simp only [nextIterations]; omega⟩)
          | none => exact .inr (.inr ⟨h3, le_rfl, step_none hG hs hstep⟩)
        omega
    · simp only [hc]
      exact .pure _

/-! ### The start -/

theorem start_single (h : Index.new G = .ok s) : Single s := by
  unfold Index.new at h
  simp only [bind, Except.bind, pure, Except.pure] at h
  split at h
  · cases h
  cases h
  constructor
  show ((List.range G.constraintTypes.length).flatMap _).Nodup
  rw [List.nodup_flatMap]
  constructor
  · intro i _
    split
    · split <;> split <;> simp
    · simp
  · refine List.Pairwise.imp ?_ List.nodup_range
    intro a b hab
    have : ∀ (k : ℕ) (p : ℕ × BoundDirection), (p ∈ if (Counters.new G).constraint k > 1 then
        (if (Counters.new G).activity k .lower ≤ 1 then [(k, BoundDirection.lower)] else []) ++
          if (Counters.new G).activity k .upper ≤ 1 then [(k, .upper)] else []
        else []) → p.1 = k := by
      intro k p hp
      split at hp
      · rw [List.mem_append] at hp
        rcases hp with hp | hp <;> split at hp <;> simp_all
      · cases hp
    intro p hp hq
    exact hab ((this a p hp).symm.trans (this b p hq))

theorem start_potential (hG : G.Consistent) (h : Index.new G = .ok s) :
    potential G s ≤ 2 * ∑ j ∈ range G.vars.length, (column G j).length +
      G.constraintTypes.length + 2 * G.vars.length := by
  have hc : s.counters = Counters.new G := by
    unfold Index.new at h
    simp only [bind, Except.bind, pure, Except.pure] at h
    split at h
    · cases h
    cases h
    rfl
  have h1 : ∑ i ∈ range G.constraintTypes.length, (Counters.new G).constraint i =
      ∑ j ∈ range G.vars.length, (column G j).length := by
    rw [Finset.sum_congr rfl fun i hi => start_rows hG (Finset.mem_range.1 hi)]
    rw [show ∑ j ∈ range G.vars.length, (column G j).length =
        ∑ j ∈ range G.vars.length, #((range G.constraintTypes.length).filter fun i => coef G i j ≠ 0)
      from Finset.sum_congr rfl fun j _ => start_columns hG j]
    exact Finset.sum_card_bipartiteAbove_eq_sum_card_bipartiteBelow _
  have h2 : #(ranges G s.updates) ≤ G.constraintTypes.length := by
    unfold ranges
    simpa using Finset.card_filter_le (range G.constraintTypes.length) _
  have h3 : ∀ d, #(free G s.updates d) ≤ G.vars.length := fun d => by
    unfold free
    simpa using Finset.card_filter_le (range G.vars.length) _
  have h4 := h3 .lower
  have h5 := h3 .upper
  unfold potential
  rw [hc, h1]
  show _ + ∑ j ∈ range G.vars.length, (column G j).length + _ + _ + _ ≤ _
  omega

theorem coefficients_sum (hG : G.Consistent) :
    ∑ j ∈ range G.vars.length, (column G j).length = (G.constraints.data.map List.length).sum := by
  rw [← hG.dataLength]
  unfold column
  generalize G.constraints.data = l
  induction l with
  | nil => rfl
  | cons a l ih =>
    rw [List.length_cons, Finset.sum_range_succ', List.map_cons, List.sum_cons, add_comm]
    simpa using ih

/-- More fuel does not matter. -/
theorem loop_mono : ∀ (fuel : ℕ) (s : Index) (iterations : ℕ),
    Halts (presolveLoop G fuel s iterations) →
    presolveLoop G (fuel + 1) s iterations = presolveLoop G fuel s iterations := by
  intro fuel
  induction fuel with
  | zero =>
    intro s iterations h
    rw [presolveLoop.eq_def, presolveLoop.eq_def G 0]
    rw [presolveLoop.eq_def] at h
    by_cases hc : (!s.queues.areEmpty && decide (iterations < remaining G s)) = true
    · simp only [hc, if_true] at h
      exact absurd rfl h
    · simp only [hc]
      rfl
  | succ fuel ih =>
    intro s iterations h
    rw [presolveLoop.eq_def, presolveLoop.eq_def G (fuel + 1)]
    rw [presolveLoop.eq_def] at h
    by_cases hc : (!s.queues.areEmpty && decide (iterations < remaining G s)) = true
    · simp only [hc, if_true] at h ⊢
      cases hstep : presolveStep G s with
      | error e => rfl
      | ok x =>
        rw [hstep] at h
        exact ih _ _ h
    · simp only [hc]
      rfl

theorem loop_same (fuel k : ℕ) (s : Index) (iterations : ℕ)
    (h : Halts (presolveLoop G fuel s iterations)) :
    presolveLoop G (fuel + k) s iterations = presolveLoop G fuel s iterations := by
  induction k with
  | zero => rfl
  | succ k ih => rw [← Nat.add_assoc, loop_mono _ _ _ (ih ▸ h), ih]

/-- Presolving ends after a number of steps given by the size of the problem. -/
theorem presolve_steps (hG : G.Consistent) {fuel : ℕ}
    (hf : (2 * (G.constraints.data.map List.length).sum + G.constraintTypes.length +
      2 * G.vars.length + 1) * (G.vars.length + G.constraintTypes.length + 1) *
      (2 * G.constraintTypes.length + 1) ≤ fuel) :
    Halts (presolve fuel G) ∧ ∀ k, presolve (fuel + k) G = presolve fuel G := by
  obtain ⟨bound, r, hr, hall⟩ := ends_presolve hG
  have hsame : ∀ k, presolve (fuel + k) G = presolve fuel G := by
    intro k
    unfold presolve
    cases h : Index.new G with
    | error e => rfl
    | ok s =>
      have h1 : stepsLeft G s 0 ≤ fuel := by
        refine le_trans ?_ hf
        have h2 := start_potential hG h
        rw [coefficients_sum hG] at h2
        have h3 := Single.length (start_single h) (start_queued hG h)
        unfold stepsLeft
        generalize potential G s = p at *
        generalize (G.constraints.data.map List.length).sum = c at *
        generalize G.vars.length = n at *
        generalize G.constraintTypes.length = m at *
        generalize s.queues.activity.length = a at *
        have h4 : (p + 1) * (n + m + 1) ≤ (2 * c + m + 2 * n + 1) * (n + m + 1) :=
          Nat.mul_le_mul_right _ (by omega)
        have h5 := Nat.mul_le_mul_right (2 * m + 1) h4
        refine le_trans ?_ h5
        rw [Nat.sub_zero, show (p + 1) * (n + m + 1) = p * (n + m + 1) + (n + m) + 1 by ring]
        generalize p * (n + m + 1) + (n + m) = x
        rw [Nat.add_mul x 1, Nat.one_mul]
        omega
      have h2 := loop_steps hG fuel s 0 (start_queued hG h) (start_single h) h1
      simp only [bind, Except.bind]
      rw [loop_same fuel k s 0 h2]
  refine ⟨?_, hsame⟩
  rw [← hsame bound, hall (fuel + bound) (by omega)]
  exact hr

end Presolve
end Relp
