import Verif.Model.PresolveDebug
import Verif.Proof.PresolveDiscard

/-!
# The checks of presolving in a debug build
-/

namespace Relp

open Finset

namespace Presolve

variable {G : GeneralForm}

theorem check_bind {α : Type} {c : Bool} (h : c = true) (k : Unit → Run α) : (check c >>= k) = k () := by
  rw [h]; rfl

theorem ok_bind {α β : Type} (a : α) (k : α → Run β) : ((.ok a : Run α) >>= k) = k a := rfl

theorem error_bind {α β : Type} (e : Halt) (k : α → Run β) : ((.error e : Run α) >>= k) = .error e := rfl

theorem pure_eq {α : Type} (a : α) : (pure a : Run α) = .ok a := rfl

/-- Loops are the same if their bodies are where an invariant holds. -/
theorem foldlM_debug {σ α : Type} {f g : σ → α → Run σ} (Inv : σ → List α → Prop)
    (step : ∀ s a l, Inv s (a :: l) → g s a = f s a ∧ ∀ t, f s a = .ok t → Inv t l) :
    ∀ (l : List α) (s : σ), Inv s l →
      l.foldlM g s = l.foldlM f s ∧ ∀ t, l.foldlM f s = .ok t → Inv t [] := by
  intro l
  induction l with
  | nil =>
    intro s h
    refine ⟨rfl, fun t ht => ?_⟩
    cases ht
    exact h
  | cons a l ih =>
    intro s h
    obtain ⟨h1, h2⟩ := step s a l h
    rw [List.foldlM_cons, List.foldlM_cons, h1]
    cases hf : f s a with
    | error e => exact ⟨rfl, fun t ht => by cases ht⟩
    | ok t => exact ih t (h2 t hf)

/-! ### Latest version of the problem -/

theorem isRemoved_iff {u : Updates} {j : ℕ} :
    u.isRemoved j = false ↔ j ∉ u.removedVariables.map (·.1) := by
  unfold Updates.isRemoved
  rw [List.any_eq_false]
  constructor
  · rintro h hm
    obtain ⟨p, hp, rfl⟩ := List.mem_map.1 hm
    exact h p hp (by simp)
  · intro h p hp he
    exact h (List.mem_map.2 ⟨p, hp, by simpa using he⟩)

/-- No bound is stored twice. -/
def Apart (u : Updates) : Prop := ∀ j d, u.bounds j d = none ∨ u.activityBounds j d = none

theorem apart_of {u : Updates} (h : ∀ k e, Separated G k e (u.bounds k e) (u.activityBounds k e)) :
    Apart u := fun j d => (h j d).1

section

variable {u : Updates} {i j : ℕ}

theorem rhsDebug_eq (h : i ∉ u.constraintsRemoved) : u.rhsDebug G i = .ok (u.rhs G i) :=
  check_bind (decide_eq_true h) _

theorem changeBDebug_eq (h : i ∉ u.constraintsRemoved) (change : ℚ) :
    u.changeBDebug G i change = .ok (u.changeB G i change) :=
  check_bind (decide_eq_true h) _

theorem constraintTypeDebug_eq (h : i ∉ u.constraintsRemoved) :
    u.constraintTypeDebug G i = .ok (u.constraintType G i) :=
  check_bind (decide_eq_true h) _

theorem variableBoundDebug_eq (hj : u.isRemoved j = false) (ha : Apart u) (d : BoundDirection) :
    u.variableBoundDebug G j d = .ok (u.variableBound G j d) := by
  unfold Updates.variableBoundDebug
  rw [check_bind (by rw [hj]; rfl), check_bind]
  · rfl
  · rcases ha j d with h | h <;> rw [h] <;> simp

theorem isVariableFixedDebug_eq (hj : u.isRemoved j = false) (ha : Apart u) :
    u.isVariableFixedDebug G j = .ok (u.isVariableFixed G j) := by
  unfold Updates.isVariableFixedDebug
  rw [check_bind (by rw [hj]; rfl), variableBoundDebug_eq hj ha, variableBoundDebug_eq hj ha]
  rfl

theorem variableFeasibleValueDebug_eq (hj : u.isRemoved j = false) (ha : Apart u) :
    u.variableFeasibleValueDebug G j =
      .ok (feasibleValue (u.variableBound G j .lower) (u.variableBound G j .upper)) := by
  unfold Updates.variableFeasibleValueDebug
  rw [check_bind (by rw [hj]; rfl), variableBoundDebug_eq hj ha, variableBoundDebug_eq hj ha]
  rfl

theorem updateBoundDebug_eq (hj : u.isRemoved j = false) (d : BoundDirection) (new : ℚ) :
    u.updateBoundDebug G j d new = .ok (u.updateBound G j d new) :=
  check_bind (by rw [hj]; rfl) _

theorem updateActivityVariableBoundDebug_eq (hj : u.isRemoved j = false) (d : BoundDirection) (new : ℚ) :
    u.updateActivityVariableBoundDebug G j d new = .ok (u.updateActivityVariableBound G j d new) :=
  check_bind (by rw [hj]; rfl) _

end

section

variable {s t : Index} {i j : ℕ}

theorem activeRowDebug_eq {c : Counters} (h : c.constraint i ≠ 0) :
    activeRowDebug G c i = .ok (activeRow G c i) :=
  check_bind (decide_eq_true (Nat.pos_of_ne_zero h)) _

theorem removeConstraintDebug_eq (h : s.counters.constraint i = 0) :
    removeConstraintDebug s i = .ok (removeConstraint s i) :=
  check_bind (decide_eq_true h) _

theorem removeVariableDebug_eq (h : s.counters.columns j = 0) (r : RemovedVariable) :
    removeVariableDebug s j r = .ok (removeVariable s j r) :=
  check_bind (decide_eq_true h) _

/-! ### Counters -/

theorem decrementColumn_ok (h : decrementColumn s j = .ok t) :
    t = { s with counters := { s.counters with
      columns := insertAt s.counters.columns j (s.counters.columns j - 1) } } := by
  unfold decrementColumn decrement at h
  by_cases h0 : s.counters.columns j = 0
  · rw [if_pos h0] at h; cases h
  · rw [if_neg h0] at h; cases h; rfl

theorem decrementConstraint_ok (h : decrementConstraint s i = .ok t) :
    t = { s with counters := { s.counters with
      constraint := insertAt s.counters.constraint i (s.counters.constraint i - 1) } } := by
  unfold decrementConstraint decrement at h
  by_cases h0 : s.counters.constraint i = 0
  · rw [if_pos h0] at h; cases h
  · rw [if_neg h0] at h; cases h; rfl

/-- The variable has a value within its bounds. -/
def HasValue (G : GeneralForm) (u : Updates) (j : ℕ) : Prop :=
  (feasibleValue (u.variableBound G j .lower) (u.variableBound G j .upper)).isSome = true

theorem queueVariableByCounterDebug_eq (ha : Apart s.updates)
    (h : s.updates.isRemoved j = false ∧ HasValue G s.updates j) :
    queueVariableByCounterDebug G s j = queueVariableByCounter G s j := by
  unfold queueVariableByCounterDebug queueVariableByCounter
  rcases hc : s.counters.columns j with _ | _ | n
  · simp only
    rw [variableFeasibleValueDebug_eq h.1 ha, ok_bind, check_bind h.2]
    by_cases h0 : costOf G j = 0
    · simp only [if_pos h0]
      cases hv : feasibleValue (s.updates.variableBound G j .lower)
        (s.updates.variableBound G j .upper) with
      | none => rfl
      | some v => exact removeVariableDebug_eq hc _
    · simp only [if_neg h0]
      rw [check_bind (decide_eq_true h0), variableBoundDebug_eq h.1 ha, ok_bind,
        variableBoundDebug_eq h.1 ha, ok_bind]
      cases optimizeIndependentColumn G.objective (costOf G j) (s.updates.variableBound G j .lower)
        (s.updates.variableBound G j .upper) with
      | error e => rfl
      | ok v =>
        rw [ok_bind, ok_bind]
        exact removeVariableDebug_eq (by exact hc) _
  · rfl
  · rfl

/-- What changes when a variable is queued or removed. -/
theorem queueVariableByCounter_ok (h : queueVariableByCounter G s j = .ok t) :
    t.counters = s.counters ∧ t.updates.bounds = s.updates.bounds ∧
      t.updates.activityBounds = s.updates.activityBounds ∧
      ∀ k, k ≠ j → t.updates.isRemoved k = s.updates.isRemoved k := by
  have hr : ∀ (r : List (ℕ × RemovedVariable)) (v : RemovedVariable) (k : ℕ), k ≠ j →
      (r ++ [(j, v)]).any (fun p => decide (p.1 = k)) = r.any fun p => decide (p.1 = k) := by
    intro r v k hk
    simp [hk.symm]
  unfold queueVariableByCounter at h
  rcases hc : s.counters.columns j with _ | _ | n
  · simp only [hc] at h
    by_cases h0 : costOf G j = 0
    · simp only [if_pos h0] at h
      cases hv : feasibleValue (s.updates.variableBound G j .lower)
        (s.updates.variableBound G j .upper) with
      | none => rw [hv] at h; cases h
      | some v =>
        rw [hv] at h
        cases h
        exact ⟨rfl, rfl, rfl, fun k hk => hr _ _ k hk⟩
    · simp only [if_neg h0] at h
      cases hv : optimizeIndependentColumn G.objective (costOf G j) (s.updates.variableBound G j .lower)
        (s.updates.variableBound G j .upper) with
      | error e => rw [hv] at h; cases h
      | ok v =>
        rw [hv] at h
        cases h
        exact ⟨rfl, rfl, rfl, fun k hk => hr _ _ k hk⟩
  · simp only [hc] at h
    by_cases h0 : costOf G j = 0
    · simp only [if_pos h0] at h
      cases h
      exact ⟨rfl, rfl, rfl, fun _ _ => rfl⟩
    · simp only [if_neg h0] at h
      cases h
      exact ⟨rfl, rfl, rfl, fun _ _ => rfl⟩
  · simp only [hc] at h
    cases h
    exact ⟨rfl, rfl, rfl, fun _ _ => rfl⟩

theorem variableBound_congr {u v : Updates} (h1 : v.bounds = u.bounds)
    (h2 : v.activityBounds = u.activityBounds) (k : ℕ) (d : BoundDirection) :
    v.variableBound G k d = u.variableBound G k d := by
  unfold Updates.variableBound
  rw [h1, h2]

theorem queueConstraintByCounterDebug_eq (h : i ∉ s.updates.constraintsRemoved) :
    queueConstraintByCounterDebug G s i = queueConstraintByCounter G s i := by
  unfold queueConstraintByCounterDebug queueConstraintByCounter
  rcases hc : s.counters.constraint i with _ | _ | n
  · simp only
    rw [rhsDebug_eq h, ok_bind, constraintTypeDebug_eq h, ok_bind, removeConstraintDebug_eq hc]
    rfl
  · rfl
  · rfl

theorem queueConstraintByCounter_ok (h : queueConstraintByCounter G s i = .ok t) :
    t.counters = s.counters ∧ (t.updates.constraintsRemoved = s.updates.constraintsRemoved ∨
      s.counters.constraint i = 0 ∧
        t.updates.constraintsRemoved = s.updates.constraintsRemoved ++ [i]) := by
  unfold queueConstraintByCounter at h
  rcases hc : s.counters.constraint i with _ | _ | n
  · simp only [hc] at h
    split at h
    · cases h; exact ⟨rfl, Or.inr ⟨rfl, rfl⟩⟩
    · cases h
  · simp only [hc] at h
    cases h; exact ⟨rfl, Or.inl rfl⟩
  · simp only [hc] at h
    cases h; exact ⟨rfl, Or.inl rfl⟩

/-! ### Rows -/

/-- What holds while the entries of a row are removed, with the variables that are still to come. -/
structure RowLoop (G : GeneralForm) (i : ℕ) (skip : ℕ → Prop) (s : Index) (l : List ℕ) : Prop where
  apart : Apart s.updates
  vars : ∀ k ∈ l, ¬skip k → s.updates.isRemoved k = false ∧ HasValue G s.updates k
  nodup : l.Nodup
  count : s.counters.constraint i = l.length

theorem rowLoop_step {skip : ℕ → Prop} {k : ℕ} {l : List ℕ} (h : RowLoop G i skip s (k :: l))
    (f : Index → ℕ → Run Index) (ok : ∀ r r', f r k = .ok r' → r'.counters = r.counters ∧
      r'.updates.bounds = r.updates.bounds ∧ r'.updates.activityBounds = r.updates.activityBounds ∧
      ∀ k', k' ≠ k → r'.updates.isRemoved k' = r.updates.isRemoved k')
    (ht : (do
      let s ← decrementConstraint s i
      let s ← decrementColumn s k
      f s k) = .ok t) : RowLoop G i skip t l ∧ (∀ k', k' ≠ k → t.counters.columns k' = s.counters.columns k') ∧
        t.counters.columns k + 1 = s.counters.columns k := by
  cases h1 : decrementConstraint s i with
  | error e => rw [h1] at ht; cases ht
  | ok s1 =>
    cases h2 : decrementColumn s1 k with
    | error e => rw [h1, ok_bind, h2] at ht; cases ht
    | ok s2 =>
      rw [h1, ok_bind, h2, ok_bind] at ht
      obtain ⟨k1, k2, k3, k4⟩ := ok _ _ ht
      have hne : s.counters.columns k ≠ 0 := by
        intro hz
        unfold decrementColumn decrement at h2
        rw [decrementConstraint_ok h1] at h2
        simp only [hz, if_true] at h2
        cases h2
      have e2 := decrementColumn_ok h2
      have e1 := decrementConstraint_ok h1
      subst e1
      subst e2
      refine ⟨⟨?_, ?_, (List.nodup_cons.1 h.nodup).2, ?_⟩, ?_, ?_⟩
      · intro j d
        rw [k2, k3]
        exact h.apart j d
      · intro k' hk' hs
        obtain ⟨a, b⟩ := h.vars k' (List.mem_cons_of_mem _ hk') hs
        refine ⟨?_, ?_⟩
        · rw [k4 k' ?_]
          · exact a
          · rintro rfl
            exact (List.nodup_cons.1 h.nodup).1 hk'
        · unfold HasValue
          rw [variableBound_congr k2 k3, variableBound_congr k2 k3]
          exact b
      · rw [k1]
        simp only [insertAt, if_true]
        have := h.count
        rw [List.length_cons] at this
        omega
      · intro k' hk'
        rw [k1]
        simp [insertAt, hk']
      · rw [k1]
        simp only [insertAt, if_true]
        omega

theorem removeConstraintValuesDebug_eq (hi : s.counters.constraint i ≠ 0)
    (h : RowLoop G i (fun _ => False) s ((activeRow G s.counters i).map (·.1))) :
    removeConstraintValuesDebug G s i = removeConstraintValues G s i ∧
      ∀ t, removeConstraintValues G s i = .ok t → t.counters.constraint i = 0 := by
  have key := foldlM_debug (f := fun (s : Index) j => do
      let s ← decrementConstraint s i
      let s ← decrementColumn s j
      queueVariableByCounter G s j)
    (g := fun (s : Index) j => do
      let s ← decrementConstraint s i
      let s ← decrementColumn s j
      queueVariableByCounterDebug G s j) (RowLoop G i fun _ => False) (by
    intro s k l hs
    refine ⟨?_, fun t ht => (rowLoop_step hs (fun s k => queueVariableByCounter G s k)
      (fun r r' hr => queueVariableByCounter_ok hr) ht).1⟩
    cases h1 : decrementConstraint s i with
    | error e => rfl
    | ok s1 =>
      cases h2 : decrementColumn s1 k with
      | error e => rw [ok_bind, ok_bind, h2]; rfl
      | ok s2 =>
        rw [ok_bind, ok_bind, h2, ok_bind, ok_bind]
        have e2 := decrementColumn_ok h2
        have e1 := decrementConstraint_ok h1
        subst e1
        subst e2
        exact queueVariableByCounterDebug_eq hs.apart (hs.vars k (by simp) id)) _ _ h
  have hz : ∀ t, removeConstraintValues G s i = .ok t → t.counters.constraint i = 0 :=
    fun t ht => (key.2 t ht).count
  refine ⟨?_, hz⟩
  unfold removeConstraintValuesDebug
  rw [activeRowDebug_eq hi, ok_bind, key.1]
  cases hr : ((activeRow G s.counters i).map (·.1)).foldlM (fun (s : Index) j => do
      let s ← decrementConstraint s i
      let s ← decrementColumn s j
      queueVariableByCounter G s j) s with
  | error e => exact hr.symm
  | ok t =>
    rw [ok_bind, check_bind (decide_eq_true (hz t hr))]
    exact hr.symm

/-! ### Changes of bounds -/

/-- No activity bound is stored of a row with more than one bound missing. -/
def Stored (G : GeneralForm) (s : Index) : Prop :=
  ∀ i < G.constraintTypes.length, s.counters.constraint i ≠ 0 → ∀ d, s.activityBounds i d ≠ none →
    s.counters.activity i d ≤ 1

theorem stored_of (h : s.Counts G) : Stored G s := by
  intro i hi hi0 d hb
  rw [h.cache i hi hi0 d hb]
  exact Nat.zero_le _

theorem updateActivityBoundDebug_eq (h : Stored G s) (d : BoundDirection) (change : ℚ) (p : ℕ × ℚ)
    (hp : p.1 < G.constraintTypes.length) :
    updateActivityBoundDebug d change s p = .ok (updateActivityBound d change s p) ∧
      Stored G (updateActivityBound d change s p) := by
  constructor
  · unfold updateActivityBoundDebug
    by_cases hc : 0 < s.counters.constraint p.1 ∧ (s.activityBounds p.1 (d.times p.2)).isSome = true
    · rw [if_pos hc]
      rw [check_bind]
      · rfl
      · exact decide_eq_true (h p.1 hp (by omega) _ (by
          intro hn
          rw [hn] at hc
          cases hc.2))
    · rw [if_neg hc]
      rfl
  · unfold updateActivityBound
    by_cases hc : 0 < s.counters.constraint p.1
    · rw [if_pos hc]
      cases hb : s.activityBounds p.1 (d.times p.2) with
      | none =>
        simp only [hb]
        exact h
      | some b =>
        simp only [hb]
        intro i hi hi0 e he
        by_cases hie : i = p.1 ∧ e = d.times p.2
        · obtain ⟨rfl, rfl⟩ := hie
          exact h _ hi hi0 _ (by rw [hb]; simp)
        · exact h i hi hi0 e (by
            simpa only [insertAt2_ne _ _ hie] using he)
    · rw [if_neg hc]
      exact h

theorem updateActivityBounds_foldlM (d : BoundDirection) (change : ℚ) (l : List (ℕ × ℚ)) : ∀ s : Index,
    Stored G s → (∀ p ∈ l, p.1 < G.constraintTypes.length) →
    l.foldlM (updateActivityBoundDebug d change) s = .ok (l.foldl (updateActivityBound d change) s) := by
  induction l with
  | nil => intro s _ _; rfl
  | cons p l ih =>
    intro s hs hl
    obtain ⟨h1, h2⟩ := updateActivityBoundDebug_eq hs d change p (hl p (by simp))
    rw [List.foldlM_cons, h1, ok_bind, List.foldl_cons]
    exact ih _ h2 fun q hq => hl q (by simp [hq])

theorem afterBoundChangeDebug_eq (hG : G.Consistent) (hs : s.Counts G) {v : Updates} {d : BoundDirection}
    {new : ℚ} {change : BoundChange} (h : BoundUpdated G s.updates j d new v change)
    (hr : s.updates.isRemoved j = false) :
    afterBoundChangeDebug G { s with updates := v } j d change =
      afterBoundChange G { s with updates := v } j d change := by
  have hr' : v.isRemoved j = false := by
    unfold Updates.isRemoved
    rw [h.removedVariables]
    exact hr
  have ha : Apart v := apart_of h.disjoint
  have hq : ∀ c : Bool, c = true → (do
      check (!v.isRemoved j)
      check c
      let fixed ← v.isVariableFixedDebug G j
      if fixed.isSome ∧ 0 < s.counters.columns j then
        pure { s with updates := v, queues := { s.queues with substitution := j :: s.queues.substitution } }
      else pure { s with updates := v } : Run Index) =
      .ok (if (v.isVariableFixed G j).isSome ∧ 0 < s.counters.columns j then
        { s with updates := v, queues := { s.queues with substitution := j :: s.queues.substitution } }
      else { s with updates := v }) := by
    intro c hc
    rw [check_bind (by rw [hr']; rfl), check_bind hc, isVariableFixedDebug_eq hr' ha, ok_bind]
    split <;> rfl
  cases change with
  | none => rfl
  | newBound =>
    unfold afterBoundChangeDebug afterBoundChange
    dsimp only
    have := hq true rfl
    rw [this]
    rfl
  | boundShift δ =>
    unfold afterBoundChangeDebug afterBoundChange
    dsimp only
    have ht : tightens δ d = true := by
      obtain ⟨e, _, he, ht⟩ := h.shift δ rfl
      cases d with
      | lower =>
        simp only [tighter, gt_iff_lt, decide_eq_true_eq] at ht
        simp only [tightens, decide_eq_true_eq]
        linarith
      | upper =>
        simp only [tighter, decide_eq_true_eq] at ht
        simp only [tightens, decide_eq_true_eq]
        linarith
    have := hq (tightens δ d) ht
    rw [this, ok_bind]
    unfold updateActivityBoundsDebug updateActivityBounds
    rw [check_bind ht]
    refine updateActivityBounds_foldlM (G := G) d δ _ _ ?_ ?_
    · intro i hi
      have := stored_of hs i hi
      split <;> exact this
    · intro p hp
      have := ((activeColumn_tuples hG _ j).mem p).1 hp
      exact (mem_rowsOf.1 this.1).1

/-! ### Fixed variables -/

theorem changeB_foldlM (value : ℚ) (l : List (ℕ × ℚ)) : ∀ u : Updates,
    (∀ p ∈ l, p.1 ∉ u.constraintsRemoved) →
    l.foldlM (fun u p => u.changeBDebug G p.1 (-p.2 * value)) u =
      .ok (l.foldl (fun u p => u.changeB G p.1 (-p.2 * value)) u) ∧
    (l.foldl (fun u p => u.changeB G p.1 (-p.2 * value)) u).constraintsRemoved = u.constraintsRemoved := by
  induction l with
  | nil => intro u _; exact ⟨rfl, rfl⟩
  | cons p l ih =>
    intro u hu
    rw [List.foldlM_cons, changeBDebug_eq (hu p (by simp)), ok_bind, List.foldl_cons]
    exact ih _ fun q hq => hu q (by simp [hq])

/-- What holds while a fixed variable is removed from its rows. -/
structure ColumnLoop (j : ℕ) (s : Index) (l : List ℕ) : Prop where
  rows : ∀ i ∈ l, i ∉ s.updates.constraintsRemoved
  nodup : l.Nodup
  count : s.counters.columns j = l.length

theorem presolveFixedVariableDebug_eq (hG : G.Consistent) (hs : s.Fit G)
    (hf : (s.updates.isVariableFixed G j).isSome) (hj : j < G.vars.length)
    (hj0 : s.counters.columns j ≠ 0) :
    presolveFixedVariableDebug G s j = presolveFixedVariable G s j := by
  have hr : s.updates.isRemoved j = false :=
    isRemoved_iff.2 (Updates.mem_live.1 (hs.mem_live.2 ⟨hj, hj0⟩)).2
  have ht := activeColumn_tuples hG s.counters j
  have hrow : ∀ i ∈ (activeColumn G s.counters j).map (·.1), i ∉ s.updates.constraintsRemoved := by
    intro i hi
    rw [ht.mem_keys, mem_rowsOf] at hi
    exact (hs.row_active hi.1).2 hi.2.2
  obtain ⟨value, hv⟩ := Option.isSome_iff_exists.1 hf
  unfold presolveFixedVariableDebug presolveFixedVariable
  rw [check_bind (by rw [hr]; rfl), isVariableFixedDebug_eq hr (apart_of hs.disjoint), ok_bind,
    check_bind hf, hv]
  simp only [unwrap, ok_bind]
  obtain ⟨e1, e2⟩ := changeB_foldlM (G := G) value (activeColumn G s.counters j) s.updates
    fun p hp => hrow _ (List.mem_map_of_mem hp)
  rw [e1, ok_bind]
  have key := foldlM_debug (f := fun (s : Index) i => do
      let s ← decrementColumn s j
      let s ← decrementConstraint s i
      queueConstraintByCounter G s i)
    (g := fun (s : Index) i => do
      let s ← decrementColumn s j
      let s ← decrementConstraint s i
      queueConstraintByCounterDebug G s i) (ColumnLoop j) (by
    intro s i l h
    cases h1 : decrementColumn s j with
    | error e => exact ⟨rfl, fun t ht => by cases ht⟩
    | ok s1 =>
      cases h2 : decrementConstraint s1 i with
      | error e =>
        simp only [ok_bind]
        rw [h2]
        exact ⟨rfl, fun t ht => by cases ht⟩
      | ok s2 =>
        simp only [ok_bind]
        rw [h2]
        have d1 := decrementColumn_ok h1
        have d2 := decrementConstraint_ok h2
        subst d1
        subst d2
        refine ⟨queueConstraintByCounterDebug_eq (h.rows i (by simp)), fun t ht => ?_⟩
        obtain ⟨k1, k2⟩ := queueConstraintByCounter_ok ht
        refine ⟨fun k hk => ?_, (List.nodup_cons.1 h.nodup).2, ?_⟩
        · have hk' := h.rows k (List.mem_cons_of_mem _ hk)
          rcases k2 with k2 | ⟨_, k2⟩
          · rw [k2]; exact hk'
          · rw [k2, List.mem_append, List.mem_singleton, not_or]
            refine ⟨hk', ?_⟩
            rintro rfl
            exact (List.nodup_cons.1 h.nodup).1 hk
        · rw [k1]
          simp only [insertAt, if_true]
          have := h.count
          rw [List.length_cons] at this
          omega) ((activeColumn G s.counters j).map (·.1))
    { s with updates := { (activeColumn G s.counters j).foldl
      (fun u p => u.changeB G p.1 (-p.2 * value)) s.updates with
      fixedCost := ((activeColumn G s.counters j).foldl
        (fun u p => u.changeB G p.1 (-p.2 * value)) s.updates).fixedCost + costOf G j * value } }
    ⟨fun i hi => by
      show i ∉ (List.foldl _ _ _ : Updates).constraintsRemoved
      rw [e2]
      exact hrow i hi, ht.nodup, by
      show s.counters.columns j = _
      rw [List.length_map, ht.length]
      exact hs.colCount j hj hj0⟩
  rw [key.1]
  cases hl : ((activeColumn G s.counters j).map (·.1)).foldlM (fun (s : Index) i => do
      let s ← decrementColumn s j
      let s ← decrementConstraint s i
      queueConstraintByCounter G s i) { s with updates := { (activeColumn G s.counters j).foldl
      (fun u p => u.changeB G p.1 (-p.2 * value)) s.updates with
      fixedCost := ((activeColumn G s.counters j).foldl
        (fun u p => u.changeB G p.1 (-p.2 * value)) s.updates).fixedCost + costOf G j * value } } with
  | error e => rfl
  | ok t =>
    rw [ok_bind, ok_bind]
    exact removeVariableDebug_eq (key.2 t hl).count _

/-! ### Bound constraints -/

theorem presolveBoundConstraintDebug_eq (hG : G.Consistent) {rest : List ℕ} (hs : s.Fit G)
    (hi : i < G.constraintTypes.length)
    (h1 : s.counters.constraint i = 1) (hsub : rest ⊆ s.queues.bound)
    (hrest : ∀ k ≠ i, s.counters.constraint k = 1 → k ∈ s.queues.bound → k ∈ rest) :
    presolveBoundConstraintDebug G { s with queues := { s.queues with bound := rest } } i =
      presolveBoundConstraint G { s with queues := { s.queues with bound := rest } } i := by
  obtain ⟨j, hv, hrow⟩ := boundRow hG hs.toCounts hi h1
  have hjm : j ∈ varsOf G s.counters i := by rw [hv]; simp
  have hj := mem_varsOf.1 hjm
  have hgone := boundRowGone_spec hG hs.toCounts hi h1 hv hsub hrest
  have hcounts := hgone.counts hs.toCounts hG hi (by omega)
  have hir : i ∉ s.updates.constraintsRemoved := (hs.row_active hi).2 (by omega)
  have hjr : s.updates.isRemoved j = false :=
    isRemoved_iff.2 (Updates.mem_live.1 (hs.mem_live.2 ⟨hj.1, hj.2.2⟩)).2
  have hj0 : ∀ k ∈ rowsOf G (boundRowGone { s with queues := { s.queues with bound := rest } } i
      j).counters j, (boundRowGone { s with queues := { s.queues with bound := rest } } i
      j).counters.columns j ≠ 0 := by
    intro k hk
    rw [hgone.rowsOf, Finset.mem_erase] at hk
    have := two_le_card hk.2 (mem_rowsOf.2 ⟨hi, hj.2.1, by omega⟩) hk.1
    rw [← hs.colCount j hj.1 hj.2.2] at this
    show insertAt _ _ _ j ≠ 0
    rw [insertAt_same]
    show s.counters.columns j - 1 ≠ 0
    omega
  have key := foldlM_debug (f := fun (s : Index) (p : BoundDirection × ℚ) =>
      afterBoundChange G { s with updates := (s.updates.updateBound G j p.1 p.2).1 } j p.1
        (s.updates.updateBound G j p.1 p.2).2)
    (g := fun (s : Index) (p : BoundDirection × ℚ) => do
      let (u, change) ← s.updates.updateBoundDebug G j p.1 p.2
      afterBoundChangeDebug G { s with updates := u } j p.1 change)
    (fun s _ => s.Counts G ∧ (∀ k ∈ rowsOf G s.counters j, s.counters.columns j ≠ 0) ∧
      s.updates.isRemoved j = false) (by
    intro s p l h
    obtain ⟨hc, h0, hr⟩ := h
    have hb := updateBound_spec (G := G) s.updates j p.1 p.2 hc.disjoint
    obtain ⟨t, e, a⟩ := afterBoundChange_spec hG hc hb hj.1 h0
    refine ⟨?_, fun t' ht' => ?_⟩
    · simp only
      rw [updateBoundDebug_eq hr, ok_bind]
      exact afterBoundChangeDebug_eq hG hc hb hr
    · cases e.symm.trans ht'
      refine ⟨a.counts, fun k hk => ?_, ?_⟩
      · rw [a.columns]
        refine h0 k ?_
        rw [mem_rowsOf] at hk ⊢
        rw [← a.constraint]
        exact hk
      · unfold Updates.isRemoved
        rw [a.updates, hb.removedVariables]
        exact hr)
    (boundsOfConstraint (s.updates.constraintType G i) (s.updates.rhs G i) (coef G i j))
    (boundRowGone { s with queues := { s.queues with bound := rest } } i j) ⟨hcounts, hj0, hjr⟩
  unfold presolveBoundConstraintDebug presolveBoundConstraint
  rw [check_bind (decide_eq_true h1), activeRowDebug_eq (by show s.counters.constraint i ≠ 0; omega),
    ok_bind]
  simp only [hrow, List.head?_cons, unwrap, ok_bind]
  rw [check_bind (by simp), check_bind (decide_eq_true hj.2.2), rhsDebug_eq hir, ok_bind,
    constraintTypeDebug_eq hir, ok_bind]
  have d1 : decrementColumn { s with queues := { s.queues with bound := rest } } j = .ok { s with
      queues := { s.queues with bound := rest }
      counters := { s.counters with
        columns := insertAt s.counters.columns j (s.counters.columns j - 1) } } := by
    unfold decrementColumn
    rw [decrement_eq hj.2.2]
    rfl
  have d2 : decrementConstraint { s with
      queues := { s.queues with bound := rest }
      counters := { s.counters with
        columns := insertAt s.counters.columns j (s.counters.columns j - 1) } } i = .ok { s with
      queues := { s.queues with bound := rest }
      counters := { s.counters with
        columns := insertAt s.counters.columns j (s.counters.columns j - 1)
        constraint := insertAt s.counters.constraint i (s.counters.constraint i - 1) } } := by
    unfold decrementConstraint
    rw [decrement_eq (by show s.counters.constraint i ≠ 0; omega)]
    rfl
  rw [d1, ok_bind, ok_bind, d2, ok_bind, ok_bind, removeConstraintDebug_eq (by
    show insertAt _ _ _ i = 0
    rw [insertAt_same, h1]), ok_bind]
  have e := key.1
  change List.foldlM _ (removeConstraint _ i) _ = List.foldlM _ (removeConstraint _ i) _ at e
  simp only [] at e ⊢
  erw [e]
  cases hl : List.foldlM (fun (s : Index) (p : BoundDirection × ℚ) =>
      afterBoundChange G { s with updates := (s.updates.updateBound G j p.1 p.2).1 } j p.1
        (s.updates.updateBound G j p.1 p.2).2)
    (boundRowGone { s with queues := { s.queues with bound := rest } } i j)
    (boundsOfConstraint (s.updates.constraintType G i) (s.updates.rhs G i) (coef G i j)) with
  | error e => 
    erw [hl]
    rfl
  | ok t =>
    obtain ⟨hc, h0, hr⟩ := key.2 t hl
    erw [hl]
    rw [ok_bind, ok_bind, variableFeasibleValueDebug_eq hr (apart_of hc.disjoint), ok_bind]
    cases hf : feasibleValue (t.updates.variableBound G j .lower)
      (t.updates.variableBound G j .upper) with
    | none => rfl
    | some v =>
      exact queueVariableByCounterDebug_eq (apart_of hc.disjoint) ⟨hr, by
        unfold HasValue
        rw [hf]
        rfl⟩

/-! ### Slack variables -/

theorem removedVariableSolutionDebug_eq (hi : i ∉ s.updates.constraintsRemoved)
    (hi0 : s.counters.constraint i ≠ 0) (c : ℚ) :
    removedVariableSolutionDebug G s i j c = .ok (removedVariableSolution G s i j c) := by
  unfold removedVariableSolutionDebug
  rw [rhsDebug_eq hi, ok_bind, activeRowDebug_eq hi0, ok_bind]
  rfl

theorem activityQueueIfNeeded_ok {d : BoundDirection} {missing : Bool}
    (h : activityQueueIfNeeded s i d missing = .ok t) :
    t.updates = s.updates ∧ t.counters.constraint = s.counters.constraint := by
  unfold activityQueueIfNeeded decrement at h
  cases missing with
  | false =>
    simp only [bind, Except.bind, pure, Except.pure] at h
    simp only [Bool.false_eq_true, if_false] at h
    cases h
    exact ⟨rfl, rfl⟩
  | true =>
    simp only [bind, Except.bind, pure, Except.pure, if_true] at h
    by_cases h0 : s.counters.activity i d = 0
    · simp only [if_pos h0] at h
      cases h
    · simp only [if_neg h0] at h
      split at h <;> cases h <;> exact ⟨rfl, rfl⟩

theorem slackColumnDebug_eq (h1 : s.counters.columns j = 1) (hir : i ∉ s.updates.constraintsRemoved)
    (hi0 : s.counters.constraint i ≠ 0) (h2 : s.counters.constraint i ≠ 1) (removed : RemovedVariable)
    (newType : ConstraintType) (bound : ℚ) :
    (do
      let s' ← decrementColumn s j
      let s' ← removeVariableDebug s' j removed
      let s' ← activityQueueIfNeeded s' i .lower
        (if 0 < coef G i j then (s.updates.variableBound G j .lower).isNone
          else (s.updates.variableBound G j .upper).isNone)
      let s' ← activityQueueIfNeeded s' i .upper
        (if 0 < coef G i j then (s.updates.variableBound G j .upper).isNone
          else (s.updates.variableBound G j .lower).isNone)
      let s' ← decrementConstraint s' i
      let s' ← queueConstraintByCounterDebug G s' i
      let u ← s'.updates.changeBDebug G i (-coef G i j * bound)
      pure { s' with updates := { u with constraints := insertAt u.constraints i (some newType) } } :
      Run Index) =
    (do
      let s' ← decrementColumn s j
      let s' := removeVariable s' j removed
      let s' ← activityQueueIfNeeded s' i .lower
        (s'.updates.variableBound G j (BoundDirection.lower.times (coef G i j))).isNone
      let s' ← activityQueueIfNeeded s' i .upper
        (s'.updates.variableBound G j (BoundDirection.upper.times (coef G i j))).isNone
      let s' ← decrementConstraint s' i
      let s' ← queueConstraintByCounter G s' i
      let u := s'.updates.changeB G i (-coef G i j * bound)
      pure { s' with updates := { u with constraints := insertAt u.constraints i (some newType) } } :
      Run Index) := by
  cases hd : decrementColumn s j with
  | error e => rfl
  | ok s1 =>
    have e1 := decrementColumn_ok hd
    subst e1
    rw [ok_bind, ok_bind, removeVariableDebug_eq (by
      show insertAt _ _ _ j = 0
      rw [insertAt_same, h1]), ok_bind]
    have eL : (if 0 < coef G i j then (s.updates.variableBound G j .lower).isNone
        else (s.updates.variableBound G j .upper).isNone) =
        (s.updates.variableBound G j (BoundDirection.lower.times (coef G i j))).isNone := by
      unfold BoundDirection.times
      split <;> rfl
    have eU : (if 0 < coef G i j then (s.updates.variableBound G j .upper).isNone
        else (s.updates.variableBound G j .lower).isNone) =
        (s.updates.variableBound G j (BoundDirection.upper.times (coef G i j))).isNone := by
      unfold BoundDirection.times
      split <;> rfl
    rw [eL, eU]
    change (activityQueueIfNeeded (removeVariable _ j removed) i .lower _ >>= _) =
      (activityQueueIfNeeded (removeVariable _ j removed) i .lower
        (s.updates.variableBound G j (BoundDirection.lower.times (coef G i j))).isNone >>= _)
    cases ha : activityQueueIfNeeded (removeVariable { s with counters := { s.counters with
        columns := insertAt s.counters.columns j (s.counters.columns j - 1) } } j removed) i .lower
        (s.updates.variableBound G j (BoundDirection.lower.times (coef G i j))).isNone with
    | error e => rfl
    | ok s2 =>
      obtain ⟨u2, c2⟩ := activityQueueIfNeeded_ok ha
      rw [ok_bind, ok_bind]
      have hb2 : s2.updates.variableBound G j (BoundDirection.upper.times (coef G i j)) =
          s.updates.variableBound G j (BoundDirection.upper.times (coef G i j)) := by
        rw [u2]; rfl
      rw [hb2]
      cases hb : activityQueueIfNeeded s2 i .upper
          (s.updates.variableBound G j (BoundDirection.upper.times (coef G i j))).isNone with
      | error e => rfl
      | ok s3 =>
        obtain ⟨u3, c3⟩ := activityQueueIfNeeded_ok hb
        rw [ok_bind, ok_bind]
        cases hd : decrementConstraint s3 i with
        | error e => rfl
        | ok s4 =>
          have e4 := decrementConstraint_ok hd
          have hu4 : s4.updates.constraintsRemoved = s.updates.constraintsRemoved := by
            rw [e4]
            show s3.updates.constraintsRemoved = _
            rw [u3, u2]
            rfl
          have hc4 : s4.counters.constraint i ≠ 0 := by
            have h3 : s3.counters.constraint i = s.counters.constraint i := by
              rw [c3, c2]; rfl
            rw [e4]
            show insertAt _ _ _ i ≠ 0
            rw [insertAt_same, h3]
            have := h2
            have := hi0
            omega
          rw [ok_bind, ok_bind, queueConstraintByCounterDebug_eq (by rw [hu4]; exact hir)]
          cases hq : queueConstraintByCounter G s4 i with
          | error e => rfl
          | ok s5 =>
            rw [ok_bind, ok_bind]
            have hu5 : i ∉ s5.updates.constraintsRemoved := by
              rcases (queueConstraintByCounter_ok hq).2 with h | ⟨h, _⟩
              · rw [h, hu4]; exact hir
              · exact absurd h hc4
            rw [changeBDebug_eq hu5]
            rfl

theorem presolveSlackDebug_eq (hG : G.Consistent) (hs : s.Fit G) (hj : j < G.vars.length)
    (h1 : s.counters.columns j = 1) (hcost : costOf G j = 0)
    (hn : s.updates.isVariableFixed G j = none)
    (h2 : ∀ i < G.constraintTypes.length, s.counters.constraint i ≠ 1) :
    presolveSlackDebug G s j = presolveSlack G s j := by
  obtain ⟨i, hr, hcol⟩ := slackRow hG hs.toCounts hj h1
  have hi := mem_rowsOf.1 (show i ∈ rowsOf G s.counters j by rw [hr]; simp)
  have hir : i ∉ s.updates.constraintsRemoved := (hs.row_active hi.1).2 hi.2.2
  have hjr : s.updates.isRemoved j = false :=
    isRemoved_iff.2 (Updates.mem_live.1 (hs.mem_live.2 ⟨hj, by omega⟩)).2
  have hap := apart_of hs.disjoint
  have ht := activeRow_tuples hG s.counters hi.1
  unfold presolveSlackDebug presolveSlack
  rw [check_bind (decide_eq_true h1), check_bind (by rw [hcol]; rfl), check_bind (decide_eq_true hcost),
    isVariableFixedDebug_eq hjr hap, ok_bind, check_bind (by rw [hn]; rfl), hcol]
  simp only [List.head?_cons, unwrap, ok_bind]
  rw [constraintTypeDebug_eq hir, ok_bind, variableBoundDebug_eq hjr hap, ok_bind,
    variableBoundDebug_eq hjr hap, ok_bind]
  cases hcase : slackCase (s.updates.constraintType G i) (s.updates.variableBound G j .lower)
      (s.updates.variableBound G j .upper) (coef G i j) with
  | none =>
    simp only
    rw [removedVariableSolutionDebug_eq hir hi.2.2, ok_bind, activeRowDebug_eq hi.2.2, ok_bind]
    have hlen : s.counters.constraint i = ((activeRow G s.counters i).map (·.1)).length := by
      rw [List.length_map, ht.length]
      exact hs.rowCount i hi.1 hi.2.2
    have key := foldlM_debug (f := fun (s : Index) k => do
        let s ← decrementConstraint s i
        let s ← decrementColumn s k
        if k ≠ j then queueVariableByCounter G s k else pure s)
      (g := fun (s : Index) k => do
        let s ← decrementConstraint s i
        let s ← decrementColumn s k
        if k ≠ j then queueVariableByCounterDebug G s k else pure s)
      (fun s l => RowLoop G i (fun k => k = j) s l ∧
        s.counters.columns j = (if j ∈ l then 1 else 0)) (by
      intro s k l hs
      obtain ⟨hs, hs1⟩ := hs
      refine ⟨?_, fun t ht => ?_⟩
      · cases h1 : decrementConstraint s i with
        | error e => rfl
        | ok s1 =>
          cases h2 : decrementColumn s1 k with
          | error e => simp only [ok_bind]; rw [h2]; rfl
          | ok s2 =>
            simp only [ok_bind]
            rw [h2]
            have e2 := decrementColumn_ok h2
            have e1 := decrementConstraint_ok h1
            subst e1
            subst e2
            rw [ok_bind, ok_bind]
            by_cases hk : k = j
            · rw [if_neg (not_not.2 hk), if_neg (not_not.2 hk)]
            · rw [if_pos hk, if_pos hk]
              exact queueVariableByCounterDebug_eq hs.apart (hs.vars k (by simp) hk)
      · obtain ⟨a1, a2, a3⟩ := rowLoop_step hs
          (fun s k => if k ≠ j then queueVariableByCounter G s k else pure s) (fun r r' hr => by
            by_cases hk : k = j
            · simp only [if_neg (not_not.2 hk)] at hr
              cases hr
              exact ⟨rfl, rfl, rfl, fun _ _ => rfl⟩
            · simp only [if_pos hk] at hr
              exact queueVariableByCounter_ok hr) ht
        refine ⟨a1, ?_⟩
        by_cases hk : k = j
        · subst hk
          rw [if_pos (by simp)] at hs1
          rw [if_neg (List.nodup_cons.1 hs.nodup).1]
          omega
        · rw [a2 j (Ne.symm hk), hs1]
          have : j ∈ k :: l ↔ j ∈ l := by simp [Ne.symm hk]
          simp only [this])
      ((activeRow G s.counters i).map (·.1)) s ⟨⟨hap, fun k hk _ => by
        rw [ht.mem_keys, mem_varsOf] at hk
        have hl := hs.mem_live.2 ⟨hk.1, hk.2.2⟩
        refine ⟨isRemoved_iff.2 (Updates.mem_live.1 hl).2, ?_⟩
        unfold HasValue
        rw [Option.isSome_iff_ne_none]
        exact feasibleValue_isSome.2 (hs.proper.bounds k hl), ht.nodup, hlen⟩, by
        rw [h1, if_pos]
        rw [ht.mem_keys, mem_varsOf]
        exact ⟨hj, hi.2.1, by omega⟩⟩
    rw [key.1]
    cases hl : ((activeRow G s.counters i).map (·.1)).foldlM (fun (s : Index) k => do
        let s ← decrementConstraint s i
        let s ← decrementColumn s k
        if k ≠ j then queueVariableByCounter G s k else pure s) s with
    | error e => rfl
    | ok t =>
      obtain ⟨k1, k2⟩ := key.2 t hl
      rw [ok_bind, ok_bind, removeVariableDebug_eq (by simpa using k2), ok_bind]
      exact removeConstraintDebug_eq k1.count
  | some q =>
    obtain ⟨newType, bound⟩ := q
    simp only
    have hcol' := fun removed => slackColumnDebug_eq (G := G) (s := s) (i := i) (j := j) h1 hir
      hi.2.2 (h2 i hi.1) removed newType bound
    cases hT : s.updates.constraintType G i <;>
      simp only [slackRemovedDebug, removedVariableSolutionDebug_eq hir hi.2.2, ok_bind, pure_bind] <;>
      exact hcol' _

/-! ### Domain propagation -/

theorem not_removed (hs : s.WF G) (hj : j ∈ varsOf G s.counters i) : s.updates.isRemoved j = false := by
  rw [mem_varsOf] at hj
  exact isRemoved_iff.2 (Updates.mem_live.1 (hs.mem_live.2 ⟨hj.1, hj.2.2⟩)).2

theorem computeActivityBoundDebug_eq (hG : G.Consistent) (hs : s.WF G) (hi : i < G.constraintTypes.length)
    (hi0 : s.counters.constraint i ≠ 0) (d : BoundDirection) :
    computeActivityBoundDebug G s i d = computeActivityBound G s i d := by
  have ht := activeRow_tuples hG s.counters hi
  unfold computeActivityBoundDebug computeActivityBound
  rw [activeRowDebug_eq hi0, ok_bind]
  have : ∀ l : List (ℕ × ℚ), (∀ p ∈ l, p ∈ activeRow G s.counters i) →
      (l.mapM fun p => do
        let bound ← unwrap (← s.updates.variableBoundDebug G p.1 (d.times p.2))
        pure (p.2 * bound) : Run (List ℚ)) = (l.mapM fun p => do
        let bound ← unwrap (s.updates.variableBound G p.1 (d.times p.2))
        pure (p.2 * bound)) := by
    intro l
    induction l with
    | nil => intro _; rfl
    | cons p l ih =>
      intro hl
      rw [List.mapM_cons, List.mapM_cons, ih fun q hq => hl q (by simp [hq]),
        variableBoundDebug_eq (not_removed hs ((ht.mem p).1 (hl p (by simp))).1) (apart_of hs.disjoint),
        ok_bind]
  rw [this _ fun _ h => h]

theorem activityBoundIfNeededDebug_eq (hG : G.Consistent) (hs : s.WF G)
    (hi : i < G.constraintTypes.length) (hi0 : s.counters.constraint i ≠ 0) {d : BoundDirection}
    (h0 : s.counters.activity i d = 0) :
    activityBoundIfNeededDebug G s i d = activityBoundIfNeeded G s i d := by
  unfold activityBoundIfNeededDebug activityBoundIfNeeded
  rw [check_bind (decide_eq_true h0), computeActivityBoundDebug_eq hG hs hi hi0]
  rfl

theorem setVariableToBoundDebug_eq (hs : s.Fit G) (hi : i < G.constraintTypes.length)
    (hi0 : s.counters.constraint i ≠ 0) {d : BoundDirection} (h0 : s.counters.activity i d = 0)
    {done : List ℕ} {new : List (ℕ × BoundDirection)} {p : ℕ × ℚ} (hp : p.1 ∈ varsOf G s.counters i)
    (hc : p.2 = coef G i p.1) (hd : p.1 ∉ done) (h : SetTo G s i d done t new) :
    setVariableToBoundDebug G d (t, new) p = setVariableToBound G d (t, new) p ∧
      ∀ r, setVariableToBound G d (t, new) p = .ok r → SetTo G s i d (done ++ [p.1]) r.1 r.2 := by
  obtain ⟨r, new', e, hr⟩ := setLoop hs hi hi0 h0 [p] done t new (by simp)
    (fun q hq => by
      rw [List.mem_singleton] at hq
      subst hq
      exact ⟨hp, hc, hd⟩) h
  rw [List.foldlM_cons] at e
  have e' : setVariableToBound G d (t, new) p = .ok (r, new') := by
    cases hx : setVariableToBound G d (t, new) p with
    | error x => rw [hx] at e; cases e
    | ok x => rw [hx, ok_bind, List.foldlM_nil] at e; cases e; rfl
  refine ⟨?_, fun q hq => ?_⟩
  · have hrem : s.updates.isRemoved p.1 = false := not_removed hs.toWF hp
    have hrt : t.updates.isRemoved p.1 = false := by
      unfold Updates.isRemoved
      rw [h.removedVariables]
      exact hrem
    rw [e']
    obtain ⟨b, hb⟩ := bound_of_count hs.toCounts hi hi0 h0 hp
    have hbt : t.updates.variableBound G p.1 (d.times p.2) = some b := by
      rw [h.bound, if_neg hd, hc]
      exact hb
    unfold setVariableToBound at e'
    unfold setVariableToBoundDebug
    simp only [hbt, unwrap, ok_bind] at e' ⊢
    rw [variableBoundDebug_eq hrt (apart_of h.disjoint), ok_bind, hbt]
    simp only [ok_bind]
    have tail : ∀ u : Updates, u.isRemoved p.1 = false →
        (pure ({ t with updates := (u.updateBound G p.1 (d.times p.2).flip b).1, queues := { t.queues with
          substitution := p.1 :: t.queues.substitution } },
          if (u.updateBound G p.1 (d.times p.2).flip b).2 = .newBound then
            new ++ [(p.1, (d.times p.2).flip)] else new) : Run _) = .ok (r, new') →
        (do
          let __x ← u.updateBoundDebug G p.1 (d.times p.2).flip b
          let fixed ← __x.1.isVariableFixedDebug G p.1
          check fixed.isSome
          pure ({ t with updates := __x.1, queues := { t.queues with
              substitution := p.1 :: t.queues.substitution } },
            if __x.2 = .newBound then new ++ [(p.1, (d.times p.2).flip)] else new) : Run _) =
          .ok (r, new') := by
      intro u hur e'
      rw [updateBoundDebug_eq hur, ok_bind]
      have e1 : (u.updateBound G p.1 (d.times p.2).flip b).1 = r.updates := by
        cases e'
        rfl
      rw [e1] at e' ⊢
      have hv : r.updates.isRemoved p.1 = false := by
        unfold Updates.isRemoved
        rw [hr.removedVariables]
        exact hrem
      rw [isVariableFixedDebug_eq hv (apart_of hr.disjoint), ok_bind, check_bind]
      · exact e'
      · have hall : ∀ e, r.updates.variableBound G p.1 e = some b := by
          intro e
          have := hr.bound p.1 e
          simp only [List.map_cons, List.map_nil, List.mem_append, List.mem_singleton, or_true,
            if_true] at this
          rw [this]
          exact hb
        rw [Option.isSome_iff_exists]
        exact ⟨b, isVariableFixed_iff.2 ⟨hall _, hall _⟩⟩
    cases hA : t.updates.activityBounds p.1 (d.times p.2) with
    | none =>
      simp only [hA] at e' ⊢
      exact tail _ hrt e'
    | some value =>
      simp only [hA] at e' ⊢
      exact tail _ (by exact hrt) e'
  · cases e'.symm.trans hq
    exact hr

theorem setLoopDebug (hG : G.Consistent) (hs : s.Fit G) (hi : i < G.constraintTypes.length)
    (hi0 : s.counters.constraint i ≠ 0) {d : BoundDirection} (h0 : s.counters.activity i d = 0) :
    (activeRow G s.counters i).foldlM (setVariableToBoundDebug G d) (s, []) =
      (activeRow G s.counters i).foldlM (setVariableToBound G d) (s, []) := by
  have htu := activeRow_tuples hG s.counters hi
  refine (foldlM_debug (fun (q : Index × List (ℕ × BoundDirection)) l => ∃ done,
    SetTo G s i d done q.1 q.2 ∧ (l.map (·.1)).Nodup ∧
      ∀ p ∈ l, p.1 ∈ varsOf G s.counters i ∧ p.2 = coef G i p.1 ∧ p.1 ∉ done) ?_ _ _ ?_).1
  · rintro ⟨t, new⟩ p l ⟨done, h1, h2, h3⟩
    obtain ⟨a1, a2, a3⟩ := h3 p (by simp)
    obtain ⟨b1, b2⟩ := setVariableToBoundDebug_eq hs hi hi0 h0 a1 a2 a3 h1
    refine ⟨b1, fun r hr => ⟨_, b2 r hr, ?_, fun q hq => ?_⟩⟩
    · rw [List.map_cons, List.nodup_cons] at h2
      exact h2.2
    · obtain ⟨c1, c2, c3⟩ := h3 q (by simp [hq])
      refine ⟨c1, c2, ?_⟩
      rw [List.mem_append, List.mem_singleton, not_or]
      refine ⟨c3, fun he => ?_⟩
      rw [List.map_cons, List.nodup_cons] at h2
      exact h2.1 (he ▸ List.mem_map_of_mem hq)
  · exact ⟨[], ⟨rfl, rfl, rfl, rfl, rfl, fun _ h => Or.inl h, rfl, rfl, rfl, rfl, rfl, hs.disjoint, by simp,
      by simp, by simp⟩, htu.nodup, fun p hp => ⟨((htu.mem p).1 hp).1, ((htu.mem p).1 hp).2, by simp⟩⟩

theorem variableRuleRhsDebug_eq (hi : i ∉ s.updates.constraintsRemoved) (d : BoundDirection) :
    variableRuleRhsDebug G s i d = .ok (variableRuleRhs G s i d) := by
  unfold variableRuleRhsDebug
  rw [rhsDebug_eq hi, ok_bind, constraintTypeDebug_eq hi, ok_bind]
  rfl

theorem variablePartDebug_eq (hG : G.Consistent) (hs : s.WF G) (hi : i < G.constraintTypes.length)
    (hi0 : s.counters.constraint i ≠ 0) (rhs L : ℚ) (d : BoundDirection) (change : Change) :
    variablePartDebug G s i rhs L d change = variablePart G s i rhs L d change := by
  have ht := activeRow_tuples hG s.counters hi
  unfold variablePartDebug variablePart
  rw [activeRowDebug_eq hi0, ok_bind]
  refine (foldlM_debug (fun (q : Index × Change) (l : List (ℕ × ℚ)) => q.1.Counts G ∧
    q.1.counters.columns = s.counters.columns ∧ (∀ p ∈ l, p.1 ∈ varsOf G s.counters i) ∧
    q.1.updates.removedVariables = s.updates.removedVariables) ?_ _ _ ?_).1
  · rintro ⟨t, c⟩ p l ⟨h1, h2, h3, h4⟩
    have hp := h3 p (by simp)
    have hp' := mem_varsOf.1 hp
    have hr : t.updates.isRemoved p.1 = false := by
      unfold Updates.isRemoved
      rw [h4]
      exact not_removed hs hp
    have hcol : t.counters.columns p.1 ≠ 0 := by
      have : t.counters.columns = s.counters.columns := h2
      rw [this]; exact hp'.2.2
    unfold variableStepDebug variableStep
    simp only
    rw [variableBoundDebug_eq hr (apart_of h1.disjoint), ok_bind]
    cases hb : t.updates.variableBound G p.1 (d.times p.2) with
    | none => exact ⟨rfl, fun r hr => by cases hr⟩
    | some b =>
      simp only [unwrap, ok_bind]
      rw [updateActivityVariableBoundDebug_eq hr, ok_bind]
      have hbu := updateActivityVariableBound_spec (G := G) t.updates p.1 (d.flip.times p.2)
        ((rhs - (L - p.2 * b)) / p.2) h1.disjoint
      obtain ⟨t', e, a⟩ := afterBoundChange_spec hG h1 hbu hp'.1 fun _ _ => hcol
      rw [afterBoundChangeDebug_eq hG h1 hbu hr]
      refine ⟨rfl, fun r hr => ?_⟩
      rw [e, ok_bind] at hr
      cases hr
      refine ⟨a.counts, a.columns.trans h2, fun q hq => h3 q (by simp [hq]), ?_⟩
      show t'.updates.removedVariables = _
      rw [a.updates, hbu.removedVariables]
      exact h4
  · exact ⟨hs.toCounts, rfl, fun p hp => ((ht.mem p).1 hp).1, rfl⟩

theorem removeRowDebug_eq (hG : G.Consistent) (hs : s.Fit G) (hi : i < G.constraintTypes.length)
    (hi0 : s.counters.constraint i ≠ 0) :
    (do
      let s ← removeConstraintValuesDebug G s i
      removeConstraintDebug s i) = (do
      let s ← removeConstraintValues G s i
      pure (removeConstraint s i)) := by
  have ht := activeRow_tuples hG s.counters hi
  obtain ⟨h1, h2⟩ := removeConstraintValuesDebug_eq (G := G) hi0 ⟨apart_of hs.disjoint, fun k hk _ => by
    rw [ht.mem_keys] at hk
    refine ⟨not_removed hs.toWF hk, ?_⟩
    rw [mem_varsOf] at hk
    unfold HasValue
    rw [Option.isSome_iff_ne_none]
    exact feasibleValue_isSome.2 (hs.proper.bounds k (hs.mem_live.2 ⟨hk.1, hk.2.2⟩)), ht.nodup, by
    rw [List.length_map, ht.length]
    exact hs.rowCount i hi hi0⟩
  rw [h1]
  cases hr : removeConstraintValues G s i with
  | error e => rfl
  | ok t => exact removeConstraintDebug_eq (h2 t hr)

theorem forEntireConstraintDebug_eq (hG : G.Consistent) (hs : s.Fit G)
    (hi : i < G.constraintTypes.length) (hi0 : s.counters.constraint i ≠ 0) {d : BoundDirection}
    (h0 : s.counters.activity i d = 0) (ha : AccurateAt G s i d) :
    forEntireConstraintDebug G s i d = forEntireConstraint G s i d := by
  have hir : i ∉ s.updates.constraintsRemoved := (hs.row_active hi).2 hi0
  unfold forEntireConstraintDebug forEntireConstraint
  rw [check_bind (decide_eq_true h0), activityBoundIfNeededDebug_eq hG hs.toWF hi hi0 h0,
    activityBoundIfNeeded_eq hG hs.toCounts hi hi0 h0 ha, ok_bind, ok_bind]
  have hs' := fit_store hs h0 (activityAt G s i d)
  have hL : activityAt G { s with activityBounds :=
      (insertAt2 s.activityBounds i d (some (activityAt G s i d))) } i d = activityAt G s i d := rfl
  revert hs' hL
  generalize activityAt G s i d = L
  generalize hq : ({ s with activityBounds := insertAt2 s.activityBounds i d (some L) } : Index) = q
  intro hs' hL
  have hqi : q.counters.constraint i ≠ 0 := by rw [← hq]; exact hi0
  have hq0 : q.counters.activity i d = 0 := by rw [← hq]; exact h0
  have hqr : i ∉ q.updates.constraintsRemoved := (hs'.row_active hi).2 hqi
  have hspec := constraintUpdate_spec (d := d) (t := q.updates.constraintType G i)
    (rhs := q.updates.rhs G i) (L := L) fun r hr => hs'.proper.ranges i hi hqr r hr
  simp only
  unfold constraintPartDebug constraintPart
  rw [rhsDebug_eq hqr, ok_bind, constraintTypeDebug_eq hqr, ok_bind]
  have hremove : ∀ {t : Index} {c : Change}, t.Fit G → t.counters.constraint i ≠ 0 →
      (do
        let s ← removeConstraintValuesDebug G t i
        let s ← removeConstraintDebug s i
        pure (s, c) : Run (Index × Change)) = (do
        let s ← removeConstraintValues G t i
        pure (removeConstraint s i, c)) := by
    intro t c ht ht0
    have := removeRowDebug_eq hG ht hi ht0
    have h2 := congrArg (fun r : Run Index => r >>= fun s => (pure (s, c) : Run (Index × Change))) this
    simp only [bind_assoc, pure_bind] at h2
    exact h2
  cases hU : constraintUpdate d (q.updates.constraintType G i) (q.updates.rhs G i) L with
  | error e => rfl
  | ok w =>
    rw [hU] at hspec
    rw [ok_bind, ok_bind]
    cases w with
    | none =>
      simp only [pure_bind, if_true]
      rw [variableRuleRhsDebug_eq hqr, ok_bind]
      cases variableRuleRhs G q i d with
      | none => rfl
      | some ρ =>
        simp only
        rw [variablePartDebug_eq hG hs'.toWF hi hqi]
        rfl
    | some w =>
      cases w with
      | remove =>
        simp only [pure_bind, if_true]
        rw [variableRuleRhsDebug_eq hqr, ok_bind, variableRuleRhs_eq, hspec.1]
        simp only [pure_bind]
        exact hremove hs' hqi
      | replace T shift =>
        simp only
        rw [changeBDebug_eq (G := G) (by exact hqr), ok_bind]
        simp only [pure_bind, if_true]
        rw [variableRuleRhsDebug_eq (by exact hqr), ok_bind]
        have hwf : Index.WF G { q with updates := Updates.changeB G { q.updates with
            constraints := insertAt q.updates.constraints i (some T) } i shift } :=
          ⟨Counts_of hs'.toCounts rfl rfl rfl rfl rfl rfl (fun k hk => Or.inl hk) rfl,
            Removal_of hs'.toRemoval rfl rfl rfl rfl⟩
        cases variableRuleRhs G { q with updates := Updates.changeB G { q.updates with
            constraints := insertAt q.updates.constraints i (some T) } i shift } i d with
        | none => rfl
        | some ρ =>
          simp only
          rw [variablePartDebug_eq hG hwf hi hqi]
          rfl
      | setVariablesToBound =>
        simp only
        obtain ⟨r, new, t, e1, e2, hn, _⟩ := setVariables hG hs' hi hqi hq0 (by
          rw [hL]
          exact hspec)
        rw [activeRowDebug_eq hqi, ok_bind, setLoopDebug hG hs' hi hqi hq0, e1]
        simp only [ok_bind, e2]
        simp only [pure_bind, Bool.false_eq_true, if_false, if_true]
        exact hremove hn.fit (by rw [hn.constraint]; exact hqi)

theorem createVariableBoundDebug_eq (hG : G.Consistent) (hs : s.Fit G)
    (hi : i < G.constraintTypes.length) (hi0 : s.counters.constraint i ≠ 0) {d : BoundDirection}
    (h1 : s.counters.activity i d = 1) :
    createVariableBoundDebug G s i d = createVariableBound G s i d := by
  have hir : i ∉ s.updates.constraintsRemoved := (hs.row_active hi).2 hi0
  have ht := activeRow_tuples hG s.counters hi
  unfold createVariableBoundDebug createVariableBound
  rw [check_bind (decide_eq_true h1), variableRuleRhsDebug_eq hir, ok_bind]
  cases variableRuleRhs G s i d with
  | none => rfl
  | some rhs =>
    simp only
    rw [activeRowDebug_eq hi0, ok_bind, mapM_ok (g := fun p =>
      (s.updates.variableBound G p.1 (d.times p.2)).map fun bound => p.2 * bound)]
    · rw [ok_bind]
      have hsum : ((activeRow G s.counters i).map fun p =>
          (s.updates.variableBound G p.1 (d.times p.2)).map fun bound => p.2 * bound).filterMap id =
          (activeRow G s.counters i).filterMap fun p =>
            (s.updates.variableBound G p.1 (d.times p.2)).map fun bound => p.2 * bound := by
        rw [List.filterMap_map]
        rfl
      rw [hsum]
      cases hf : (activeRow G s.counters i).find? fun p =>
          (s.updates.variableBound G p.1 (d.times p.2)).isNone with
      | none => rfl
      | some p =>
        obtain ⟨j, c⟩ := p
        have hj := ((ht.mem _).1 (List.mem_of_find?_eq_some hf)).1
        simp only [unwrap, ok_bind]
        rw [updateActivityVariableBoundDebug_eq (not_removed hs.toWF hj), ok_bind]
        simp only
        rw [afterBoundChangeDebug_eq hG hs.toCounts
          (updateActivityVariableBound_spec (G := G) s.updates j _ _ hs.disjoint)
          (not_removed hs.toWF hj)]
        rfl
    · intro p hp
      rw [variableBoundDebug_eq (not_removed hs.toWF ((ht.mem p).1 hp).1) (apart_of hs.disjoint), ok_bind]
      rfl

theorem presolveDomainPropagationDebug_eq (hG : G.Consistent) (hs : s.Fit G)
    (hi : i < G.constraintTypes.length) (hi0 : s.counters.constraint i ≠ 0) {d : BoundDirection}
    (ha : s.counters.activity i d = 0 → AccurateAt G s i d) :
    presolveDomainPropagationDebug G s i d = presolveDomainPropagation G s i d := by
  have ht := activeRow_tuples hG s.counters hi
  unfold presolveDomainPropagationDebug presolveDomainPropagation
  rw [activeRowDebug_eq hi0, ok_bind, mapM_ok (g := fun p => s.updates.variableBound G p.1 (d.times p.2))]
  · rw [ok_bind, check_bind]
    · rcases h : s.counters.activity i d with _ | _ | n
      · exact forEntireConstraintDebug_eq hG hs hi hi0 h (ha h)
      · exact createVariableBoundDebug_eq hG hs hi hi0 h
      · rfl
    · refine decide_eq_true ?_
      rw [List.countP_map, List.countP_eq_length_filter, hs.activity i hi hi0 d]
      have := (ht.filter fun p => (s.updates.variableBound G p.1 (d.times p.2)).isNone).length
      refine Eq.trans ?_ (this.trans ?_)
      · rfl
      · unfold missing
        congr 1
        apply Finset.filter_congr
        intro k hk
        simp
  · intro p hp
    exact variableBoundDebug_eq (not_removed hs.toWF ((ht.mem p).1 hp).1) (apart_of hs.disjoint) _

end

end Presolve

end Relp
