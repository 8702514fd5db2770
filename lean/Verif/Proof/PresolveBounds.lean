import Verif.Proof.PresolveWF

/-!
# Changes of bounds, and what follows from them for counters and queues
-/

namespace Relp

open Finset

namespace Presolve

variable {G : GeneralForm}

/-! ### Bounds -/

/-- The bound of a variable in a direction is combined with a new one. -/
structure BoundUpdated (G : GeneralForm) (u : Updates) (j : ℕ) (d : BoundDirection) (new : ℚ)
    (v : Updates) (change : BoundChange) : Prop where
  b : v.b = u.b
  constraints : v.constraints = u.constraints
  fixedCost : v.fixedCost = u.fixedCost
  removedVariables : v.removedVariables = u.removedVariables
  constraintsRemoved : v.constraintsRemoved = u.constraintsRemoved
  other : ∀ k e, ¬(k = j ∧ e = d) → v.variableBound G k e = u.variableBound G k e
  disjoint : ∀ k e, Separated G k e (v.bounds k e) (v.activityBounds k e)
  isSome : v.variableBound G j d ≠ none
  respects : ∀ x, d.Respects (v.variableBound G j d) x ↔
    d.Respects (u.variableBound G j d) x ∧ d.Respects (some new) x
  newBound : change = .newBound ↔ u.variableBound G j d = none
  unchanged : change = .none → v = u ∨ ∃ e, u.bounds j d = none ∧ u.activityBounds j d = some e ∧
    v = { u with activityBounds := insertAt2 u.activityBounds j d none
                 bounds := insertAt2 u.bounds j d (some e) }
  value : v.variableBound G j d = if change = .none then u.variableBound G j d else some new
  shift : ∀ δ, change = .boundShift δ → ∃ e, u.variableBound G j d = some e ∧ δ = new - e ∧
    tighter d new e = true
  tighter : change = .none → ∃ e, u.variableBound G j d = some e ∧ ¬tighter d new e = true

theorem respects_tighter {d : BoundDirection} {new e : ℚ} (h : tighter d new e = true) (x : ℚ) :
    d.Respects (some new) x ↔ d.Respects (some e) x ∧ d.Respects (some new) x := by
  cases d
  · simp only [tighter, gt_iff_lt, decide_eq_true_eq] at h
    simp only [BoundDirection.Respects]
    constructor
    · intro h'; exact ⟨by linarith, h'⟩
    · exact fun h' => h'.2
  · simp only [tighter, gt_iff_lt, decide_eq_true_eq] at h
    simp only [BoundDirection.Respects]
    constructor
    · intro h'; exact ⟨by linarith, h'⟩
    · exact fun h' => h'.2

theorem respects_not_tighter {d : BoundDirection} {new e : ℚ} (h : ¬tighter d new e = true) (x : ℚ) :
    d.Respects (some e) x ↔ d.Respects (some e) x ∧ d.Respects (some new) x := by
  cases d
  · simp only [tighter, gt_iff_lt, decide_eq_true_eq, not_lt] at h
    simp only [BoundDirection.Respects]
    constructor
    · intro h'; exact ⟨h', by linarith⟩
    · exact fun h' => h'.1
  · simp only [tighter, gt_iff_lt, decide_eq_true_eq, not_lt] at h
    simp only [BoundDirection.Respects]
    constructor
    · intro h'; exact ⟨h', by linarith⟩
    · exact fun h' => h'.1

theorem respects_of_tighter {d : BoundDirection} {new e b : ℚ} (h : tighter d new e = true)
    (h' : d.Respects (some b) e) : d.Respects (some b) new := by
  cases d
  · simp only [tighter, gt_iff_lt, decide_eq_true_eq] at h
    exact le_trans (α := ℚ) h' h.le
  · simp only [tighter, decide_eq_true_eq] at h
    exact le_trans (α := ℚ) h.le h'

theorem Separated.of_none {j : ℕ} {d : BoundDirection} {certain derived : Option ℚ}
    (h : derived = none) : Separated G j d certain derived :=
  ⟨Or.inr h, fun a ha => by rw [h] at ha; cases ha⟩

theorem Separated.set {j : ℕ} {d : BoundDirection} {certain derived : Option ℚ} {new : ℚ}
    (h : certain = none) (h' : derived = some new)
    (hb : ∀ b ∈ originalBound G j d, d.Respects (some b) new) : Separated G j d certain derived :=
  ⟨Or.inl h, fun a ha b hb' => by rw [h'] at ha; cases ha; exact hb b hb'⟩

/-- The stored bounds: certain, derived. -/
theorem variableBound_of_bounds {u : Updates} {j : ℕ} {d : BoundDirection} {e : ℚ}
    (h : u.bounds j d = some e) (h' : u.activityBounds j d = none) : u.variableBound G j d = some e := by
  unfold Updates.variableBound
  rw [h, h']
  rfl

theorem variableBound_of_activity {u : Updates} {j : ℕ} {d : BoundDirection} {e : ℚ}
    (h : u.activityBounds j d = some e) : u.variableBound G j d = some e := by
  unfold Updates.variableBound
  rw [h]
  rfl

theorem variableBound_of_original {u : Updates} {j : ℕ} {d : BoundDirection}
    (h : u.bounds j d = none) (h' : u.activityBounds j d = none) :
    u.variableBound G j d = originalBound G j d := by
  unfold Updates.variableBound
  rw [h, h']
  rfl

/-- One entry of the certain or the derived bounds is set. -/
theorem boundUpdated_of {u v : Updates} {j : ℕ} {d : BoundDirection} {new : ℚ} {change : BoundChange}
    (hb : v.b = u.b) (hc : v.constraints = u.constraints) (hf : v.fixedCost = u.fixedCost)
    (hr : v.removedVariables = u.removedVariables) (hcr : v.constraintsRemoved = u.constraintsRemoved)
    (hbounds : ∀ k e, ¬(k = j ∧ e = d) → v.bounds k e = u.bounds k e)
    (hact : ∀ k e, ¬(k = j ∧ e = d) → v.activityBounds k e = u.activityBounds k e)
    (hd : ∀ k e, Separated G k e (u.bounds k e) (u.activityBounds k e))
    (hd' : Separated G j d (v.bounds j d) (v.activityBounds j d))
    (hval : (change = .newBound ∧ u.variableBound G j d = none ∧ v.variableBound G j d = some new) ∨
      ∃ e, u.variableBound G j d = some e ∧
        ((tighter d new e = true ∧ change = .boundShift (new - e) ∧ v.variableBound G j d = some new) ∨
        (¬tighter d new e = true ∧ change = .none ∧ v.variableBound G j d = some e ∧
          (v = u ∨ ∃ e, u.bounds j d = none ∧ u.activityBounds j d = some e ∧
            v = { u with activityBounds := insertAt2 u.activityBounds j d none
                         bounds := insertAt2 u.bounds j d (some e) })))) :
    BoundUpdated G u j d new v change where
  b := hb
  constraints := hc
  fixedCost := hf
  removedVariables := hr
  constraintsRemoved := hcr
  other k e h := by
    unfold Updates.variableBound
    rw [hbounds k e h, hact k e h]
  disjoint k e := by
    by_cases h : k = j ∧ e = d
    · rw [h.1, h.2]; exact hd'
    · rw [hbounds k e h, hact k e h]; exact hd k e
  isSome := by
    rcases hval with ⟨_, _, h⟩ | ⟨e, _, ⟨_, _, h⟩ | ⟨_, _, h, _⟩⟩ <;> rw [h] <;> simp
  respects x := by
    rcases hval with ⟨_, h1, h⟩ | ⟨e, h1, ⟨h2, _, h⟩ | ⟨h2, _, h, _⟩⟩
    · rw [h1, h]
      cases d <;> simp [BoundDirection.Respects]
    · rw [h1, h]; exact respects_tighter h2 x
    · rw [h1, h]; exact respects_not_tighter h2 x
  newBound := by
    rcases hval with ⟨h1, h2, _⟩ | ⟨e, h1, ⟨_, h2, _⟩ | ⟨_, h2, _, _⟩⟩
    · simp [h1, h2]
    · simp [h1, h2]
    · simp [h1, h2]
  unchanged h := by
    rcases hval with ⟨h1, h2, _⟩ | ⟨e, h1, ⟨_, h2, _⟩ | ⟨_, h2, _, h3⟩⟩
    · rw [h] at h1; cases h1
    · rw [h] at h2; cases h2
    · exact h3
  value := by
    rcases hval with ⟨h1, _, h⟩ | ⟨e, h1, ⟨_, h2, h⟩ | ⟨_, h2, h, _⟩⟩
    · rw [h1, h]; rfl
    · rw [h2, h]; rfl
    · rw [h2, h, h1]; rfl
  shift δ h := by
    rcases hval with ⟨h1, _, _⟩ | ⟨e, h1, ⟨h3, h2, _⟩ | ⟨_, h2, _, _⟩⟩
    · rw [h] at h1; cases h1
    · rw [h] at h2; cases h2; exact ⟨e, h1, rfl, h3⟩
    · rw [h] at h2; cases h2
  tighter h := by
    rcases hval with ⟨h1, _, _⟩ | ⟨e, h1, ⟨h3, h2, _⟩ | ⟨h3, h2, _, _⟩⟩
    · rw [h] at h1; cases h1
    · rw [h] at h2; cases h2
    · exact ⟨e, h1, h3⟩

theorem updateBound_spec (u : Updates) (j : ℕ) (d : BoundDirection) (new : ℚ)
    (hd : ∀ k e, Separated G k e (u.bounds k e) (u.activityBounds k e)) :
    BoundUpdated G u j d new (u.updateBound G j d new).1 (u.updateBound G j d new).2 := by
  have h2 : ∀ (f : ℕ → BoundDirection → Option ℚ) c k e, ¬(k = j ∧ e = d) →
      insertAt2 f j d c k e = f k e := fun f c k e h => insertAt2_ne f c h
  unfold Updates.updateBound
  simp only
  cases hb : u.bounds j d with
  | some e =>
    have ha : u.activityBounds j d = none := (hd j d).1.resolve_left (by rw [hb]; simp)
    have hu : u.variableBound G j d = some e := variableBound_of_bounds hb ha
    simp only
    by_cases ht : tighter d new e = true
    · simp only [ht, if_true]
      refine boundUpdated_of rfl rfl rfl rfl rfl (fun k e' h => h2 _ _ k e' h) (fun _ _ _ => rfl) hd
        (.of_none ha) (Or.inr ⟨e, hu, Or.inl ⟨ht, rfl, ?_⟩⟩)
      exact variableBound_of_bounds (insertAt2_same _ _ _ _) ha
    · simp only [ht, if_false]
      exact boundUpdated_of rfl rfl rfl rfl rfl (fun _ _ _ => rfl) (fun _ _ _ => rfl) hd
        (hd j d) (Or.inr ⟨e, hu, Or.inr ⟨ht, rfl, hu, Or.inl rfl⟩⟩)
  | none =>
    simp only
    cases ha : u.activityBounds j d with
    | some e =>
      have hu : u.variableBound G j d = some e := variableBound_of_activity ha
      simp only
      by_cases ht : tighter d new e = true
      · simp only [ht, if_true]
        refine boundUpdated_of rfl rfl rfl rfl rfl (fun k e' h => ?_)
          (fun k e' h => h2 _ _ k e' h) hd
          (.of_none (insertAt2_same _ _ _ _)) (Or.inr ⟨e, hu, Or.inl ⟨ht, rfl, ?_⟩⟩)
        · exact (h2 _ _ k e' h).trans (h2 _ _ k e' h)
        · exact variableBound_of_bounds (insertAt2_same _ _ _ _) (insertAt2_same _ _ _ _)
      · simp only [ht, if_false]
        refine boundUpdated_of rfl rfl rfl rfl rfl (fun k e' h => h2 _ _ k e' h)
          (fun k e' h => h2 _ _ k e' h) hd
          (.of_none (insertAt2_same _ _ _ _)) (Or.inr ⟨e, hu, Or.inr ⟨ht, rfl, ?_, Or.inr ⟨e, hb, ha, rfl⟩⟩⟩)
        exact variableBound_of_bounds (insertAt2_same _ _ _ _) (insertAt2_same _ _ _ _)
    | none =>
      have hu : u.variableBound G j d = originalBound G j d := variableBound_of_original hb ha
      simp only
      cases ho : originalBound G j d with
      | some e =>
        rw [ho] at hu
        simp only
        by_cases ht : tighter d new e = true
        · simp only [ht, if_true]
          refine boundUpdated_of rfl rfl rfl rfl rfl (fun k e' h => h2 _ _ k e' h) (fun _ _ _ => rfl) hd
            (.of_none ha) (Or.inr ⟨e, hu, Or.inl ⟨ht, rfl, ?_⟩⟩)
          exact variableBound_of_bounds (insertAt2_same _ _ _ _) ha
        · simp only [ht, if_false]
          exact boundUpdated_of rfl rfl rfl rfl rfl (fun _ _ _ => rfl) (fun _ _ _ => rfl) hd
            (hd j d) (Or.inr ⟨e, hu, Or.inr ⟨ht, rfl, hu, Or.inl rfl⟩⟩)
      | none =>
        rw [ho] at hu
        refine boundUpdated_of rfl rfl rfl rfl rfl (fun k e' h => h2 _ _ k e' h) (fun _ _ _ => rfl) hd
          (.of_none ha) (Or.inl ⟨rfl, hu, ?_⟩)
        exact variableBound_of_bounds (insertAt2_same _ _ _ _) ha

theorem updateActivityVariableBound_spec (u : Updates) (j : ℕ) (d : BoundDirection) (new : ℚ)
    (hd : ∀ k e, Separated G k e (u.bounds k e) (u.activityBounds k e)) :
    BoundUpdated G u j d new (u.updateActivityVariableBound G j d new).1
      (u.updateActivityVariableBound G j d new).2 := by
  have h2 : ∀ (f : ℕ → BoundDirection → Option ℚ) c k e, ¬(k = j ∧ e = d) →
      insertAt2 f j d c k e = f k e := fun f c k e h => insertAt2_ne f c h
  unfold Updates.updateActivityVariableBound
  cases ha : u.activityBounds j d with
  | some e =>
    have hb : u.bounds j d = none := (hd j d).1.resolve_right (by rw [ha]; simp)
    have hu : u.variableBound G j d = some e := variableBound_of_activity ha
    simp only
    by_cases ht : tighter d new e = true
    · simp only [ht, if_true]
      refine boundUpdated_of rfl rfl rfl rfl rfl (fun _ _ _ => rfl) (fun k e' h => h2 _ _ k e' h) hd
        (.set hb (insertAt2_same _ _ _ _) fun b hb' => respects_of_tighter ht ((hd j d).2 e ha b hb'))
        (Or.inr ⟨e, hu, Or.inl ⟨ht, rfl, ?_⟩⟩)
      exact variableBound_of_activity (insertAt2_same _ _ _ _)
    · simp only [ht, if_false]
      exact boundUpdated_of rfl rfl rfl rfl rfl (fun _ _ _ => rfl) (fun _ _ _ => rfl) hd
        (hd j d) (Or.inr ⟨e, hu, Or.inr ⟨ht, rfl, hu, Or.inl rfl⟩⟩)
  | none =>
    simp only
    cases hb : u.bounds j d with
    | some e =>
      have hu : u.variableBound G j d = some e := variableBound_of_bounds hb ha
      simp only
      by_cases ht : tighter d new e = true
      · simp only [ht, if_true]
        refine boundUpdated_of rfl rfl rfl rfl rfl (fun k e' h => h2 _ _ k e' h) (fun _ _ _ => rfl) hd
          (.of_none ha) (Or.inr ⟨e, hu, Or.inl ⟨ht, rfl, ?_⟩⟩)
        exact variableBound_of_bounds (insertAt2_same _ _ _ _) ha
      · simp only [ht, if_false]
        exact boundUpdated_of rfl rfl rfl rfl rfl (fun _ _ _ => rfl) (fun _ _ _ => rfl) hd
          (hd j d) (Or.inr ⟨e, hu, Or.inr ⟨ht, rfl, hu, Or.inl rfl⟩⟩)
    | none =>
      have hu : u.variableBound G j d = originalBound G j d := variableBound_of_original hb ha
      simp only
      cases ho : originalBound G j d with
      | some e =>
        rw [ho] at hu
        simp only
        by_cases ht : tighter d new e = true
        · simp only [ht, if_true]
          refine boundUpdated_of rfl rfl rfl rfl rfl (fun _ _ _ => rfl)
            (fun k e' h => h2 _ _ k e' h) hd
            (.set hb (insertAt2_same _ _ _ _) fun b hb' => by
              rw [ho] at hb'
              cases hb'
              exact ((respects_tighter ht new).1 (by cases d <;> exact le_refl (α := ℚ) new)).1)
            (Or.inr ⟨e, hu, Or.inl ⟨ht, rfl, ?_⟩⟩)
          exact variableBound_of_activity (insertAt2_same _ _ _ _)
        · simp only [ht, if_false]
          exact boundUpdated_of rfl rfl rfl rfl rfl (fun _ _ _ => rfl) (fun _ _ _ => rfl) hd
            (hd j d) (Or.inr ⟨e, hu, Or.inr ⟨ht, rfl, hu, Or.inl rfl⟩⟩)
      | none =>
        rw [ho] at hu
        refine boundUpdated_of rfl rfl rfl rfl rfl (fun _ _ _ => rfl) (fun k e' h => h2 _ _ k e' h) hd
          (.set hb (insertAt2_same _ _ _ _) fun b hb' => by rw [ho] at hb'; cases hb')
          (Or.inl ⟨rfl, hu, ?_⟩)
        exact variableBound_of_activity (insertAt2_same _ _ _ _)

/-! ### Counters of missing bounds -/

theorem mem_pushFifo {q : List (ℕ × BoundDirection)} {a p : ℕ × BoundDirection} :
    p ∈ pushFifo q a ↔ p ∈ q ∨ p = a := by
  unfold pushFifo
  split
  · rename_i h
    constructor
    · exact Or.inl
    · rintro (h' | rfl)
      · exact h'
      · exact h
  · simp

/-- Only counters of missing bounds and the queue of rows to propagate have changed. -/
structure CountersChanged (s t : Index) (l : List (ℕ × ℚ)) (d : BoundDirection) : Prop where
  updates : t.updates = s.updates
  cache : t.activityBounds = s.activityBounds
  columns : t.counters.columns = s.counters.columns
  constraint : t.counters.constraint = s.counters.constraint
  substitution : t.queues.substitution = s.queues.substitution
  bound : t.queues.bound = s.queues.bound
  slack : t.queues.slack = s.queues.slack
  activity : ∀ i e, t.counters.activity i e =
    s.counters.activity i e - if (i, e) ∈ l.map fun p => (p.1, d.times p.2) then 1 else 0
  queue : ∀ p ∈ t.queues.activity, p ∈ s.queues.activity ∨
    p ∈ (l.map fun p => (p.1, d.times p.2)) ∧ t.counters.activity p.1 p.2 ≤ 1

theorem countersLoop (d : BoundDirection) (l : List (ℕ × ℚ)) : ∀ (s : Index),
    (l.map (·.1)).Nodup → (∀ p ∈ l, s.counters.activity p.1 (d.times p.2) ≠ 0) →
    ∃ t, l.foldlM (updateActivityCounter d) s = .ok t ∧ CountersChanged s t l d := by
  induction l with
  | nil => exact fun s _ _ => ⟨s, rfl, rfl, rfl, rfl, rfl, rfl, rfl, rfl, by simp,
      fun p hp => Or.inl hp⟩
  | cons p l ih =>
    intro s hn h
    rw [List.map_cons, List.nodup_cons] at hn
    have h0 := h p List.mem_cons_self
    obtain ⟨s1, e1, c1⟩ : ∃ t, updateActivityCounter d s p = .ok t ∧ CountersChanged s t [p] d := by
      simp only [updateActivityCounter, decrement_eq h0, bind, Except.bind]
      have hact : ∀ i e, insertAt2 s.counters.activity p.1 (d.times p.2)
          (s.counters.activity p.1 (d.times p.2) - 1) i e =
          s.counters.activity i e -
            if (i, e) ∈ [p].map fun p => (p.1, d.times p.2) then 1 else 0 := by
        intro i e
        by_cases hie : i = p.1 ∧ e = d.times p.2
        · obtain ⟨rfl, rfl⟩ := hie
          rw [insertAt2_same, if_pos (by simp)]
        · rw [insertAt2_ne _ _ hie, if_neg, Nat.sub_zero]
          simpa using hie
      split
      · rename_i hle
        refine ⟨_, rfl, rfl, rfl, rfl, rfl, rfl, rfl, rfl, hact, fun q hq => ?_⟩
        rcases mem_pushFifo.1 hq with hq | rfl
        · exact Or.inl hq
        · refine Or.inr ⟨by simp, ?_⟩
          show insertAt2 _ _ _ _ _ _ ≤ 1
          rw [insertAt2_same]
          exact hle
      · exact ⟨_, rfl, rfl, rfl, rfl, rfl, rfl, rfl, rfl, hact, fun q hq => Or.inl hq⟩
    have hne : ∀ q ∈ l, q.1 ≠ p.1 := by
      intro q hq h'
      exact hn.1 (h' ▸ List.mem_map_of_mem hq)
    obtain ⟨t, e2, c2⟩ := ih s1 hn.2 fun q hq => by
      rw [c1.activity, if_neg, Nat.sub_zero]
      · exact h q (List.mem_cons_of_mem _ hq)
      · intro h'
        simp only [List.map_cons, List.map_nil, List.mem_singleton, Prod.mk.injEq] at h'
        exact hne q hq h'.1
    refine ⟨t, by rw [List.foldlM_cons, e1]; exact e2, c2.updates.trans c1.updates,
      c2.cache.trans c1.cache, c2.columns.trans c1.columns, c2.constraint.trans c1.constraint,
      c2.substitution.trans c1.substitution, c2.bound.trans c1.bound, c2.slack.trans c1.slack,
      fun i e => ?_, fun q hq => ?_⟩
    · rw [c2.activity, c1.activity]
      simp only [List.map_cons, List.map_nil, List.mem_cons]
      by_cases h1 : (i, e) = (p.1, d.times p.2)
      · have h2 : (i, e) ∉ l.map fun p => (p.1, d.times p.2) := by
          intro h2
          obtain ⟨q, hq, he⟩ := List.mem_map.1 h2
          have := he.trans h1
          exact hne q hq (Prod.mk.inj this).1
        rw [if_pos (Or.inl h1), if_neg h2, if_pos (Or.inl h1), Nat.sub_zero]
      · simp only [h1, List.not_mem_nil, or_self, if_false, false_or, Nat.sub_zero]
    · rw [List.map_cons, List.mem_cons]
      rcases c2.queue q hq with hq | ⟨hc, hle⟩
      · rcases c1.queue q hq with hq | ⟨hc, hle⟩
        · exact Or.inl hq
        · rw [List.map_cons, List.map_nil, List.mem_singleton] at hc
          refine Or.inr ⟨Or.inl hc, ?_⟩
          rw [c2.activity]
          omega
      · exact Or.inr ⟨Or.inr hc, hle⟩

/-- `update_activity_counters` for a bound that was missing. -/
theorem updateActivityCounters_spec (hG : G.Consistent) (s : Index) (j : ℕ) (d : BoundDirection)
    (h : ∀ i ∈ rowsOf G s.counters j, s.counters.activity i (d.times (coef G i j)) ≠ 0) :
    ∃ t, updateActivityCounters G s j d = .ok t ∧
      CountersChanged s t (activeColumn G s.counters j) d ∧
      ∀ i e, t.counters.activity i e = s.counters.activity i e -
        if i ∈ rowsOf G s.counters j ∧ e = d.times (coef G i j) then 1 else 0 := by
  have ht := activeColumn_tuples hG s.counters j
  obtain ⟨t, e1, c1⟩ := countersLoop d (activeColumn G s.counters j) s ht.nodup fun p hp => by
    obtain ⟨h1, h2⟩ := (ht.mem p).1 hp
    rw [h2]
    exact h p.1 h1
  refine ⟨t, e1, c1, fun i e => ?_⟩
  rw [c1.activity]
  congr 2
  rw [eq_iff_iff, List.mem_map]
  constructor
  · rintro ⟨p, hp, he⟩
    obtain ⟨h1, h2⟩ := (ht.mem _).1 hp
    cases he
    rw [← h2]
    exact ⟨h1, rfl⟩
  · rintro ⟨h1, rfl⟩
    exact ⟨(i, coef G i j), (ht.mem _).2 ⟨h1, rfl⟩, rfl⟩

/-! ### Stored activity bounds -/

/-- Only stored activity bounds and the queue of rows to propagate have changed. -/
structure CacheChanged (K : ℕ → Prop) (s t : Index) : Prop where
  updates : t.updates = s.updates
  counters : t.counters = s.counters
  substitution : t.queues.substitution = s.queues.substitution
  bound : t.queues.bound = s.queues.bound
  slack : t.queues.slack = s.queues.slack
  cache : ∀ i d, t.activityBounds i d = none ↔ s.activityBounds i d = none
  queue : ∀ p ∈ t.queues.activity, p ∈ s.queues.activity ∨
    K p.1 ∧ s.counters.constraint p.1 ≠ 0 ∧ s.activityBounds p.1 p.2 ≠ none

theorem CacheChanged.refl (K : ℕ → Prop) (s : Index) : CacheChanged K s s :=
  ⟨rfl, rfl, rfl, rfl, rfl, fun _ _ => Iff.rfl, fun _ h => Or.inl h⟩

theorem CacheChanged.trans {K : ℕ → Prop} {s t r : Index} (h : CacheChanged K s t)
    (h' : CacheChanged K t r) : CacheChanged K s r :=
  ⟨h'.updates.trans h.updates, h'.counters.trans h.counters, h'.substitution.trans h.substitution,
    h'.bound.trans h.bound, h'.slack.trans h.slack, fun i d => (h'.cache i d).trans (h.cache i d),
    fun p hp => by
      rcases h'.queue p hp with hp | ⟨hK, hp, h1⟩
      · exact h.queue p hp
      · rw [h.counters] at hp
        exact Or.inr ⟨hK, hp, fun h2 => h1 ((h.cache _ _).2 h2)⟩⟩

theorem updateActivityBound_cache {K : ℕ → Prop} (d : BoundDirection) (δ : ℚ) (s : Index) (p : ℕ × ℚ)
    (hK : K p.1) : CacheChanged K s (updateActivityBound d δ s p) := by
  unfold updateActivityBound
  split
  · rename_i hc
    simp only
    split
    · rename_i bound hb
      refine ⟨rfl, rfl, rfl, rfl, rfl, fun i e => ?_, fun q hq => ?_⟩
      · show insertAt2 _ _ _ _ _ _ = none ↔ _
        by_cases h : i = p.1 ∧ e = d.times p.2
        · obtain ⟨rfl, rfl⟩ := h
          rw [insertAt2_same, hb]
          simp
        · rw [insertAt2_ne _ _ h]
      · rcases mem_pushFifo.1 hq with hq | rfl
        · exact Or.inl hq
        · exact Or.inr ⟨hK, by simpa using Nat.pos_iff_ne_zero.1 hc, by simp [hb]⟩
    · exact CacheChanged.refl K s
  · exact CacheChanged.refl K s

theorem updateActivityBounds_cache (hG : G.Consistent) (s : Index) (j : ℕ) (d : BoundDirection)
    (δ : ℚ) :
    CacheChanged (· < G.constraintTypes.length) s (updateActivityBounds G s j d δ) := by
  unfold updateActivityBounds
  have hl : ∀ p ∈ activeColumn G s.counters j, p.1 < G.constraintTypes.length := fun p hp =>
    (mem_rowsOf.1 (((activeColumn_tuples hG s.counters j).mem p).1 hp).1).1
  generalize activeColumn G s.counters j = l at hl
  induction l generalizing s with
  | nil => exact CacheChanged.refl _ s
  | cons p l ih =>
    exact (updateActivityBound_cache d δ s p (hl p List.mem_cons_self)).trans
      (ih _ fun q hq => hl q (List.mem_cons_of_mem _ hq))

/-! ### After a change of a bound -/

/-- What holds after a change of a bound has been processed. -/
structure AfterBound (G : GeneralForm) (s : Index) (v : Updates) (j : ℕ) (t : Index) : Prop where
  counts : t.Counts G
  updates : t.updates = v
  columns : t.counters.columns = s.counters.columns
  constraint : t.counters.constraint = s.counters.constraint
  bound : t.queues.bound = s.queues.bound
  slack : t.queues.slack = s.queues.slack
  substitution : t.queues.substitution = s.queues.substitution ∨
    t.queues.substitution = j :: s.queues.substitution ∧ (v.isVariableFixed G j).isSome ∧
      s.counters.columns j ≠ 0

theorem missing_erase (hs : Index) (s : Index) (v : Updates) (j : ℕ) (d : BoundDirection) {new : ℚ}
    {change : BoundChange} (h : BoundUpdated G s.updates j d new v change)
    (hc : hs.counters.columns = s.counters.columns) (hu : hs.updates = v) (i : ℕ) (e : BoundDirection) :
    missing G hs i e = if e = d.times (coef G i j) then (missing G s i e).erase j
      else missing G s i e := by
  have hv : varsOf G hs.counters i = varsOf G s.counters i := by
    unfold varsOf
    rw [hc]
  have htimes : ∀ c : ℚ, ∀ a b : BoundDirection, a.times c = b ↔ a = b.times c := by
    intro c a b
    unfold BoundDirection.times
    split <;> cases a <;> cases b <;> decide
  unfold missing
  rw [hv, hu]
  ext k
  by_cases hk : k = j
  · subst hk
    by_cases he : e = d.times (coef G i k)
    · have : e.times (coef G i k) = d := (htimes _ _ _).2 he
      simp only [he, if_true, Finset.mem_erase, Finset.mem_filter]
      rw [← he, this]
      have := h.isSome
      tauto
    · have hne : ¬(k = k ∧ e.times (coef G i k) = d) := fun h' => he ((htimes _ _ _).1 h'.2)
      simp only [he, if_false, Finset.mem_filter, h.other _ _ hne]
  · have hne : ¬(k = j ∧ e.times (coef G i k) = d) := fun h' => hk h'.1
    split
    · simp only [Finset.mem_erase, Finset.mem_filter, h.other _ _ hne]
      tauto
    · simp only [Finset.mem_filter, h.other _ _ hne]

theorem afterBoundChange_spec (hG : G.Consistent) {s : Index} (hs : s.Counts G) {v : Updates} {j : ℕ}
    {d : BoundDirection} {new : ℚ} {change : BoundChange}
    (h : BoundUpdated G s.updates j d new v change) (hj : j < G.vars.length)
    (hj0 : ∀ i ∈ rowsOf G s.counters j, s.counters.columns j ≠ 0) :
    ∃ t, afterBoundChange G { s with updates := v } j d change = .ok t ∧ AfterBound G s v j t := by
  -- the state after the variable is possibly queued
  obtain ⟨q, hq, hq'⟩ : ∃ q : List ℕ, (q = s.queues.substitution ∨ q = j :: s.queues.substitution ∧
      (v.isVariableFixed G j).isSome ∧ s.counters.columns j ≠ 0) ∧
      (if (v.isVariableFixed G j).isSome = true ∧ 0 < s.counters.columns j then
        { s with updates := v, queues :=
          { s.queues with substitution := j :: s.queues.substitution } }
        else { s with updates := v }) =
      { s with updates := v, queues := { s.queues with substitution := q } } := by
    by_cases hf : (v.isVariableFixed G j).isSome = true ∧ 0 < s.counters.columns j
    · exact ⟨j :: s.queues.substitution, Or.inr ⟨rfl, hf.1, by omega⟩, by rw [if_pos hf]⟩
    · exact ⟨s.queues.substitution, Or.inl rfl, by rw [if_neg hf]⟩
  have hqs : ∀ k ∈ q, k < G.vars.length := by
    intro k hk
    rcases hq with rfl | ⟨rfl, _⟩
    · exact hs.substitutionQueue k hk
    · rcases List.mem_cons.1 hk with rfl | hk
      · exact hj
      · exact hs.substitutionQueue k hk
  -- if there was a bound before, no counter changes
  have hsame : change ≠ .newBound → ∀ (t : Index), t.counters = s.counters → t.updates = v → ∀ i e,
      missing G t i e = missing G s i e := by
    intro hc t h1 h2 i e
    rw [missing_erase t s v j d h (by rw [h1]) h2]
    split
    · rename_i he
      rw [Finset.erase_eq_of_notMem]
      intro hm
      have h3 := (Finset.mem_filter.1 hm).2
      apply hc
      rw [h.newBound]
      convert h3 using 1
      rw [he]
      unfold BoundDirection.times
      split <;> cases d <;> rfl
    · rfl
  unfold afterBoundChange
  simp only
  cases change with
  | none =>
    refine ⟨_, rfl, ⟨⟨hs.rowCount, hs.colCount, fun i hi hi0 e => ?_, hs.cache, h.disjoint,
      hs.substitutionQueue, hs.boundQueue, hs.allBounds, hs.slackQueue, hs.activityQueue⟩,
      rfl, rfl, rfl, rfl, rfl, Or.inl rfl⟩⟩
    rw [hsame (by simp) { s with updates := v } rfl rfl]
    exact hs.activity i hi hi0 e
  | boundShift δ =>
    simp only
    rw [hq']
    have hc := updateActivityBounds_cache hG
      { s with updates := v, queues := { s.queues with substitution := q } } j d δ
    generalize updateActivityBounds G
      { s with updates := v, queues := { s.queues with substitution := q } } j d δ = t at hc
    obtain ⟨c1, c2, c3, c4, c5, c6, c7⟩ := hc
    simp only at c1 c2 c3 c4 c5 c6 c7
    refine ⟨t, rfl, ⟨⟨?_, ?_, fun i hi hi0 e => ?_, fun i hi hi0 e he => ?_, ?_, ?_, ?_, ?_, ?_,
      fun p hp => ?_⟩, c1, by rw [c2], by rw [c2], c4, c5, ?_⟩⟩
    · rw [c2]; exact hs.rowCount
    · rw [c2]; exact hs.colCount
    · rw [hsame (by simp) t c2 c1]
      rw [c2] at hi0 ⊢
      exact hs.activity i hi hi0 e
    · rw [c2] at hi0 ⊢
      exact hs.cache i hi hi0 e fun h' => he ((c6 i e).2 h')
    · rw [c1]; exact h.disjoint
    · rw [c3]; exact hqs
    · rw [c4, c2]; exact hs.boundQueue
    · rw [c4, c2]; exact hs.allBounds
    · rw [c5, c2]; exact hs.slackQueue
    · rw [c2]
      rcases c7 p hp with hp | ⟨hi, h1, h2⟩
      · exact hs.activityQueue p hp
      · exact ⟨hi, fun _ => by rw [hs.cache p.1 hi h1 p.2 h2]; exact Nat.zero_le 1⟩
    · rw [c3]; exact hq
  | newBound =>
    have hnone := h.newBound.1 rfl
    have htt : ∀ c : ℚ, (d.times c).times c = d := by
      intro c
      unfold BoundDirection.times
      split <;> cases d <;> rfl
    have hmem : ∀ i ∈ rowsOf G s.counters j, j ∈ missing G s i (d.times (coef G i j)) := by
      intro i hi
      have hi' := mem_rowsOf.1 hi
      refine Finset.mem_filter.2 ⟨mem_varsOf.2 ⟨hj, hi'.2.1, hj0 i hi⟩, ?_⟩
      rw [htt]
      exact hnone
    simp only
    rw [hq']
    obtain ⟨t, e1, c, ha⟩ := updateActivityCounters_spec hG
      { s with updates := v, queues := { s.queues with substitution := q } } j d (by
        intro i hi
        have hi' := mem_rowsOf.1 hi
        show s.counters.activity _ _ ≠ 0
        rw [hs.activity i hi'.1 hi'.2.2]
        exact Finset.card_ne_zero_of_mem (hmem i hi))
    refine ⟨t, e1, ?_⟩
    obtain ⟨c1, c2, c3, c4, c5, c6, c7, c8, c9⟩ := c
    simp only at c1 c2 c3 c4 c5 c6 c7 c9 ha
    have hvars : ∀ i, varsOf G t.counters i = varsOf G s.counters i := by
      intro i; unfold varsOf; rw [c3]
    have hrows : ∀ k, rowsOf G t.counters k = rowsOf G s.counters k := by
      intro k; unfold rowsOf; rw [c4]
    have hle : ∀ i e, t.counters.activity i e ≤ s.counters.activity i e := by
      intro i e; rw [ha]; exact Nat.sub_le _ _
    refine ⟨⟨?_, ?_, fun i hi hi0 e => ?_, fun i hi hi0 e he => ?_, ?_, ?_, ?_, ?_, ?_,
      fun p hp => ?_⟩, c1, c3, c4, c6, c7, ?_⟩
    · intro i hi hi0
      rw [hvars]
      rw [c4] at hi0 ⊢
      exact hs.rowCount i hi hi0
    · intro k hk hk0
      rw [hrows]
      rw [c3] at hk0 ⊢
      exact hs.colCount k hk hk0
    · rw [c4] at hi0
      rw [missing_erase t s v j d h c3 c1, ha, hs.activity i hi hi0]
      by_cases hr : i ∈ rowsOf G s.counters j
      · by_cases he : e = d.times (coef G i j)
        · rw [if_pos ⟨hr, he⟩, if_pos he, Finset.card_erase_of_mem (he ▸ hmem i hr)]
        · rw [if_neg (fun h' => he h'.2), if_neg he, Nat.sub_zero]
      · rw [if_neg (fun h' => hr h'.1), Nat.sub_zero]
        split
        · rw [Finset.erase_eq_of_notMem]
          intro hm
          have := mem_varsOf.1 (Finset.mem_filter.1 hm).1
          exact hr (mem_rowsOf.2 ⟨hi, this.2.1, hi0⟩)
        · rfl
    · rw [c4] at hi0
      rw [c2] at he
      have := hs.cache i hi hi0 e he
      have := hle i e
      omega
    · rw [c1]; exact h.disjoint
    · rw [c5]; exact hqs
    · rw [c6, c4]; exact hs.boundQueue
    · rw [c6, c4]; exact hs.allBounds
    · rw [c7, c3]; exact hs.slackQueue
    · rcases c9 p hp with hp | ⟨hc, h1⟩
      · obtain ⟨h1, h2⟩ := hs.activityQueue p hp
        refine ⟨h1, fun h3 => ?_⟩
        rw [c4] at h3
        exact le_trans (hle _ _) (h2 h3)
      · obtain ⟨r, hr, he⟩ := List.mem_map.1 hc
        have := ((activeColumn_tuples hG s.counters j).mem r).1 hr
        have := (mem_rowsOf.1 this.1).1
        cases he
        exact ⟨this, fun _ => h1⟩
    · rw [c5]; exact hq

end Presolve

end Relp
