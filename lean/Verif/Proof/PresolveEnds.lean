import Verif.Proof.PresolveStart
import Verif.Proof.PresolveRun
import Mathlib.Order.WellFounded
import Mathlib.Algebra.Order.BigOperators.Group.Finset

/-!
# Presolving ends

None of the conditions under which presolving is correct are needed here.
-/

namespace Relp

open Finset

namespace Presolve

variable {G : GeneralForm}

/-! ### The counters -/

/-- The counters count the remaining coefficients. -/
structure Linked (G : GeneralForm) (c : Counters) : Prop where
  rowCount : ∀ i < G.constraintTypes.length, c.constraint i ≠ 0 → c.constraint i = #(varsOf G c i)
  colCount : ∀ j < G.vars.length, c.columns j ≠ 0 → c.columns j = #(rowsOf G c j)

theorem Linked.rowGone (hG : G.Consistent) {c c' : Counters} (h : Linked G c) {i : ℕ}
    (hi : i < G.constraintTypes.length) (hi0 : c.constraint i ≠ 0)
    (h1 : c'.constraint = insertAt c.constraint i 0)
    (h2 : c'.columns = fun k => if k ∈ varsOf G c i then c.columns k - 1 else c.columns k) :
    Linked G c' := by
  have hne : ∀ k, c'.constraint k ≠ 0 ↔ k ≠ i ∧ c.constraint k ≠ 0 := by
    intro k
    rw [h1]
    by_cases hk : k = i
    · subst hk; simp [insertAt]
    · simp [insertAt, hk]
  have hrows : ∀ j, rowsOf G c' j = (rowsOf G c j).erase i := by
    intro j
    ext k
    rw [Finset.mem_erase, mem_rowsOf, mem_rowsOf, hne]
    tauto
  constructor
  · intro k hk hk0
    have hk' := (hne k).1 hk0
    have e : c'.constraint k = c.constraint k := by rw [h1]; simp [insertAt, hk'.1]
    rw [e, h.rowCount k hk hk'.2]
    congr 1
    ext j
    rw [mem_varsOf, mem_varsOf]
    refine and_congr_right fun hj => and_congr_right fun hc => ?_
    rw [h2]
    simp only
    split
    · rename_i hm
      rw [mem_varsOf] at hm
      have a1 : i ∈ rowsOf G c j := mem_rowsOf.2 ⟨hi, hm.2.1, hi0⟩
      have a2 : k ∈ rowsOf G c j := mem_rowsOf.2 ⟨hk, hc, hk'.2⟩
      have h3 : ({i, k} : Finset ℕ) ⊆ rowsOf G c j := by
        intro x hx
        rw [Finset.mem_insert, Finset.mem_singleton] at hx
        rcases hx with rfl | rfl <;> assumption
      have h4 := Finset.card_le_card h3
      rw [Finset.card_pair (Ne.symm hk'.1)] at h4
      have h5 := h.colCount j hj hm.2.2
      omega
    · rfl
  · intro j hj hj0
    rw [hrows]
    have hc : c.columns j ≠ 0 := by
      intro h0
      apply hj0
      rw [h2]
      simp only [h0]
      split <;> rfl
    rw [h2] at hj0 ⊢
    simp only at hj0 ⊢
    by_cases hm : j ∈ varsOf G c i
    · rw [if_pos hm, Finset.card_erase_of_mem (mem_rowsOf.2 ⟨hi, (mem_varsOf.1 hm).2.1, hi0⟩),
        h.colCount j hj hc]
    · rw [if_neg hm, Finset.erase_eq_of_notMem, h.colCount j hj hc]
      intro hr
      exact hm (mem_varsOf.2 ⟨hj, (mem_rowsOf.1 hr).2.1, hc⟩)

theorem Linked.columnGone (hG : G.Consistent) {c c' : Counters} (h : Linked G c) {j : ℕ}
    (hj : j < G.vars.length) (hj0 : c.columns j ≠ 0)
    (h1 : c'.columns = insertAt c.columns j 0)
    (h2 : c'.constraint = fun i => if i ∈ rowsOf G c j then c.constraint i - 1 else c.constraint i) :
    Linked G c' := by
  have hne : ∀ k, c'.columns k ≠ 0 ↔ k ≠ j ∧ c.columns k ≠ 0 := by
    intro k
    rw [h1]
    by_cases hk : k = j
    · subst hk; simp [insertAt]
    · simp [insertAt, hk]
  have hvars : ∀ i, varsOf G c' i = (varsOf G c i).erase j := by
    intro i
    ext k
    rw [Finset.mem_erase, mem_varsOf, mem_varsOf, hne]
    tauto
  constructor
  · intro i hi hi0
    rw [hvars]
    have hc : c.constraint i ≠ 0 := by
      intro h0
      apply hi0
      rw [h2]
      simp only [h0]
      split <;> rfl
    rw [h2] at hi0 ⊢
    simp only at hi0 ⊢
    by_cases hm : i ∈ rowsOf G c j
    · rw [if_pos hm, Finset.card_erase_of_mem (mem_varsOf.2 ⟨hj, (mem_rowsOf.1 hm).2.1, hj0⟩),
        h.rowCount i hi hc]
    · rw [if_neg hm, Finset.erase_eq_of_notMem, h.rowCount i hi hc]
      intro hr
      exact hm (mem_rowsOf.2 ⟨hi, (mem_varsOf.1 hr).2.1, hc⟩)
  · intro k hk hk0
    have hk' := (hne k).1 hk0
    have e : c'.columns k = c.columns k := by rw [h1]; simp [insertAt, hk'.1]
    rw [e, h.colCount k hk hk'.2]
    congr 1
    ext i
    rw [mem_rowsOf, mem_rowsOf]
    refine and_congr_right fun hi => and_congr_right fun hc => ?_
    rw [h2]
    simp only
    split
    · rename_i hm
      rw [mem_rowsOf] at hm
      have a1 : j ∈ varsOf G c i := mem_varsOf.2 ⟨hj, hm.2.1, hj0⟩
      have a2 : k ∈ varsOf G c i := mem_varsOf.2 ⟨hk, hc, hk'.2⟩
      have h3 : ({j, k} : Finset ℕ) ⊆ varsOf G c i := by
        intro x hx
        rw [Finset.mem_insert, Finset.mem_singleton] at hx
        rcases hx with rfl | rfl <;> assumption
      have h4 := Finset.card_le_card h3
      rw [Finset.card_pair (Ne.symm hk'.1)] at h4
      have h5 := h.rowCount i hi hm.2.2
      omega
    · rfl

/-- The counters, and what is in the queues. -/
structure Queued (G : GeneralForm) (s : Index) : Prop where
  linked : Linked G s.counters
  substitution : ∀ j ∈ s.queues.substitution, j < G.vars.length
  bound : ∀ i ∈ s.queues.bound, i < G.constraintTypes.length ∧ s.counters.constraint i ≤ 1
  slack : ∀ j ∈ s.queues.slack, j < G.vars.length ∧ s.counters.columns j ≤ 1
  activity : ∀ p ∈ s.queues.activity, p.1 < G.constraintTypes.length

/-! ### What decreases -/

/-- Whether a constraint is two-sided. -/
def isRange : ConstraintType → Bool
  | .range _ => true
  | _ => false

/-- The two-sided constraints. -/
def ranges (G : GeneralForm) (u : Updates) : Finset ℕ :=
  (range G.constraintTypes.length).filter fun i => isRange (u.constraintType G i)

/-- The variables without a bound in a direction. -/
def free (G : GeneralForm) (u : Updates) (d : BoundDirection) : Finset ℕ :=
  (range G.vars.length).filter fun j => u.variableBound G j d = none

/-- What decreases in a step that is meaningful, and does not increase in any. -/
def potential (G : GeneralForm) (s : Index) : ℕ :=
  ∑ i ∈ range G.constraintTypes.length, s.counters.constraint i +
    ∑ j ∈ range G.vars.length, s.counters.columns j +
    #(ranges G s.updates) + #(free G s.updates .lower) + #(free G s.updates .upper)

/-- A step that leaves the coefficients as they are. -/
structure Quiet (G : GeneralForm) (s t : Index) : Prop where
  columns : t.counters.columns = s.counters.columns
  constraint : t.counters.constraint = s.counters.constraint
  bound : t.queues.bound = s.queues.bound
  slack : t.queues.slack = s.queues.slack
  substitution : ∀ j ∈ t.queues.substitution, j ∈ s.queues.substitution ∨ j < G.vars.length
  activity : ∀ p ∈ t.queues.activity, p ∈ s.queues.activity ∨ p.1 < G.constraintTypes.length
  types : ∀ i, isRange (t.updates.constraintType G i) → isRange (s.updates.constraintType G i)
  bounds : ∀ j d, t.updates.variableBound G j d = none → s.updates.variableBound G j d = none

variable {s t r : Index}

theorem Quiet.refl (s : Index) : Quiet G s s :=
  ⟨rfl, rfl, rfl, rfl, fun _ h => .inl h, fun _ h => .inl h, fun _ h => h, fun _ _ h => h⟩

theorem Quiet.trans (h : Quiet G s t) (h' : Quiet G t r) : Quiet G s r where
  columns := h'.columns.trans h.columns
  constraint := h'.constraint.trans h.constraint
  bound := h'.bound.trans h.bound
  slack := h'.slack.trans h.slack
  substitution j hj := (h'.substitution j hj).elim (h.substitution j) .inr
  activity p hp := (h'.activity p hp).elim (h.activity p) .inr
  types i hi := h.types i (h'.types i hi)
  bounds j d hj := h.bounds j d (h'.bounds j d hj)

theorem Quiet.linked_iff (h : Quiet G s t) (i j : ℕ) :
    varsOf G t.counters i = varsOf G s.counters i ∧ rowsOf G t.counters j = rowsOf G s.counters j := by
  unfold varsOf rowsOf
  rw [h.columns, h.constraint]
  exact ⟨rfl, rfl⟩

theorem Quiet.queued (h : Quiet G s t) (hs : Queued G s) : Queued G t where
  linked := by
    constructor
    · intro i hi h0
      rw [(h.linked_iff i 0).1]
      rw [h.constraint] at h0 ⊢
      exact hs.linked.rowCount i hi h0
    · intro j hj h0
      rw [(h.linked_iff 0 j).2]
      rw [h.columns] at h0 ⊢
      exact hs.linked.colCount j hj h0
  substitution j hj := (h.substitution j hj).elim (hs.substitution j) id
  bound i hi := by
    rw [h.constraint]
    exact hs.bound i (h.bound ▸ hi)
  slack j hj := by
    rw [h.columns]
    exact hs.slack j (h.slack ▸ hj)
  activity p hp := (h.activity p hp).elim (hs.activity p) id

theorem Quiet.ranges (h : Quiet G s t) : ranges G t.updates ⊆ ranges G s.updates := by
  intro i hi
  unfold Presolve.ranges at hi ⊢
  rw [Finset.mem_filter] at hi ⊢
  exact ⟨hi.1, h.types i hi.2⟩

theorem Quiet.free (h : Quiet G s t) (d : BoundDirection) :
    free G t.updates d ⊆ free G s.updates d := by
  intro j hj
  unfold Presolve.free at hj ⊢
  rw [Finset.mem_filter] at hj ⊢
  exact ⟨hj.1, h.bounds j d hj.2⟩

theorem Quiet.potential (h : Quiet G s t) : potential G t ≤ potential G s := by
  unfold Presolve.potential
  rw [h.columns, h.constraint]
  have h1 := Finset.card_le_card h.ranges
  have h2 := Finset.card_le_card (h.free .lower)
  have h3 := Finset.card_le_card (h.free .upper)
  omega

/-- A bound is new. -/
def Gains (G : GeneralForm) (s t : Index) : Prop :=
  ∃ j < G.vars.length, ∃ d, s.updates.variableBound G j d = none ∧ t.updates.variableBound G j d ≠ none

theorem Quiet.potential_lt (h : Quiet G s t) (hg : Gains G s t) :
    Presolve.potential G t < Presolve.potential G s := by
  obtain ⟨j, hj, d, h1, h2⟩ := hg
  have hlt : #(Presolve.free G t.updates d) < #(Presolve.free G s.updates d) := by
    refine Finset.card_lt_card ⟨h.free d, fun hsub => h2 ?_⟩
    have : j ∈ Presolve.free G s.updates d := by
      unfold Presolve.free
      rw [Finset.mem_filter, Finset.mem_range]
      exact ⟨hj, h1⟩
    have := hsub this
    unfold Presolve.free at this
    exact (Finset.mem_filter.1 this).2
  unfold Presolve.potential
  rw [h.columns, h.constraint]
  have h3 := Finset.card_le_card h.ranges
  have h4 := Finset.card_le_card (h.free .lower)
  have h5 := Finset.card_le_card (h.free .upper)
  cases d <;> omega

theorem Gains.of_left (h : Gains G s t) (h' : Quiet G t r) : Gains G s r := by
  obtain ⟨j, hj, d, h1, h2⟩ := h
  exact ⟨j, hj, d, h1, fun h3 => h2 (h'.bounds j d h3)⟩

theorem Gains.of_right (h : Quiet G s t) (h' : Gains G t r) : Gains G s r := by
  obtain ⟨j, hj, d, h1, h2⟩ := h'
  exact ⟨j, hj, d, h.bounds j d h1, h2⟩

theorem quiet_fold {α : Type} (f : Index → α → Run Index) (l : List α)
    (hf : ∀ a ∈ l, ∀ s t, f s a = .ok t → Quiet G s t) :
    ∀ s t, l.foldlM f s = .ok t → Quiet G s t := by
  induction l with
  | nil =>
    intro s t h
    rw [List.foldlM_nil] at h
    cases h
    exact .refl _
  | cons a l ih =>
    intro s t h
    rw [List.foldlM_cons] at h
    cases h1 : f s a with
    | error e => rw [h1] at h; cases h
    | ok r =>
      rw [h1] at h
      exact (hf a List.mem_cons_self s r h1).trans
        (ih (fun b hb => hf b (List.mem_cons_of_mem _ hb)) r t h)

/-! ### Bounds -/

theorem mem_pushFifo' {q : List (ℕ × BoundDirection)} {p r : ℕ × BoundDirection}
    (h : r ∈ pushFifo q p) : r ∈ q ∨ r = p := by
  unfold pushFifo at h
  split at h
  · exact .inl h
  · simpa using h

theorem quiet_updateActivityBounds (hG : G.Consistent) (s : Index) (j : ℕ) (d : BoundDirection)
    (by' : ℚ) : Quiet G s (updateActivityBounds G s j d by') := by
  unfold updateActivityBounds
  have hmem : ∀ p ∈ activeColumn G s.counters j, p.1 < G.constraintTypes.length := by
    intro p hp
    exact (mem_rowsOf.1 (((activeColumn_tuples hG s.counters j).mem p).1 hp).1).1
  generalize activeColumn G s.counters j = l at hmem
  induction l generalizing s with
  | nil => exact .refl _
  | cons p l ih =>
    rw [List.foldl_cons]
    refine Quiet.trans ?_ (ih (updateActivityBound d by' s p)
      fun q hq => hmem q (List.mem_cons_of_mem _ hq))
    unfold updateActivityBound
    simp only
    split
    · split
      · refine ⟨rfl, rfl, rfl, rfl, fun _ h => .inl h, fun q hq => ?_, fun _ h => h, fun _ _ h => h⟩
        rcases mem_pushFifo' hq with h | rfl
        · exact .inl h
        · exact .inr (hmem p List.mem_cons_self)
      · exact .refl _
    · exact .refl _

theorem quiet_updateActivityCounters (hG : G.Consistent) {s t : Index} {j : ℕ} {d : BoundDirection}
    (h : updateActivityCounters G s j d = .ok t) : Quiet G s t := by
  unfold updateActivityCounters at h
  have hmem : ∀ p ∈ activeColumn G s.counters j, p.1 < G.constraintTypes.length := by
    intro p hp
    exact (mem_rowsOf.1 (((activeColumn_tuples hG s.counters j).mem p).1 hp).1).1
  refine quiet_fold _ _ ?_ s t h
  intro p hp s t h
  unfold updateActivityCounter at h
  simp only [] at h
  cases hd : decrement (s.counters.activity p.1 (d.times p.2)) with
  | error e => rw [hd] at h; cases h
  | ok n =>
    rw [hd] at h
    simp only [bind, Except.bind, pure, Except.pure] at h
    split at h
    · cases h
      refine ⟨rfl, rfl, rfl, rfl, fun _ h => .inl h, fun q hq => ?_, fun _ h => h, fun _ _ h => h⟩
      rcases mem_pushFifo' hq with h | rfl
      · exact .inl h
      · exact .inr (hmem p hp)
    · cases h
      exact ⟨rfl, rfl, rfl, rfl, fun _ h => .inl h, fun _ h => .inl h, fun _ h => h, fun _ _ h => h⟩

theorem quiet_afterBoundChange (hG : G.Consistent) {s t : Index} {j : ℕ} (hj : j < G.vars.length)
    {d : BoundDirection} {change : BoundChange}
    (h : afterBoundChange G s j d change = .ok t) : Quiet G s t := by
  unfold afterBoundChange at h
  simp only [] at h
  have hq : ∀ q : Index, q = (if (s.updates.isVariableFixed G j).isSome ∧ 0 < s.counters.columns j then
      { s with queues := { s.queues with substitution := j :: s.queues.substitution } }
      else s) → Quiet G s q := by
    rintro q rfl
    split
    · refine ⟨rfl, rfl, rfl, rfl, fun k hk => ?_, fun _ h => .inl h, fun _ h => h, fun _ _ h => h⟩
      rcases List.mem_cons.1 hk with rfl | hk
      · exact .inr hj
      · exact .inl hk
    · exact .refl _
  cases change with
  | none => cases h; exact .refl _
  | newBound => exact (hq _ rfl).trans (quiet_updateActivityCounters hG h)
  | boundShift x =>
    cases h
    exact (hq _ rfl).trans (quiet_updateActivityBounds hG _ _ _ _)

theorem updateBound_bounds (u : Updates) (j : ℕ) (d : BoundDirection) (new : ℚ) :
    (∀ k e, (u.updateBound G j d new).1.variableBound G k e = none → u.variableBound G k e = none) ∧
      ∀ i, (u.updateBound G j d new).1.constraintType G i = u.constraintType G i := by
  unfold Updates.updateBound
  simp only []
  constructor
  · intro k e h
    unfold Updates.variableBound at h ⊢
    by_cases hk : k = j ∧ e = d
    · obtain ⟨rfl, rfl⟩ := hk
      cases h1 : u.bounds k e with
      | some x =>
        simp only [h1] at h
        split at h <;> simp_all [insertAt2]
      | none =>
        simp only [h1] at h
        cases h2 : u.activityBounds k e with
        | some y =>
          simp only [h2] at h
          split at h <;> simp_all [insertAt2]
        | none =>
          simp only [h2] at h
          cases h3 : originalBound G k e with
          | some z =>
            simp only [h3] at h
            split at h <;> simp_all [insertAt2]
          | none => simp [h3]
    · have hne : ∀ (f : ℕ → BoundDirection → Option ℚ) (x : Option ℚ),
          insertAt2 f j d x k e = f k e := fun f x => insertAt2_ne _ _ hk
      revert h
      cases h1 : u.bounds j d with
      | some x =>
        simp only []
        split <;> simp only [hne] <;> exact id
      | none =>
        simp only []
        cases h2 : u.activityBounds j d with
        | some y =>
          simp only []
          split <;> simp only [hne] <;> exact id
        | none =>
          simp only []
          cases h3 : originalBound G j d with
          | some z =>
            simp only []
            split <;> simp only [hne] <;> exact id
          | none =>
            simp only [hne]
            exact id
  · intro i
    cases h1 : u.bounds j d with
    | some x =>
      simp only []
      split <;> rfl
    | none =>
      simp only []
      cases h2 : u.activityBounds j d with
      | some y =>
        simp only []
        split <;> rfl
      | none =>
        simp only []
        cases h3 : originalBound G j d with
        | some z =>
          simp only []
          split <;> rfl
        | none => rfl

theorem updateActivityVariableBound_bounds (u : Updates) (j : ℕ) (d : BoundDirection) (new : ℚ) :
    (∀ k e, (u.updateActivityVariableBound G j d new).1.variableBound G k e = none →
      u.variableBound G k e = none) ∧
      (∀ i, (u.updateActivityVariableBound G j d new).1.constraintType G i = u.constraintType G i) ∧
      ((u.updateActivityVariableBound G j d new).2 = .none →
        (u.updateActivityVariableBound G j d new).1 = u) ∧
      ((u.updateActivityVariableBound G j d new).2 = .newBound →
        u.variableBound G j d = none ∧
          (u.updateActivityVariableBound G j d new).1.variableBound G j d ≠ none) := by
  unfold Updates.updateActivityVariableBound
  have hne : ∀ k e, ¬(k = j ∧ e = d) → ∀ (f : ℕ → BoundDirection → Option ℚ) (x : Option ℚ),
      insertAt2 f j d x k e = f k e := fun k e hk f x => insertAt2_ne _ _ hk
  unfold Updates.variableBound
  cases h1 : u.activityBounds j d with
  | some x =>
    simp only []
    split
    · refine ⟨fun k e h => ?_, fun _ => rfl, by simp, by simp⟩
      by_cases hk : k = j ∧ e = d
      · obtain ⟨rfl, rfl⟩ := hk
        simp [insertAt2] at h
      · simpa only [hne k e hk] using h
    · exact ⟨fun _ _ h => h, fun _ => rfl, fun _ => rfl, by simp⟩
  | none =>
    simp only []
    cases h2 : u.bounds j d with
    | some y =>
      simp only []
      split
      · refine ⟨fun k e h => ?_, fun _ => rfl, by simp, by simp⟩
        by_cases hk : k = j ∧ e = d
        · obtain ⟨rfl, rfl⟩ := hk
          simp [insertAt2] at h
        · simpa only [hne k e hk] using h
      · exact ⟨fun _ _ h => h, fun _ => rfl, fun _ => rfl, by simp⟩
    | none =>
      simp only []
      cases h3 : originalBound G j d with
      | some z =>
        simp only []
        split
        · refine ⟨fun k e h => ?_, fun _ => rfl, by simp, by simp⟩
          by_cases hk : k = j ∧ e = d
          · obtain ⟨rfl, rfl⟩ := hk
            simp [insertAt2] at h
          · simpa only [hne k e hk] using h
        · exact ⟨fun _ _ h => h, fun _ => rfl, fun _ => rfl, by simp⟩
      | none =>
        simp only []
        refine ⟨fun k e h => ?_, fun _ => rfl, by simp, fun _ => ?_⟩
        · by_cases hk : k = j ∧ e = d
          · obtain ⟨rfl, rfl⟩ := hk
            simp [insertAt2] at h
          · simpa only [hne k e hk] using h
        · simp [insertAt2]

theorem quiet_updates {u : Updates} (h1 : ∀ i, u.constraintType G i = s.updates.constraintType G i)
    (h2 : ∀ k e, u.variableBound G k e = none → s.updates.variableBound G k e = none) :
    Quiet G s { s with updates := u } :=
  ⟨rfl, rfl, rfl, rfl, fun _ h => .inl h, fun _ h => .inl h, fun i h => by rw [← h1]; exact h, h2⟩

/-- What a rule that removes coefficients does. -/
def Shrinks (G : GeneralForm) (s t : Index) : Prop := Queued G t ∧ potential G t < potential G s

theorem Shrinks.quiet_left (h : Quiet G s t) (h' : Shrinks G t r) : Shrinks G s r :=
  ⟨h'.1, lt_of_lt_of_le h'.2 h.potential⟩

theorem Shrinks.quiet_right (h : Shrinks G s t) (h' : Quiet G t r) : Shrinks G s r :=
  ⟨h'.queued h.1, lt_of_le_of_lt h'.potential h.2⟩

/-- The sums of the counters. -/
theorem sums_lt {c c' : Counters} (h1 : ∀ i, c'.constraint i ≤ c.constraint i)
    (h2 : ∀ j, c'.columns j ≤ c.columns j)
    (h3 : (∃ i < G.constraintTypes.length, c'.constraint i < c.constraint i) ∨
      ∃ j < G.vars.length, c'.columns j < c.columns j) :
    ∑ i ∈ range G.constraintTypes.length, c'.constraint i + ∑ j ∈ range G.vars.length, c'.columns j <
      ∑ i ∈ range G.constraintTypes.length, c.constraint i +
        ∑ j ∈ range G.vars.length, c.columns j := by
  rcases h3 with ⟨i, hi, h3⟩ | ⟨j, hj, h3⟩
  · exact Nat.add_lt_add_of_lt_of_le
      (Finset.sum_lt_sum (fun k _ => h1 k) ⟨i, Finset.mem_range.2 hi, h3⟩)
      (Finset.sum_le_sum fun k _ => h2 k)
  · exact Nat.add_lt_add_of_le_of_lt (Finset.sum_le_sum fun k _ => h1 k)
      (Finset.sum_lt_sum (fun k _ => h2 k) ⟨j, Finset.mem_range.2 hj, h3⟩)

theorem potential_lt_of (h1 : ∀ i, t.counters.constraint i ≤ s.counters.constraint i)
    (h2 : ∀ j, t.counters.columns j ≤ s.counters.columns j)
    (h3 : (∃ i < G.constraintTypes.length, t.counters.constraint i < s.counters.constraint i) ∨
      ∃ j < G.vars.length, t.counters.columns j < s.counters.columns j)
    (h4 : ∀ i, t.updates.constraintType G i = s.updates.constraintType G i)
    (h5 : ∀ j d, t.updates.variableBound G j d = s.updates.variableBound G j d) :
    potential G t < potential G s := by
  have e1 : ranges G t.updates = ranges G s.updates := by
    unfold ranges
    simp only [h4]
  have e2 : ∀ d, free G t.updates d = free G s.updates d := by
    intro d
    unfold free
    simp only [h5]
  unfold potential
  rw [e1, e2, e2]
  have := sums_lt (G := G) h1 h2 h3
  omega

/-! ### Fixed variables -/

theorem ends_fixed (hG : G.Consistent) (hs : Queued G s) {j : ℕ} (hj : j < G.vars.length)
    (hj0 : s.counters.columns j ≠ 0) (h : presolveFixedVariable G s j = .ok t) : Shrinks G s t := by
  unfold presolveFixedVariable at h
  cases hv : unwrap (s.updates.isVariableFixed G j) with
  | error e => rw [hv] at h; cases h
  | ok value =>
    rw [hv] at h
    simp only [bind, Except.bind, pure, Except.pure] at h
    have hfold : ∀ (l : SVec ℕ) (u : Updates),
        (l.foldl (fun u p => u.changeB G p.1 (-p.2 * value)) u).constraints = u.constraints ∧
        (l.foldl (fun u p => u.changeB G p.1 (-p.2 * value)) u).bounds = u.bounds ∧
        (l.foldl (fun u p => u.changeB G p.1 (-p.2 * value)) u).activityBounds
          = u.activityBounds := by
      intro l
      induction l with
      | nil => intro u; exact ⟨rfl, rfl, rfl⟩
      | cons p l ih => intro u; rw [List.foldl_cons]; exact ih _
    obtain ⟨f1, f2, f3⟩ := hfold (activeColumn G s.counters j) s.updates
    generalize (activeColumn G s.counters j).foldl (fun u p => u.changeB G p.1 (-p.2 * value))
      s.updates = u at h f1 f2 f3
    have hT := activeColumn_tuples hG s.counters j
    have hlen : (activeColumn G s.counters j).length = s.counters.columns j := by
      rw [hT.length, hs.linked.colCount j hj hj0]
    have hmem : ∀ i ∈ (activeColumn G s.counters j).map (·.1), s.counters.constraint i ≠ 0 :=
      fun i hi => (mem_rowsOf.1 (hT.mem_keys.1 hi)).2.2
    have hloop := fixedLoop (G := G) j ((activeColumn G s.counters j).map (·.1))
      { s with updates := { u with fixedCost := u.fixedCost + costOf G j * value } } hT.nodup
      (by rw [List.length_map, hlen]) hmem
    simp only [bind, Except.bind] at hloop
    rw [hloop] at h
    split at h
    · cases h
    · rename_i r hr
      split at hr
      · cases hr
        cases h
        have hc : (fixedResult { s with updates := { u with
            fixedCost := u.fixedCost + costOf G j * value } } j
            ((activeColumn G s.counters j).map (·.1))).counters.constraint =
            fun i => if i ∈ rowsOf G s.counters j then s.counters.constraint i - 1
              else s.counters.constraint i := by
          funext i
          simp only [fixedResult, hT.mem_keys]
        have hcol : (fixedResult { s with updates := { u with
            fixedCost := u.fixedCost + costOf G j * value } } j
            ((activeColumn G s.counters j).map (·.1))).counters.columns =
            insertAt s.counters.columns j 0 := by
          simp only [fixedResult, List.length_map, hlen, Nat.sub_self]
        constructor
        · refine ⟨hs.linked.columnGone hG hj hj0 hcol hc, hs.substitution, ?_, ?_, hs.activity⟩
          · intro i hi
            change i ∈ _ ++ s.queues.bound at hi
            rw [List.mem_append, List.mem_reverse, List.mem_filter] at hi
            show _ ∧ (fixedResult _ j _).counters.constraint i ≤ 1
            rw [hc]
            rcases hi with ⟨h1, h2⟩ | hi
            · rw [hT.mem_keys] at h1
              refine ⟨(mem_rowsOf.1 h1).1, ?_⟩
              simp only [h1, if_true]
              have : s.counters.constraint i = 2 := by simpa using h2
              omega
            · have := hs.bound i hi
              refine ⟨this.1, ?_⟩
              simp only
              split <;> omega
          · intro k hk
            have := hs.slack k hk
            refine ⟨this.1, ?_⟩
            show (fixedResult _ j _).counters.columns k ≤ 1
            rw [hcol]
            unfold insertAt
            split <;> omega
        · refine potential_lt_of (fun i => ?_) (fun k => ?_) (.inr ⟨j, hj, ?_⟩) (fun i => ?_)
            (fun k d => ?_)
          · show (fixedResult _ j _).counters.constraint i ≤ _
            rw [hc]
            simp only
            split <;> omega
          · show (fixedResult _ j _).counters.columns k ≤ _
            rw [hcol]
            unfold insertAt
            split <;> omega
          · show (fixedResult _ j _).counters.columns j < _
            rw [hcol, insertAt_same]
            omega
          · show (u.constraints i).getD _ = (s.updates.constraints i).getD _
            rw [f1]
          · show (u.activityBounds k d).or ((u.bounds k d).or _) = _
            rw [f2, f3]
            rfl
      · cases hr

/-! ### Variables that are in no row any more -/

theorem ends_queueVariable {j : ℕ} (hj : j < G.vars.length) (hs : Queued G s)
    (h : queueVariableByCounter G s j = .ok t) :
    Queued G t ∧ t.counters = s.counters ∧
      (∀ i, t.updates.constraintType G i = s.updates.constraintType G i) ∧
      ∀ k d, t.updates.variableBound G k d = s.updates.variableBound G k d := by
  rw [queueVariable_eq] at h
  split at h
  · cases hv : emptyValue G s.updates j with
    | error e => rw [hv] at h; cases h
    | ok v =>
      rw [hv] at h
      cases h
      exact ⟨⟨hs.linked, hs.substitution, hs.bound, hs.slack, hs.activity⟩, rfl, fun _ => rfl,
        fun _ _ => rfl⟩
  · cases h
    refine ⟨⟨hs.linked, hs.substitution, hs.bound, fun k hk => ?_, hs.activity⟩, rfl, fun _ => rfl,
      fun _ _ => rfl⟩
    simp only [List.mem_append] at hk
    rcases hk with hk | hk
    · split at hk
      · rename_i hc
        rw [List.mem_singleton] at hk
        subst hk
        exact ⟨hj, hc.1.le⟩
      · cases hk
    · exact hs.slack k hk

theorem potential_eq (h1 : t.counters.constraint = s.counters.constraint)
    (h2 : t.counters.columns = s.counters.columns)
    (h4 : ∀ i, t.updates.constraintType G i = s.updates.constraintType G i)
    (h5 : ∀ j d, t.updates.variableBound G j d = s.updates.variableBound G j d) :
    potential G t = potential G s := by
  unfold potential ranges free
  simp only [h1, h2, h4, h5]

/-! ### Removing a row -/

/-- The loop over the variables of a row. -/
theorem ends_row (hG : G.Consistent) (hs : Queued G s) {i : ℕ} (hi : i < G.constraintTypes.length)
    (hi0 : s.counters.constraint i ≠ 0) (P : ℕ → Prop) [DecidablePred P]
    (h : ((activeRow G s.counters i).map (·.1)).foldlM (fun s k => do
      let s ← decrementConstraint s i
      let s ← decrementColumn s k
      if P k then queueVariableByCounter G s k else pure s) s = .ok t) : Shrinks G s t := by
  have hT := activeRow_tuples hG s.counters hi
  have hlen : (activeRow G s.counters i).length = s.counters.constraint i := by
    rw [hT.length, hs.linked.rowCount i hi hi0]
  rw [emptyLoop P i _ s hT.nodup (by rw [List.length_map, hlen])
    fun k hk => (mem_varsOf.1 (hT.mem_keys.1 hk)).2.2] at h
  generalize emptyValues G s.updates _ = vs at h
  cases vs with
  | error e => cases h
  | ok solved =>
    cases h
    have hc : (emptyResult G s i P ((activeRow G s.counters i).map (·.1)) solved).counters.constraint =
        insertAt s.counters.constraint i 0 := by
      simp only [emptyResult, List.length_map, hlen, Nat.sub_self]
    have hcol : (emptyResult G s i P ((activeRow G s.counters i).map (·.1)) solved).counters.columns =
        fun k => if k ∈ varsOf G s.counters i then s.counters.columns k - 1
          else s.counters.columns k := by
      funext k
      simp only [emptyResult, hT.mem_keys]
    constructor
    · refine ⟨hs.linked.rowGone hG hi hi0 hc hcol, hs.substitution, ?_, ?_, hs.activity⟩
      · intro k hk
        have := hs.bound k hk
        refine ⟨this.1, ?_⟩
        rw [hc]
        unfold insertAt
        split <;> omega
      · intro k hk
        change k ∈ _ ++ s.queues.slack at hk
        rw [List.mem_append, List.mem_reverse, List.mem_filter] at hk
        rw [hcol]
        rcases hk with ⟨h1, h2⟩ | hk
        · rw [hT.mem_keys] at h1
          refine ⟨(mem_varsOf.1 h1).1, ?_⟩
          simp only [h1, if_true]
          have : s.counters.columns k = 2 := by
            simp only [Bool.decide_and, Bool.and_eq_true, decide_eq_true_eq] at h2
            exact h2.2.1
          omega
        · have := hs.slack k hk
          refine ⟨this.1, ?_⟩
          simp only
          split <;> omega
    · refine potential_lt_of (fun k => ?_) (fun k => ?_) (.inl ⟨i, hi, ?_⟩) (fun _ => rfl)
        (fun _ _ => rfl)
      · rw [hc]
        unfold insertAt
        split <;> omega
      · rw [hcol]
        simp only
        split <;> omega
      · rw [hc, insertAt_same]
        omega

theorem ends_removeConstraintValues (hG : G.Consistent) (hs : Queued G s) {i : ℕ}
    (hi : i < G.constraintTypes.length) (hi0 : s.counters.constraint i ≠ 0)
    (h : removeConstraintValues G s i = .ok t) : Shrinks G s t := by
  unfold removeConstraintValues at h
  refine ends_row hG hs hi hi0 (fun _ => True) (t := t) ?_
  simp only [if_true]
  exact h

theorem quiet_removeConstraint (s : Index) (i : ℕ) : Quiet G s (removeConstraint s i) :=
  ⟨rfl, rfl, rfl, rfl, fun _ h => .inl h, fun _ h => .inl h, fun _ h => h, fun _ _ h => h⟩

theorem quiet_removeVariable (s : Index) (j : ℕ) (v : RemovedVariable) :
    Quiet G s (removeVariable s j v) :=
  ⟨rfl, rfl, rfl, rfl, fun _ h => .inl h, fun _ h => .inl h, fun _ h => h, fun _ _ h => h⟩

/-! ### Bound constraints -/

theorem ends_bound (hG : G.Consistent) (hs : Queued G s) {i : ℕ} (hi : i < G.constraintTypes.length)
    (hi1 : s.counters.constraint i = 1) (h : presolveBoundConstraint G s i = .ok t) :
    Shrinks G s t := by
  have hT := activeRow_tuples hG s.counters hi
  have hlen : (activeRow G s.counters i).length = 1 := by
    rw [hT.length, ← hs.linked.rowCount i hi (by omega), hi1]
  obtain ⟨⟨j, coefficient⟩, hrow⟩ := List.length_eq_one_iff.1 hlen
  have hv : varsOf G s.counters i = {j} := by
    rw [← hT.toFinset, hrow]
    rfl
  have hj := mem_varsOf.1 (show j ∈ varsOf G s.counters i by rw [hv]; simp)
  unfold presolveBoundConstraint at h
  rw [hrow] at h
  simp only [List.head?_cons, unwrap, bind, Except.bind, pure, Except.pure] at h
  have e1 : decrementColumn s j = .ok { s with counters := { s.counters with
      columns := insertAt s.counters.columns j (s.counters.columns j - 1) } } := by
    unfold decrementColumn
    rw [decrement_eq hj.2.2]
    rfl
  have e2 : decrementConstraint { s with counters := { s.counters with
      columns := insertAt s.counters.columns j (s.counters.columns j - 1) } } i =
      .ok { s with counters := { s.counters with
        columns := insertAt s.counters.columns j (s.counters.columns j - 1)
        constraint := insertAt s.counters.constraint i 0 } } := by
    unfold decrementConstraint
    simp only [decrement, hi1]
    rfl
  rw [e1] at h
  simp only [] at h
  rw [e2] at h
  simp only [] at h
  set s₁ : Index := { s with counters := { s.counters with
        columns := insertAt s.counters.columns j (s.counters.columns j - 1)
        constraint := insertAt s.counters.constraint i 0 } } with hs₁
  have hcol : s₁.counters.columns = fun k => if k ∈ varsOf G s.counters i then
      s.counters.columns k - 1 else s.counters.columns k := by
    funext k
    simp only [hs₁, hv, Finset.mem_singleton, insertAt]
    by_cases hk : k = j
    · simp [hk]
    · simp [hk]
  have hshrink : Shrinks G s s₁ := by
    constructor
    · refine ⟨hs.linked.rowGone hG hi (by omega) rfl hcol, hs.substitution, ?_, ?_, hs.activity⟩
      · intro k hk
        have := hs.bound k hk
        refine ⟨this.1, ?_⟩
        simp only [hs₁, insertAt]
        split <;> omega
      · intro k hk
        have := hs.slack k hk
        refine ⟨this.1, ?_⟩
        rw [hcol]
        simp only
        split <;> omega
    · refine potential_lt_of (fun k => ?_) (fun k => ?_) (.inl ⟨i, hi, ?_⟩) (fun _ => rfl)
        (fun _ _ => rfl)
      · simp only [hs₁, insertAt]
        split <;> omega
      · rw [hcol]
        simp only
        split <;> omega
      · simp only [hs₁, insertAt_same]
        omega
  have h2 := hshrink.quiet_right (quiet_removeConstraint s₁ i)
  split at h
  · cases h
  · rename_i r hr
    have hq : Quiet G (removeConstraint s₁ i) r := by
      refine quiet_fold _ _ ?_ _ _ hr
      intro p _ a b hab
      have hb := updateBound_bounds (G := G) a.updates j p.1 p.2
      exact (quiet_updates hb.2 hb.1).trans (quiet_afterBoundChange hG hj.1 hab)
    have h3 := h2.quiet_right hq
    split at h
    · cases h
    · have h4 := ends_queueVariable hj.1 h3.1 h
      refine ⟨h4.1, ?_⟩
      rw [potential_eq (by rw [h4.2.1]) (by rw [h4.2.1]) h4.2.2.1 h4.2.2.2]
      exact h3.2

/-! ### Slack variables -/

theorem quiet_activityQueueIfNeeded {i : ℕ} (hi : i < G.constraintTypes.length) {d : BoundDirection}
    {b : Bool} (h : activityQueueIfNeeded s i d b = .ok t) : Quiet G s t := by
  unfold activityQueueIfNeeded at h
  split at h
  · cases hd : decrement (s.counters.activity i d) with
    | error e => rw [hd] at h; cases h
    | ok n =>
      rw [hd] at h
      simp only [bind, Except.bind, pure, Except.pure] at h
      split at h
      · cases h
        refine ⟨rfl, rfl, rfl, rfl, fun _ h => .inl h, fun q hq => ?_, fun _ h => h, fun _ _ h => h⟩
        rcases mem_pushFifo' hq with h | rfl
        · exact .inl h
        · exact .inr hi
      · cases h
        exact ⟨rfl, rfl, rfl, rfl, fun _ h => .inl h, fun _ h => .inl h, fun _ h => h, fun _ _ h => h⟩
  · cases h
    exact .refl _

theorem ends_slack (hG : G.Consistent) (hs : Queued G s) {j : ℕ} (hj : j < G.vars.length)
    (hj1 : s.counters.columns j = 1) (h : presolveSlack G s j = .ok t) : Shrinks G s t := by
  have hT := activeColumn_tuples hG s.counters j
  have hlen : (activeColumn G s.counters j).length = 1 := by
    rw [hT.length, ← hs.linked.colCount j hj (by omega), hj1]
  obtain ⟨⟨i, coefficient⟩, hcolumn⟩ := List.length_eq_one_iff.1 hlen
  have hr : rowsOf G s.counters j = {i} := by
    rw [← hT.toFinset, hcolumn]
    rfl
  have hi := mem_rowsOf.1 (show i ∈ rowsOf G s.counters j by rw [hr]; simp)
  unfold presolveSlack at h
  rw [hcolumn] at h
  simp only [List.head?_cons, unwrap, bind, Except.bind] at h
  split at h
  · split at h
    · cases h
    · rename_i r hr'
      cases h
      have h1 : Shrinks G s r := ends_row hG hs hi.1 hi.2.2 (fun k => k ≠ j) hr'
      exact (h1.quiet_right (quiet_removeVariable _ _ _)).quiet_right (quiet_removeConstraint _ _)
  · rename_i newType bound' _
    have e1 : decrementColumn s j = .ok { s with counters := { s.counters with
        columns := insertAt s.counters.columns j 0 } } := by
      unfold decrementColumn
      simp only [decrement, hj1]
      rfl
    rw [e1] at h
    simp only [] at h
    split at h
    · cases h
    rename_i s₂ hs₂
    split at h
    · cases h
    rename_i s₃ hs₃
    have hq := ((quiet_removeVariable (G := G) _ j _).trans
      (quiet_activityQueueIfNeeded hi.1 hs₂)).trans (quiet_activityQueueIfNeeded hi.1 hs₃)
    have e2 : decrementConstraint s₃ i = .ok { s₃ with counters := { s₃.counters with
        constraint := insertAt s₃.counters.constraint i (s₃.counters.constraint i - 1) } } := by
      unfold decrementConstraint
      rw [decrement_eq (by rw [hq.constraint]; exact hi.2.2)]
      rfl
    rw [e2] at h
    simp only [queueConstraint_eq] at h
    split at h
    · cases h
    · rename_i r hr'
      cases h
      split at hr'
      · cases hr'
      · cases hr'
        have hc3 : s₃.counters.constraint = s.counters.constraint := hq.constraint
        have hcol3 : s₃.counters.columns = insertAt s.counters.columns j 0 := hq.columns
        simp only [hc3]
        have hc : insertAt s.counters.constraint i (s.counters.constraint i - 1) = fun k =>
            if k ∈ rowsOf G s.counters j then s.counters.constraint k - 1
              else s.counters.constraint k := by
          funext k
          simp only [hr, Finset.mem_singleton, insertAt]
          by_cases hk : k = i
          · simp [hk]
          · simp [hk]
        constructor
        · refine ⟨hs.linked.columnGone hG hj (by omega) hcol3 hc, fun k hk => ?_, fun k hk => ?_,
            fun k hk => ?_, fun p hp => ?_⟩
          · exact (hq.substitution k hk).elim (hs.substitution k) id
          · simp only [insertAt_same] at hk
            rw [List.mem_append, hq.bound] at hk
            rcases hk with hk | hk
            · split at hk
              · rename_i h1
                rw [List.mem_singleton] at hk
                subst hk
                refine ⟨hi.1, ?_⟩
                simp only [insertAt_same]
                omega
              · cases hk
            · have := hs.bound k hk
              refine ⟨this.1, ?_⟩
              simp only [insertAt]
              split
              · rename_i hki
                subst hki
                omega
              · exact this.2
          · have hk' : k ∈ s.queues.slack := by
              have : k ∈ s₃.queues.slack := hk
              rw [hq.slack] at this
              exact this
            have := hs.slack k hk'
            refine ⟨this.1, ?_⟩
            show s₃.counters.columns k ≤ 1
            rw [hcol3]
            unfold insertAt
            split <;> omega
          · exact (hq.activity p hp).elim (hs.activity p) id
        · have hsum1 : ∑ k ∈ range G.constraintTypes.length,
              insertAt s.counters.constraint i (s.counters.constraint i - 1) k <
              ∑ k ∈ range G.constraintTypes.length, s.counters.constraint k := by
            refine Finset.sum_lt_sum (fun k _ => ?_) ⟨i, Finset.mem_range.2 hi.1, ?_⟩
            · unfold insertAt
              split
              · rename_i hki
                subst hki
                omega
              · exact le_rfl
            · rw [insertAt_same]
              have := hi.2.2
              omega
          have hsum2 : ∑ k ∈ range G.vars.length, s₃.counters.columns k <
              ∑ k ∈ range G.vars.length, s.counters.columns k := by
            rw [hcol3]
            refine Finset.sum_lt_sum (fun k _ => ?_) ⟨j, Finset.mem_range.2 hj, ?_⟩
            · unfold insertAt
              split <;> omega
            · rw [insertAt_same]
              omega
          unfold potential
          simp only []
          generalize hw : ({ Updates.changeB G _ i _ with constraints := _ } : Updates) = w
          have hrange : ranges G w ⊆ insert i (ranges G s.updates) := by
            intro k hk
            rw [Finset.mem_insert]
            by_cases hki : k = i
            · exact .inl hki
            · right
              unfold ranges at hk ⊢
              rw [Finset.mem_filter] at hk ⊢
              refine ⟨hk.1, hq.types k ?_⟩
              have : w.constraintType G k = s₃.updates.constraintType G k := by
                rw [← hw]
                simp only [Updates.constraintType, insertAt, hki, if_false, Updates.changeB]
              rw [← this]
              exact hk.2
          have hfree : ∀ d, free G w d ⊆ free G s.updates d := by
            intro d k hk
            unfold free at hk ⊢
            rw [Finset.mem_filter] at hk ⊢
            refine ⟨hk.1, hq.bounds k d ?_⟩
            rw [← hw] at hk
            exact hk.2
          have c1 := (Finset.card_le_card hrange).trans (Finset.card_insert_le _ _)
          have c2 := Finset.card_le_card (hfree .lower)
          have c3 := Finset.card_le_card (hfree .upper)
          omega

/-! ### Domain propagation -/

/-- What a step that may do nothing does. -/
structure Progress (G : GeneralForm) (s t : Index) (change : Change) : Prop where
  queued : Queued G t
  le : potential G t ≤ potential G s
  lt : change = .meaningful → potential G t < potential G s
  same : change = .none → t.queues = s.queues

theorem variableRow_lt (hG : G.Consistent) {c : Counters} {i : ℕ} (hi : i < G.constraintTypes.length)
    {p : ℕ × ℚ} (hp : p ∈ activeRow G c i) : p.1 < G.vars.length :=
  (mem_varsOf.1 (((activeRow_tuples hG c hi).mem p).1 hp).1).1

/-- A bound is derived. -/
theorem derived (hG : G.Consistent) {j : ℕ} (hj : j < G.vars.length) {d : BoundDirection} {new : ℚ}
    (h : afterBoundChange G
      { s with updates := (s.updates.updateActivityVariableBound G j d new).1 } j d
      (s.updates.updateActivityVariableBound G j d new).2 = .ok t) :
    Quiet G s t ∧ ((s.updates.updateActivityVariableBound G j d new).2 = .newBound → Gains G s t) ∧
      ((s.updates.updateActivityVariableBound G j d new).2 = .none → t = s) := by
  have hb := updateActivityVariableBound_bounds (G := G) s.updates j d new
  have hq1 : Quiet G s { s with updates := (s.updates.updateActivityVariableBound G j d new).1 } :=
    quiet_updates hb.2.1 hb.1
  have hq2 := quiet_afterBoundChange hG hj h
  refine ⟨hq1.trans hq2, fun hn => ?_, fun hn => ?_⟩
  · have := hb.2.2.2 hn
    exact Gains.of_left ⟨j, hj, d, this.1, this.2⟩ hq2
  · rw [hn] at h
    cases h
    rw [hb.2.2.1 hn]

theorem ends_createVariableBound (hG : G.Consistent) (hs : Queued G s) {i : ℕ}
    (hi : i < G.constraintTypes.length) {d : BoundDirection} {change : Change}
    (h : createVariableBound G s i d = .ok (t, change)) : Progress G s t change := by
  unfold createVariableBound at h
  split at h
  · cases h
    exact ⟨hs, le_rfl, by simp, fun _ => rfl⟩
  · simp only [bind, Except.bind, pure, Except.pure] at h
    split at h
    · cases h
    rename_i p hp
    have hmem : p ∈ activeRow G s.counters i := by
      cases hf : (activeRow G s.counters i).find? fun p =>
          (s.updates.variableBound G p.1 (d.times p.2)).isNone with
      | none => rw [hf] at hp; cases hp
      | some q =>
        rw [hf] at hp
        cases hp
        exact List.mem_of_find?_eq_some hf
    split at h
    · cases h
    rename_i r hr
    have hd := derived hG (variableRow_lt hG hi hmem) hr
    cases h
    refine ⟨hd.1.queued hs, hd.1.potential, ?_, ?_⟩
    · intro hc
      split at hc <;> rename_i he
      · cases hc
      · exact hd.1.potential_lt (hd.2.1 he)
      · cases hc
    · intro hc
      split at hc <;> rename_i he
      · rw [hd.2.2 he]
      · cases hc
      · cases hc

theorem variableStep_ends (hG : G.Consistent) {rhs activity : ℚ} {d : BoundDirection} {p : ℕ × ℚ}
    (hp : p.1 < G.vars.length) {a b : Index × Change}
    (h : variableStep G rhs activity d a p = .ok b) :
    Quiet G a.1 b.1 ∧ (b.2 = .meaningful → a.2 = .meaningful ∨ Gains G a.1 b.1) ∧
      (b.2 = .none → a = b) := by
  unfold variableStep at h
  simp only [bind, Except.bind, pure, Except.pure] at h
  split at h
  · cases h
  split at h
  · cases h
  rename_i r hr
  have hd := derived hG hp hr
  cases h
  refine ⟨hd.1, ?_, ?_⟩
  · simp only
    intro hc
    split at hc <;> rename_i he
    · exact .inl hc
    · exact .inr (hd.2.1 he)
    · split at hc
      · rename_i hm
        exact .inl hm
      · cases hc
  · simp only
    intro hc
    split at hc <;> rename_i he
    · rw [hd.2.2 he]
    · cases hc
    · split at hc <;> cases hc

theorem variablePart_ends (hG : G.Consistent) {rhs activity : ℚ} {d : BoundDirection} (l : SVec ℕ)
    (hl : ∀ p ∈ l, p.1 < G.vars.length) : ∀ a b : Index × Change,
    l.foldlM (variableStep G rhs activity d) a = .ok b →
    Quiet G a.1 b.1 ∧ (b.2 = .meaningful → a.2 = .meaningful ∨ Gains G a.1 b.1) ∧
      (b.2 = .none → a = b) := by
  induction l with
  | nil =>
    intro a b h
    rw [List.foldlM_nil] at h
    cases h
    exact ⟨.refl _, .inl, fun _ => rfl⟩
  | cons p l ih =>
    intro a b h
    rw [List.foldlM_cons] at h
    cases h1 : variableStep G rhs activity d a p with
    | error e => rw [h1] at h; cases h
    | ok c =>
      rw [h1] at h
      have h2 := variableStep_ends hG (hl p List.mem_cons_self) h1
      have h3 := ih (fun q hq => hl q (List.mem_cons_of_mem _ hq)) c b h
      refine ⟨h2.1.trans h3.1, fun hm => ?_, fun hn => ?_⟩
      · rcases h3.2.1 hm with h4 | h4
        · exact (h2.2.1 h4).imp id fun h5 => h5.of_left h3.1
        · exact .inr (Gains.of_right h2.1 h4)
      · have h4 := h3.2.2 hn
        subst h4
        exact h2.2.2 hn

theorem quiet_activityBoundIfNeeded {i : ℕ} {d : BoundDirection} {bound : ℚ}
    (h : activityBoundIfNeeded G s i d = .ok (t, bound)) : Quiet G s t ∧ t.queues = s.queues := by
  unfold activityBoundIfNeeded at h
  split at h
  · cases h
    exact ⟨.refl _, rfl⟩
  · simp only [bind, Except.bind, pure, Except.pure] at h
    split at h
    · cases h
    · cases h
      exact ⟨⟨rfl, rfl, rfl, rfl, fun _ h => .inl h, fun _ h => .inl h, fun _ h => h,
        fun _ _ h => h⟩, rfl⟩

theorem constraintUpdate_replace {d : BoundDirection} {t t' : ConstraintType} {rhs bound shift : ℚ}
    (h : constraintUpdate d t rhs bound = .ok (some (.replace t' shift))) :
    isRange t = true ∧ isRange t' = false := by
  unfold constraintUpdate at h
  split at h
  all_goals
    repeat' split at h
    all_goals first
      | (cases h; done)
      | (cases h; exact ⟨rfl, rfl⟩)

theorem setVariableToBound_quiet {d : BoundDirection} {p : ℕ × ℚ} (hp : p.1 < G.vars.length)
    {a b : Index × List (ℕ × BoundDirection)} (h : setVariableToBound G d a p = .ok b) :
    Quiet G a.1 b.1 := by
  unfold setVariableToBound at h
  simp only [bind, Except.bind, pure, Except.pure] at h
  split at h
  · cases h
  · cases h
    set u : Updates := (match a.1.updates.activityBounds p.1 (d.times p.2) with
      | some value =>
        { a.1.updates with
          activityBounds := insertAt2 a.1.updates.activityBounds p.1 (d.times p.2) none
          bounds := insertAt2 a.1.updates.bounds p.1 (d.times p.2) (some value) }
      | none => a.1.updates) with hu
    have hu1 : ∀ i, u.constraintType G i = a.1.updates.constraintType G i := by
      intro i
      rw [hu]
      split <;> rfl
    have hu2 : ∀ k e, u.variableBound G k e = none → a.1.updates.variableBound G k e = none := by
      intro k e
      rw [hu]
      split
      · unfold Updates.variableBound
        by_cases hk : k = p.1 ∧ e = d.times p.2
        · simp [insertAt2, hk]
        · simp only [insertAt2_ne _ _ hk]
          exact id
      · exact id
    have hb := updateBound_bounds (G := G) u p.1 (d.times p.2).flip
    refine ⟨rfl, rfl, rfl, rfl, fun k hk => ?_, fun _ h => .inl h, fun i hi => ?_, fun k e hk => ?_⟩
    · rcases List.mem_cons.1 hk with rfl | hk
      · exact .inr hp
      · exact .inl hk
    · rw [← hu1, ← (hb _).2 i]
      exact hi
    · exact hu2 k e ((hb _).1 k e hk)

theorem setVariables_quiet {d : BoundDirection} (l : SVec ℕ) (hl : ∀ p ∈ l, p.1 < G.vars.length) :
    ∀ a b, l.foldlM (setVariableToBound G d) a = .ok b → Quiet G a.1 b.1 := by
  induction l with
  | nil =>
    intro a b h
    rw [List.foldlM_nil] at h
    cases h
    exact .refl _
  | cons p l ih =>
    intro a b h
    rw [List.foldlM_cons] at h
    cases h1 : setVariableToBound G d a p with
    | error e => rw [h1] at h; cases h
    | ok c =>
      rw [h1] at h
      exact (setVariableToBound_quiet (hl p List.mem_cons_self) h1).trans
        (ih (fun q hq => hl q (List.mem_cons_of_mem _ hq)) c b h)

theorem constraintPart_ends (hG : G.Consistent) {i : ℕ} (hi : i < G.constraintTypes.length)
    {bound : ℚ} {d : BoundDirection} {remove apply : Bool} {change : Change}
    (h : constraintPart G s i bound d = .ok (t, remove, apply, change)) :
    Quiet G s t ∧
      (change = .meaningful → remove = true ∨ potential G t < potential G s) ∧
      (change = .none → t = s ∧ remove = false) := by
  unfold constraintPart at h
  simp only [bind, Except.bind, pure, Except.pure] at h
  split at h
  · cases h
  rename_i u hu
  split at h
  · cases h
    exact ⟨.refl _, by simp, fun _ => ⟨rfl, rfl⟩⟩
  · cases h
    exact ⟨.refl _, fun _ => .inl rfl, by simp⟩
  · rename_i t' shift
    cases h
    obtain ⟨h1, h2⟩ := constraintUpdate_replace hu
    have hq : Quiet G s { s with updates := (Updates.changeB G
        ({ s.updates with constraints := insertAt s.updates.constraints i (some t') } : Updates)
        i shift) } := by
      refine ⟨rfl, rfl, rfl, rfl, fun _ h => .inl h, fun _ h => .inl h, fun k hk => ?_, fun _ _ h => h⟩
      by_cases hki : k = i
      · rw [hki]; exact h1
      · simpa [Updates.constraintType, Updates.changeB, insertAt, hki] using hk
    refine ⟨hq, fun _ => .inr ?_, by simp⟩
    have hlt : #(ranges G (Updates.changeB G
        ({ s.updates with constraints := insertAt s.updates.constraints i (some t') } : Updates)
        i shift)) <
        #(ranges G s.updates) := by
      refine Finset.card_lt_card ⟨hq.ranges, fun hsub => ?_⟩
      have hm : i ∈ ranges G s.updates := by
        unfold ranges
        rw [Finset.mem_filter, Finset.mem_range]
        exact ⟨hi, h1⟩
      have := (Finset.mem_filter.1 (hsub hm)).2
      simp [Updates.constraintType, Updates.changeB, insertAt, h2] at this
    have h4 := Finset.card_le_card (hq.free .lower)
    have h5 := Finset.card_le_card (hq.free .upper)
    unfold potential
    simp only [] at hlt h4 h5 ⊢
    omega
  · split at h
    · cases h
    rename_i p hp
    split at h
    · cases h
    rename_i r hr
    cases h
    have h1 := setVariables_quiet (activeRow G s.counters i)
      (fun q hq => variableRow_lt hG hi hq) _ _ hp
    have h2 := quiet_fold (G := G) _ _ (fun a _ s t h => quiet_updateActivityCounters hG h) _ _ hr
    exact ⟨h1.trans h2, fun _ => .inl rfl, by simp⟩

theorem ends_forEntireConstraint (hG : G.Consistent) (hs : Queued G s) {i : ℕ}
    (hi : i < G.constraintTypes.length) (hi0 : s.counters.constraint i ≠ 0) {d : BoundDirection}
    {change : Change} (h : forEntireConstraint G s i d = .ok (t, change)) : Progress G s t change := by
  unfold forEntireConstraint at h
  simp only [bind, Except.bind, pure, Except.pure] at h
  split at h
  · cases h
  rename_i p hp
  obtain ⟨s₁, bound⟩ := p
  have h1 := quiet_activityBoundIfNeeded hp
  simp only [] at h
  split at h
  · cases h
  rename_i p hp
  obtain ⟨s₂, remove, apply, change₂⟩ := p
  have h2 := constraintPart_ends hG hi hp
  simp only [] at h
  have hfinish : ∀ q : Index × Change,
      (Quiet G s₂ q.1 ∧ (q.2 = .meaningful → change₂ = .meaningful ∨ Gains G s₂ q.1) ∧
        (q.2 = .none → (s₂, change₂) = q)) →
      (if remove = true then
        Except.bind (removeConstraintValues G q.1 i) fun v => .ok (removeConstraint v i, q.2)
      else .ok (q.1, q.2) : Run (Index × Change)) = .ok (t, change) → Progress G s t change := by
    intro q h3 h
    have hq := (h1.1.trans h2.1).trans h3.1
    simp only [Except.bind] at h
    split at h
    · rename_i hrem
      split at h
      · cases h
      rename_i r hr
      cases h
      have h4 : Shrinks G s r := Shrinks.quiet_left hq
        (ends_removeConstraintValues hG (hq.queued hs) hi (by rw [hq.constraint]; exact hi0) hr)
      have h5 := h4.quiet_right (quiet_removeConstraint r i)
      refine ⟨h5.1, h5.2.le, fun _ => h5.2, fun hn => ?_⟩
      have h6 := h3.2.2 hn
      subst h6
      have := (h2.2.2 hn).2
      rw [hrem] at this
      cases this
    · rename_i hrem
      cases h
      refine ⟨hq.queued hs, hq.potential, fun hm => ?_, fun hn => ?_⟩
      · rcases h3.2.1 hm with h4 | h4
        · rcases h2.2.1 h4 with h5 | h5
          · exact absurd h5 hrem
          · exact lt_of_le_of_lt h3.1.potential (lt_of_lt_of_le h5 h1.1.potential)
        · exact hq.potential_lt (Gains.of_right (h1.1.trans h2.1) h4)
      · have h6 := h3.2.2 hn
        subst h6
        rw [(h2.2.2 hn).1]
        exact h1.2
  split at h
  · split at h
    · split at h
      · cases h
      rename_i q hv
      exact hfinish q (variablePart_ends hG (activeRow G s₂.counters i)
        (fun p hp => variableRow_lt hG hi hp) (s₂, change₂) q hv) h
    · exact hfinish (s₂, change₂) ⟨.refl _, .inl, fun _ => rfl⟩ h
  · exact hfinish (s₂, change₂) ⟨.refl _, .inl, fun _ => rfl⟩ h

theorem ends_propagation (hG : G.Consistent) (hs : Queued G s) {i : ℕ}
    (hi : i < G.constraintTypes.length) (hi0 : s.counters.constraint i ≠ 0) {d : BoundDirection}
    {change : Change} (h : presolveDomainPropagation G s i d = .ok (t, change)) :
    Progress G s t change := by
  unfold presolveDomainPropagation at h
  split at h
  · exact ends_forEntireConstraint hG hs hi hi0 h
  · exact ends_createVariableBound hG hs hi h
  · cases h

/-! ### No step is out of fuel -/

/-- The fuel is not what ends it. -/
def Halts {α : Type} (r : Run α) : Prop := r ≠ .error .outOfFuel

theorem Halts.ok {α : Type} (a : α) : Halts (.ok a : Run α) := by simp [Halts]

theorem Halts.pure {α : Type} (a : α) : Halts (Pure.pure a : Run α) := Halts.ok a

theorem Halts.verdict {α : Type} (v : LinearProgramType) :
    Halts (.error (.verdict v) : Run α) := by simp [Halts]

theorem Halts.abort {α : Type} (a : Abort) : Halts (.error (.abort a) : Run α) := by simp [Halts]

theorem Halts.bind {α β : Type} {r : Run α} {f : α → Run β} (hr : Halts r) (hf : ∀ a, Halts (f a)) :
    Halts (r >>= f) := by
  cases r with
  | ok a => exact hf a
  | error e =>
    intro h
    apply hr
    cases h
    rfl

theorem Halts.ite {α : Type} {c : Prop} [Decidable c] {r r' : Run α} (h : Halts r) (h' : Halts r') :
    Halts (if c then r else r') := by
  split <;> assumption

theorem Halts.foldlM {α β : Type} {f : β → α → Run β} (l : List α) (hf : ∀ b a, Halts (f b a)) :
    ∀ b, Halts (l.foldlM f b) := by
  induction l with
  | nil => intro b; rw [List.foldlM_nil]; exact .pure _
  | cons a l ih => intro b; rw [List.foldlM_cons]; exact (hf b a).bind ih

theorem Halts.mapM {α β : Type} {f : α → Run β} (l : List α) (hf : ∀ a, Halts (f a)) :
    Halts (l.mapM f) := by
  induction l with
  | nil => rw [List.mapM_nil]; exact .pure _
  | cons a l ih =>
    rw [List.mapM_cons]
    exact (hf a).bind fun _ => ih.bind fun _ => .pure _

theorem Halts.unwrap {α : Type} (o : Option α) : Halts (Presolve.unwrap o) := by
  cases o
  · exact .abort _
  · exact .ok _

theorem Halts.decrement (x : ℕ) : Halts (Presolve.decrement x) := .ite (.abort _) (.ok _)

theorem Halts.decrementColumn (s : Index) (j : ℕ) : Halts (Presolve.decrementColumn s j) :=
  .bind (.decrement _) fun _ => .pure _

theorem Halts.decrementConstraint (s : Index) (i : ℕ) : Halts (Presolve.decrementConstraint s i) :=
  .bind (.decrement _) fun _ => .pure _

theorem Halts.optimizeIndependentColumn (o : Objective) (c : ℚ) (l u : Option ℚ) :
    Halts (Presolve.optimizeIndependentColumn o c l u) := by
  unfold Presolve.optimizeIndependentColumn
  refine .ite (.abort _) ?_
  split
  · exact .ok _
  · exact .verdict _

theorem Halts.queueVariable (s : Index) (j : ℕ) : Halts (queueVariableByCounter G s j) := by
  unfold queueVariableByCounter
  split
  · exact .ite (.bind (.unwrap _) fun _ => .pure _)
      (.bind (.optimizeIndependentColumn _ _ _ _) fun _ => .pure _)
  · exact .ite (.pure _) (.pure _)
  · exact .pure _

theorem Halts.queueConstraint (s : Index) (i : ℕ) : Halts (queueConstraintByCounter G s i) := by
  unfold queueConstraintByCounter
  split
  · exact .ite (.pure _) (.verdict _)
  · exact .pure _
  · exact .pure _

theorem Halts.removeConstraintValues (s : Index) (i : ℕ) :
    Halts (Presolve.removeConstraintValues G s i) :=
  .foldlM _ (fun _ _ => .bind (.decrementConstraint _ _) fun _ =>
    .bind (.decrementColumn _ _) fun _ => .queueVariable _ _) _

theorem Halts.updateActivityCounters (s : Index) (j : ℕ) (d : BoundDirection) :
    Halts (Presolve.updateActivityCounters G s j d) :=
  .foldlM _ (fun _ _ => .bind (.decrement _) fun _ => .ite (.pure _) (.pure _)) _

theorem Halts.afterBoundChange (s : Index) (j : ℕ) (d : BoundDirection) (c : BoundChange) :
    Halts (Presolve.afterBoundChange G s j d c) := by
  unfold Presolve.afterBoundChange
  cases c
  · exact .pure _
  · exact .updateActivityCounters _ _ _
  · exact .pure _

theorem Halts.presolveFixedVariable (s : Index) (j : ℕ) :
    Halts (Presolve.presolveFixedVariable G s j) :=
  .bind (.unwrap _) fun _ => .bind (.foldlM _ (fun _ _ => .bind (.decrementColumn _ _) fun _ =>
    .bind (.decrementConstraint _ _) fun _ => .queueConstraint _ _) _) fun _ => .pure _

theorem Halts.presolveBoundConstraint (s : Index) (i : ℕ) :
    Halts (Presolve.presolveBoundConstraint G s i) := by
  refine .bind (.unwrap _) fun _ => .bind (.decrementColumn _ _) fun _ =>
    .bind (.decrementConstraint _ _) fun _ =>
    .bind (.foldlM _ (fun _ _ => .afterBoundChange _ _ _ _) _) fun _ => ?_
  split
  · exact .verdict _
  · exact .queueVariable _ _

theorem Halts.activityQueueIfNeeded (s : Index) (i : ℕ) (d : BoundDirection) (b : Bool) :
    Halts (Presolve.activityQueueIfNeeded s i d b) :=
  .ite (.bind (.decrement _) fun _ => .ite (.pure _) (.pure _)) (.pure _)

theorem Halts.presolveSlack (s : Index) (j : ℕ) : Halts (Presolve.presolveSlack G s j) := by
  refine .bind (.unwrap _) fun _ => ?_
  simp only []
  split
  · exact .bind (.foldlM _ (fun _ _ => .bind (.decrementConstraint _ _) fun _ =>
      .bind (.decrementColumn _ _) fun _ => .ite (.queueVariable _ _) (.pure _)) _) fun _ => .pure _
  · exact .bind (.decrementColumn _ _) fun _ => .bind (.activityQueueIfNeeded _ _ _ _) fun _ =>
      .bind (.activityQueueIfNeeded _ _ _ _) fun _ => .bind (.decrementConstraint _ _) fun _ =>
      .bind (.queueConstraint _ _) fun _ => .pure _

theorem Halts.constraintUpdate (d : BoundDirection) (t : ConstraintType) (rhs bound : ℚ) :
    Halts (Presolve.constraintUpdate d t rhs bound) := by
  unfold Presolve.constraintUpdate
  split
  all_goals
    repeat' split
    all_goals first
      | exact .ok _
      | exact .verdict _
      | exact .abort _

theorem Halts.activityBoundIfNeeded (s : Index) (i : ℕ) (d : BoundDirection) :
    Halts (Presolve.activityBoundIfNeeded G s i d) := by
  unfold Presolve.activityBoundIfNeeded
  split
  · exact .pure _
  · exact .bind (.bind (.mapM _ fun _ => .bind (.unwrap _) fun _ => .pure _) fun _ => .pure _)
      fun _ => .pure _

theorem Halts.constraintPart (s : Index) (i : ℕ) (bound : ℚ) (d : BoundDirection) :
    Halts (Presolve.constraintPart G s i bound d) := by
  refine .bind (.constraintUpdate _ _ _ _) fun u => ?_
  split
  · exact .pure _
  · exact .pure _
  · exact .pure _
  · exact .bind (.foldlM _ (fun _ _ => .bind (.unwrap _) fun _ => .pure _) _) fun _ =>
      .bind (.foldlM _ (fun _ _ => .updateActivityCounters _ _ _) _) fun _ => .pure _

theorem Halts.variablePart (s : Index) (i : ℕ) (rhs bound : ℚ) (d : BoundDirection) (c : Change) :
    Halts (Presolve.variablePart G s i rhs bound d c) :=
  .foldlM _ (fun _ _ => .bind (.unwrap _) fun _ => .bind (.afterBoundChange _ _ _ _) fun _ =>
    .pure _) _

theorem Halts.forEntireConstraint (s : Index) (i : ℕ) (d : BoundDirection) :
    Halts (Presolve.forEntireConstraint G s i d) := by
  refine .bind (.activityBoundIfNeeded _ _ _) fun _ => .bind (.constraintPart _ _ _ _) fun _ => ?_
  have hfinish : ∀ (remove : Bool) (t : Index) (c : Change), Halts (if remove = true then do
      let s ← Presolve.removeConstraintValues G t i
      Pure.pure (removeConstraint s i, c)
    else Pure.pure (t, c) : Run (Index × Change)) := fun remove t c =>
    .ite (.bind (.removeConstraintValues _ _) fun _ => .pure _) (.pure _)
  simp only []
  split
  · split
    · exact .bind (.variablePart _ _ _ _ _ _) fun _ => hfinish _ _ _
    · exact hfinish _ _ _
  · exact hfinish _ _ _

theorem Halts.createVariableBound (s : Index) (i : ℕ) (d : BoundDirection) :
    Halts (Presolve.createVariableBound G s i d) := by
  unfold Presolve.createVariableBound
  split
  · exact .pure _
  · exact .bind (.unwrap _) fun _ => .bind (.afterBoundChange _ _ _ _) fun _ => .pure _

theorem Halts.presolveStep (s : Index) : Halts (Presolve.presolveStep G s) := by
  unfold Presolve.presolveStep
  simp only []
  split
  · exact .bind (.presolveFixedVariable _ _) fun _ => .pure _
  split
  · exact .bind (.presolveBoundConstraint _ _) fun _ => .pure _
  split
  · exact .bind (.presolveSlack _ _) fun _ => .pure _
  split
  · unfold Presolve.presolveDomainPropagation
    split
    · exact .forEntireConstraint _ _ _
    · exact .createVariableBound _ _ _
    · exact .abort _
  · exact .pure _

/-! ### The loop -/

/-- The number of entries in the queues. -/
def Queues.size (q : Queues) : ℕ :=
  q.substitution.length + q.bound.length + q.slack.length + q.activity.length

theorem ends_step (hG : G.Consistent) (hs : Queued G s) {change : Change}
    (h : presolveStep G s = .ok (t, change)) :
    Queued G t ∧ potential G t ≤ potential G s ∧
      (change = .meaningful → potential G t < potential G s) ∧
      (change = .none → t.queues.size < s.queues.size) := by
  have hqueued : ∀ q : Queues, q.substitution ⊆ s.queues.substitution → q.bound ⊆ s.queues.bound →
      q.slack ⊆ s.queues.slack → q.activity ⊆ s.queues.activity →
      Queued G { s with queues := q } := fun q h1 h2 h3 h4 =>
    ⟨hs.linked, fun j hj => hs.substitution j (h1 hj), fun i hi => hs.bound i (h2 hi),
      fun j hj => hs.slack j (h3 hj), fun p hp => hs.activity p (h4 hp)⟩
  have hpot : ∀ q : Queues, potential G { s with queues := q } = potential G s := fun _ => rfl
  unfold presolveStep at h
  simp only [] at h
  have htail : s.queues.substitution.tail ⊆ s.queues.substitution := List.tail_subset _
  cases hv : s.queues.substitution.head?.filter fun j => 0 < s.counters.columns j with
  | some j =>
    simp only [hv] at h
    rw [Option.filter_eq_some_iff] at hv
    have hj : j ∈ s.queues.substitution := List.mem_of_mem_head? hv.1
    have hj0 : s.counters.columns j ≠ 0 := by
      have := hv.2
      simp only [decide_eq_true_eq] at this
      omega
    simp only [bind, Except.bind, pure, Except.pure] at h
    split at h
    · cases h
    rename_i r hr
    cases h
    have := ends_fixed hG (hqueued { s.queues with substitution := s.queues.substitution.tail } htail
      (fun _ h => h) (fun _ h => h) (fun _ h => h)) (hs.substitution j hj) hj0 hr
    rw [Shrinks, hpot] at this
    exact ⟨this.1, this.2.le, fun _ => this.2, by simp⟩
  | none =>
    simp only [hv] at h
    cases hb : s.queues.bound.dropWhile fun i => s.counters.constraint i = 0 with
    | cons i rest =>
      simp only [hb, bind, Except.bind, pure, Except.pure] at h
      split at h
      · cases h
      rename_i r hr
      cases h
      have hsuf : i :: rest <:+ s.queues.bound := hb ▸ List.dropWhile_suffix _
      have hi := hs.bound i (hsuf.subset (by simp))
      have hi0 : s.counters.constraint i ≠ 0 := by
        have h := dropWhile_head hb
        simpa using h
      have := ends_bound hG (hqueued { s.queues with
          substitution := s.queues.substitution.tail, bound := rest } htail
        (fun k hk => hsuf.subset (by simp [hk])) (fun _ h => h) (fun _ h => h))
        hi.1 (by show s.counters.constraint i = 1; omega) hr
      rw [Shrinks, hpot] at this
      exact ⟨this.1, this.2.le, fun _ => this.2, by simp⟩
    | nil =>
      simp only [hb] at h
      cases hl : s.queues.slack.dropWhile fun j => s.counters.columns j = 0 with
      | cons j rest =>
        simp only [hl, bind, Except.bind, pure, Except.pure] at h
        split at h
        · cases h
        rename_i r hr
        cases h
        have hsuf : j :: rest <:+ s.queues.slack := hl ▸ List.dropWhile_suffix _
        have hj := hs.slack j (hsuf.subset (by simp))
        have hj0 : s.counters.columns j ≠ 0 := by
          have h := dropWhile_head hl
          simpa using h
        have := ends_slack hG (hqueued { s.queues with
            substitution := s.queues.substitution.tail, bound := [], slack := rest } htail
          (by simp) (fun k hk => hsuf.subset (by simp [hk])) (fun _ h => h))
          hj.1 (by show s.counters.columns j = 1; omega) hr
        rw [Shrinks, hpot] at this
        exact ⟨this.1, this.2.le, fun _ => this.2, by simp⟩
      | nil =>
        simp only [hl] at h
        cases ha : s.queues.activity.dropWhile fun p => s.counters.constraint p.1 = 0 with
        | cons p rest =>
          obtain ⟨i, d⟩ := p
          simp only [ha] at h
          have hsuf : (i, d) :: rest <:+ s.queues.activity := ha ▸ List.dropWhile_suffix _
          have hi := hs.activity (i, d) (hsuf.subset (by simp))
          have hi0 : s.counters.constraint i ≠ 0 := by
            have h := dropWhile_head ha
            simpa using h
          have := ends_propagation hG (hqueued { s.queues with
              substitution := s.queues.substitution.tail, bound := [], slack := [],
              activity := rest } htail (by simp) (by simp) (fun k hk => hsuf.subset (by simp [hk])))
            hi hi0 h
          refine ⟨this.queued, this.le, this.lt, fun hn => ?_⟩
          rw [this.same hn]
          have h1 := hsuf.length_le
          simp only [Queues.size, List.length_tail, List.length_nil, List.length_cons] at h1 ⊢
          omega
        | nil =>
          simp only [ha] at h
          cases h
          exact ⟨hqueued _ htail (by simp) (by simp) (by simp), le_rfl, by simp, by simp⟩

theorem remaining_le (s : Index) : remaining G s ≤ G.vars.length + G.constraintTypes.length := by
  unfold remaining
  omega

/-- The number of iterations without a meaningful change. -/
def nextIterations (iterations : ℕ) : Change → ℕ
  | .meaningful => 0
  | .none => iterations
  | .notMeaningful => iterations + 1

/-- The loop ends: beyond some amount of fuel, the result is always the same. -/
theorem ends_loop (hG : G.Consistent) : ∀ (p k q : ℕ) (s : Index) (iterations : ℕ), Queued G s →
    potential G s = p → G.vars.length + G.constraintTypes.length - iterations = k →
    s.queues.size = q →
    ∃ bound, ∃ r : Run Index, Halts r ∧ ∀ fuel, bound ≤ fuel → presolveLoop G fuel s iterations = r := by
  intro p
  induction p using Nat.strong_induction_on with
  | _ p ihp =>
  intro k
  induction k using Nat.strong_induction_on with
  | _ k ihk =>
  intro q
  induction q using Nat.strong_induction_on with
  | _ q ihq =>
  intro s iterations hs hp hk hq
  by_cases hc : (!s.queues.areEmpty && decide (iterations < remaining G s)) = true
  · have hlt : iterations < remaining G s := by
      rw [Bool.and_eq_true, decide_eq_true_eq] at hc
      exact hc.2
    have hR := remaining_le (G := G) s
    have hunfold : ∀ fuel, presolveLoop G (fuel + 1) s iterations = (do
        let x ← presolveStep G s
        presolveLoop G fuel x.1 (nextIterations iterations x.2)) := by
      intro fuel
      rw [presolveLoop.eq_def]
      simp only [hc, if_true]
      rfl
    cases hstep : presolveStep G s with
    | error e =>
      refine ⟨1, .error e, ?_, fun fuel hf => ?_⟩
      · have := Halts.presolveStep (G := G) s
        rw [hstep] at this
        intro h
        apply this
        cases h
        rfl
      · obtain ⟨fuel, rfl⟩ : ∃ f, fuel = f + 1 := ⟨fuel - 1, by omega⟩
        rw [hunfold, hstep]
        rfl
    | ok x =>
      obtain ⟨t, change⟩ := x
      obtain ⟨h1, h2, h3, h4⟩ := ends_step hG hs hstep
      have key : ∀ it, nextIterations iterations change = it →
          (∃ bound, ∃ r : Run Index, Halts r ∧
            ∀ fuel, bound ≤ fuel → presolveLoop G fuel t it = r) →
          ∃ bound, ∃ r : Run Index, Halts r ∧
            ∀ fuel, bound ≤ fuel → presolveLoop G fuel s iterations = r := by
        rintro it rfl ⟨bound, r, hr, hall⟩
        refine ⟨bound + 1, r, hr, fun fuel hf => ?_⟩
        obtain ⟨fuel, rfl⟩ : ∃ f, fuel = f + 1 := ⟨fuel - 1, by omega⟩
        rw [hunfold, hstep]
        exact hall fuel (by omega)
      cases change with
      | meaningful =>
        refine key 0 rfl (ihp (potential G t) ?_ _ _ t 0 h1 rfl rfl rfl)
        rw [← hp]
        exact h3 rfl
      | notMeaningful =>
        rcases Nat.lt_or_ge (potential G t) p with h | h
        · exact key (iterations + 1) rfl (ihp (potential G t) h _ _ t _ h1 rfl rfl rfl)
        · refine key (iterations + 1) rfl (ihk _ ?_ _ t _ h1 (by omega) rfl rfl)
          omega
      | none =>
        rcases Nat.lt_or_ge (potential G t) p with h | h
        · exact key iterations rfl (ihp (potential G t) h _ _ t _ h1 rfl rfl rfl)
        · refine key iterations rfl (ihq _ ?_ t _ h1 (by omega) hk rfl)
          rw [← hq]
          exact h4 rfl
  · refine ⟨0, .ok s, .ok _, fun fuel _ => ?_⟩
    rw [presolveLoop.eq_def]
    simp only [hc]
    rfl

theorem start_queued (hG : G.Consistent) (h : Index.new G = .ok s) : Queued G s := by
  unfold Index.new at h
  simp only [bind, Except.bind, pure, Except.pure] at h
  split at h
  · cases h
  cases h
  refine ⟨⟨fun i hi _ => ?_, fun j hj _ => ?_⟩, fun j hj => ?_, fun i hi => ?_, fun j hj => ?_,
    fun p hp => ?_⟩
  · show (Counters.new G).constraint i = #(varsOf G (Counters.new G) i)
    rw [start_varsOf hG, start_rows hG hi]
  · show (Counters.new G).columns j = #(rowsOf G (Counters.new G) j)
    rw [start_rowsOf hG, start_columns hG]
  · simp only [Queues.new, List.mem_reverse, List.mem_filter, List.mem_range] at hj
    exact hj.1
  · simp only [Queues.new, List.mem_reverse, List.mem_filter, List.mem_range,
      decide_eq_true_eq] at hi
    exact ⟨hi.1, hi.2.le⟩
  · simp only [Queues.new, List.mem_reverse, List.mem_filter, List.mem_range,
      decide_eq_true_eq] at hj
    exact ⟨hj.1, hj.2.1.le⟩
  · simp only [Queues.new, List.mem_flatMap, List.mem_range] at hp
    obtain ⟨i, hi, hp⟩ := hp
    have : p.1 = i := by
      split at hp
      · rw [List.mem_append] at hp
        rcases hp with hp | hp <;> split at hp <;> simp_all
      · cases hp
    omega

theorem Halts.indexNew : Halts (Index.new G) := by
  refine .bind (.bind (.foldlM _ (fun _ _ => ?_) _) fun _ =>
    .bind (.foldlM _ (fun _ _ => ?_) _) fun _ => .pure _) fun _ => .pure _
  · exact .ite (.bind (.unwrap _) fun _ => .pure _)
      (.bind (.optimizeIndependentColumn _ _ _ _) fun _ => .pure _)
  · exact .bind (.unwrap _) fun _ => .ite (.pure _) (.verdict _)

/-- Presolving ends. -/
theorem ends_presolve (hG : G.Consistent) : ∃ bound, ∃ r : Run GeneralForm, Halts r ∧
    ∀ fuel, bound ≤ fuel → presolve fuel G = r := by
  unfold presolve
  cases h : Index.new G with
  | error e =>
    refine ⟨0, .error e, ?_, fun _ _ => rfl⟩
    have := Halts.indexNew (G := G)
    rw [h] at this
    intro h
    apply this
    cases h
    rfl
  | ok s =>
    obtain ⟨bound, r, hr, hall⟩ := ends_loop hG _ _ _ s 0 (start_queued hG h) rfl rfl rfl
    simp only [bind, Except.bind]
    cases r with
    | error e =>
      refine ⟨bound, .error e, fun h => hr (by cases h; rfl), fun fuel hf => ?_⟩
      rw [hall fuel hf]
    | ok s' =>
      refine ⟨bound, (do
        let H := updateRemaining G s'.updates
        let H ← removeRowsAndColumns H s'.updates.constraintsRemoved
          (s'.updates.removedVariables.map (·.1))
        let H := computeSolutionWherePossible H
        match getSolution H with
        | some solution => .error (.verdict (.finiteOptimum solution))
        | none => Pure.pure H), ?_, fun fuel hf => ?_⟩
      · refine .bind ?_ fun _ => ?_
        · unfold removeRowsAndColumns
          simp only []
          split
          · exact .pure _
          · refine .bind (.foldlM _ (fun _ _ => ?_) _) fun _ => .pure _
            unfold renumber
            split
            · exact .ok _
            · exact .abort _
        · simp only []
          split
          · exact .verdict _
          · exact .pure _
      · rw [hall fuel hf]
        rfl

end Presolve

end Relp
