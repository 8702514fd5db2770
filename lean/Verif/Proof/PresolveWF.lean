import Verif.Proof.PresolveEmpty

/-!
# The counters and queues stay correct when a row or a column is removed
-/

namespace Relp

open Finset

namespace Presolve

variable {G : GeneralForm}

theorem two_le_card {S : Finset ℕ} {a b : ℕ} (ha : a ∈ S) (hb : b ∈ S) (hab : a ≠ b) : 2 ≤ #S := by
  have h1 : ({a, b} : Finset ℕ) ⊆ S := by
    intro x hx
    rw [Finset.mem_insert, Finset.mem_singleton] at hx
    rcases hx with rfl | rfl <;> assumption
  have := Finset.card_le_card h1
  rwa [Finset.card_pair hab] at this

/-- A row is removed. -/
structure RowGone (G : GeneralForm) (s t : Index) (i : ℕ) : Prop where
  constraint : t.counters.constraint = insertAt s.counters.constraint i 0
  columns : t.counters.columns = fun k =>
    if k ∈ varsOf G s.counters i then s.counters.columns k - 1 else s.counters.columns k
  activity : t.counters.activity = s.counters.activity
  cache : t.activityBounds = s.activityBounds
  bounds : t.updates.bounds = s.updates.bounds
  activityBounds : t.updates.activityBounds = s.updates.activityBounds
  rowsGone : t.updates.constraintsRemoved = s.updates.constraintsRemoved ++ [i]
  substitution : t.queues.substitution = s.queues.substitution
  bound : ∀ k ≠ i, s.counters.constraint k = 1 → k ∈ s.queues.bound → k ∈ t.queues.bound
  boundSub : t.queues.bound ⊆ s.queues.bound
  slack : ∀ k ∈ t.queues.slack, k ∈ s.queues.slack ∨
    k < G.vars.length ∧ t.counters.columns k ≤ 1 ∧ costOf G k = 0
  activityQueue : t.queues.activity = s.queues.activity

theorem RowGone.variableBound {s t : Index} {i : ℕ} (h : RowGone G s t i) (j : ℕ)
    (d : BoundDirection) : t.updates.variableBound G j d = s.updates.variableBound G j d := by
  unfold Updates.variableBound
  rw [h.bounds, h.activityBounds]

section

variable {s t : Index} {i : ℕ} (h : RowGone G s t i)

include h

theorem RowGone.constraint_ne {k : ℕ} : t.counters.constraint k ≠ 0 ↔
    k ≠ i ∧ s.counters.constraint k ≠ 0 := by
  rw [h.constraint]
  by_cases hk : k = i
  · subst hk; simp [insertAt_same]
  · rw [insertAt_ne _ _ hk]; simp [hk]

theorem RowGone.rowsOf (j : ℕ) : rowsOf G t.counters j = (rowsOf G s.counters j).erase i := by
  ext k
  rw [Finset.mem_erase, mem_rowsOf, mem_rowsOf, h.constraint_ne]
  tauto

theorem RowGone.varsOf (hs : s.Counts G) {k : ℕ} (hk : t.counters.constraint k ≠ 0)
    (hG : G.Consistent)
    (hi : i < G.constraintTypes.length) (hi0 : s.counters.constraint i ≠ 0) :
    varsOf G t.counters k = varsOf G s.counters k := by
  rw [h.constraint_ne] at hk
  ext j
  rw [mem_varsOf, mem_varsOf, h.columns]
  constructor
  · rintro ⟨h1, h2, h3⟩
    refine ⟨h1, h2, fun h0 => h3 ?_⟩
    simp only [h0]
    split <;> rfl
  · rintro ⟨h1, h2, h3⟩
    refine ⟨h1, h2, ?_⟩
    simp only
    split
    · rename_i hj
      rw [mem_varsOf] at hj
      have h4 : i ∈ Presolve.rowsOf G s.counters j := mem_rowsOf.2 ⟨hi, hj.2.1, hi0⟩
      have h5 : k ∈ Presolve.rowsOf G s.counters j := mem_rowsOf.2 ⟨coef_row_lt hG h2, h2, hk.2⟩
      have := two_le_card h4 h5 (Ne.symm hk.1)
      rw [← hs.colCount j h1 h3] at this
      omega
    · exact h3

theorem RowGone.counts (hs : s.Counts G) (hG : G.Consistent) (hi : i < G.constraintTypes.length)
    (hi0 : s.counters.constraint i ≠ 0) : t.Counts G where
  rowCount k hk hk0 := by
    rw [h.varsOf hs hk0 hG hi hi0]
    have := h.constraint_ne.1 hk0
    rw [h.constraint, insertAt_ne _ _ this.1]
    exact hs.rowCount k hk this.2
  colCount j hj hj0 := by
    have hj1 : s.counters.columns j ≠ 0 := by
      intro h0
      apply hj0
      rw [h.columns]
      simp only [h0]
      split <;> rfl
    rw [h.rowsOf, h.columns]
    simp only
    split
    · rename_i hm
      rw [mem_varsOf] at hm
      rw [Finset.card_erase_of_mem (mem_rowsOf.2 ⟨hi, hm.2.1, hi0⟩), ← hs.colCount j hj hj1]
    · rename_i hm
      rw [Finset.erase_eq_of_notMem, hs.colCount j hj hj1]
      intro h'
      rw [mem_rowsOf] at h'
      exact hm (mem_varsOf.2 ⟨hj, h'.2.1, hj1⟩)
  activity k hk hk0 d := by
    have e : missing G t k d = missing G s k d := by
      unfold missing
      rw [h.varsOf hs hk0 hG hi hi0]
      exact Finset.filter_congr fun j _ => by rw [h.variableBound]
    rw [e, h.activity]
    exact hs.activity k hk (h.constraint_ne.1 hk0).2 d
  cache k hk hk0 d hd := by
    rw [h.cache] at hd
    rw [h.activity]
    exact hs.cache k hk (h.constraint_ne.1 hk0).2 d hd
  disjoint j d := by
    rw [h.bounds, h.activityBounds]
    exact hs.disjoint j d
  substitutionQueue := by rw [h.substitution]; exact hs.substitutionQueue
  boundQueue k hk := by
    obtain ⟨h1, h2⟩ := hs.boundQueue k (h.boundSub hk)
    refine ⟨h1, ?_⟩
    rw [h.constraint]
    by_cases hki : k = i
    · subst hki; rw [insertAt_same]; exact Nat.zero_le 1
    · rw [insertAt_ne _ _ hki]; exact h2
  allBounds k hk hk1 := by
    have := (h.constraint_ne (k := k)).1 (by omega)
    rw [h.constraint, insertAt_ne _ _ this.1] at hk1
    exact h.bound k this.1 hk1 (hs.allBounds k hk hk1)
  slackQueue j hj := by
    rcases h.slack j hj with hj | hj
    · obtain ⟨h1, h2, h3⟩ := hs.slackQueue j hj
      refine ⟨h1, ?_, h3⟩
      rw [h.columns]
      simp only
      split <;> omega
    · exact hj
  activityQueue p hp := by
    rw [h.activityQueue] at hp
    obtain ⟨h1, h2⟩ := hs.activityQueue p hp
    refine ⟨h1, fun h3 => ?_⟩
    rw [h.activity]
    exact h2 (h.constraint_ne.1 h3).2

end

/-- The removed variables are those without rows. -/
theorem RowGone.wf {s t : Index} {i : ℕ} (h : RowGone G s t i) (hs : s.WF G) (hG : G.Consistent)
    (hi : i < G.constraintTypes.length)
    (hi0 : s.counters.constraint i ≠ 0) {R : List (ℕ × RemovedVariable)}
    (hr : t.updates.removedVariables = s.updates.removedVariables ++ R) (hn : (R.map (·.1)).Nodup)
    (hR : ∀ j, j ∈ R.map (·.1) ↔ j ∈ Presolve.varsOf G s.counters i ∧ s.counters.columns j = 1)
    (ho : Ordered t.updates.removedVariables)
    (hm : ∀ p ∈ R, ∀ k, p.2.Mentions k → k < G.vars.length) : t.WF G where
  toCounts := h.counts hs.toCounts hG hi hi0
  rowsRemoved k hk := by
    rw [h.rowsGone, List.mem_append, List.mem_singleton, hs.rowsRemoved k hk, ← not_iff_not]
    have := h.constraint_ne (k := k)
    constructor
    · intro h'
      rw [not_or] at h'
      exact this.2 ⟨h'.2, h'.1⟩
    · intro h' h''
      have := this.1 h'
      tauto
  varsRemoved j hj := by
    rw [hr, List.map_append, List.mem_append, hs.varsRemoved j hj, hR, h.columns]
    simp only
    constructor
    · rintro (h0 | ⟨h1, h2⟩)
      · rw [h0]; split <;> rfl
      · rw [if_pos h1, h2]
    · intro h0
      by_cases h1 : j ∈ Presolve.varsOf G s.counters i
      · rw [if_pos h1] at h0
        by_cases h2 : s.counters.columns j = 0
        · exact Or.inl h2
        · exact Or.inr ⟨h1, by omega⟩
      · rw [if_neg h1] at h0
        exact Or.inl h0
  rowsRange k hk := by
    rw [h.rowsGone, List.mem_append, List.mem_singleton] at hk
    rcases hk with hk | rfl
    · exact hs.rowsRange k hk
    · exact hi
  varsRange j hj := by
    rw [hr, List.map_append, List.mem_append, hR] at hj
    rcases hj with hj | ⟨hj, _⟩
    · exact hs.varsRange j hj
    · exact (mem_varsOf.1 hj).1
  rowsNodup := by
    rw [h.rowsGone, List.nodup_append]
    refine ⟨hs.rowsNodup, by simp, ?_⟩
    intro a ha b hb
    rw [List.mem_singleton] at hb
    subst hb
    rintro rfl
    exact hi0 ((hs.rowsRemoved a hi).1 ha)
  varsNodup := by
    rw [hr, List.map_append, List.nodup_append]
    refine ⟨hs.varsNodup, hn, ?_⟩
    intro a ha b hb
    rintro rfl
    rw [hR] at hb
    have h1 := (hs.varsRemoved a (mem_varsOf.1 hb.1).1).1 ha
    omega
  ordered := ho
  mentioned p hp k hk := by
    rw [hr, List.mem_append] at hp
    rcases hp with hp | hp
    · exact hs.mentioned p hp k hk
    · exact hm p hp k hk

/-- A column is removed. -/
structure ColumnGone (G : GeneralForm) (s t : Index) (j : ℕ) : Prop where
  columns : t.counters.columns = insertAt s.counters.columns j 0
  constraint : t.counters.constraint = fun i =>
    if i ∈ rowsOf G s.counters j then s.counters.constraint i - 1 else s.counters.constraint i
  activity : ∀ i < G.constraintTypes.length, t.counters.constraint i ≠ 0 → ∀ d,
    t.counters.activity i d = #((missing G s i d).erase j)
  cache : t.activityBounds = s.activityBounds
  bounds : t.updates.bounds = s.updates.bounds
  activityBounds : t.updates.activityBounds = s.updates.activityBounds
  substitution : t.queues.substitution = s.queues.substitution
  bound : ∀ k, k ∈ t.queues.bound ↔ k ∈ s.queues.bound ∨
    k ∈ rowsOf G s.counters j ∧ s.counters.constraint k = 2
  slack : t.queues.slack = s.queues.slack
  activityQueue : ∀ p ∈ t.queues.activity, p ∈ s.queues.activity ∨
    p.1 < G.constraintTypes.length ∧ (t.counters.constraint p.1 ≠ 0 → t.counters.activity p.1 p.2 ≤ 1)

section

variable {s t : Index} {j : ℕ} (h : ColumnGone G s t j)

include h

theorem ColumnGone.variableBound (k : ℕ)
    (d : BoundDirection) : t.updates.variableBound G k d = s.updates.variableBound G k d := by
  unfold Updates.variableBound
  rw [h.bounds, h.activityBounds]

theorem ColumnGone.columns_ne {k : ℕ} : t.counters.columns k ≠ 0 ↔
    k ≠ j ∧ s.counters.columns k ≠ 0 := by
  rw [h.columns]
  by_cases hk : k = j
  · subst hk; simp [insertAt_same]
  · rw [insertAt_ne _ _ hk]; simp [hk]

theorem ColumnGone.varsOf (i : ℕ) : varsOf G t.counters i = (varsOf G s.counters i).erase j := by
  ext k
  rw [Finset.mem_erase, mem_varsOf, mem_varsOf, h.columns_ne]
  tauto

theorem ColumnGone.constraint_ne {i : ℕ} (hi : t.counters.constraint i ≠ 0) :
    s.counters.constraint i ≠ 0 := by
  intro h0
  apply hi
  rw [h.constraint]
  simp only [h0]
  split <;> rfl

theorem ColumnGone.rowsOf (hs : s.Counts G) {k : ℕ} (hk : t.counters.columns k ≠ 0)
    (hG : G.Consistent)
    (hj : j < G.vars.length) (hj0 : s.counters.columns j ≠ 0) :
    rowsOf G t.counters k = rowsOf G s.counters k := by
  rw [h.columns_ne] at hk
  ext i
  rw [mem_rowsOf, mem_rowsOf]
  constructor
  · rintro ⟨h1, h2, h3⟩
    exact ⟨h1, h2, h.constraint_ne h3⟩
  · rintro ⟨h1, h2, h3⟩
    refine ⟨h1, h2, ?_⟩
    rw [h.constraint]
    simp only
    split
    · rename_i hi
      rw [mem_rowsOf] at hi
      have h4 : j ∈ Presolve.varsOf G s.counters i := mem_varsOf.2 ⟨hj, hi.2.1, hj0⟩
      have h5 : k ∈ Presolve.varsOf G s.counters i := mem_varsOf.2 ⟨coef_var_lt hG h2, h2, hk.2⟩
      have := two_le_card h4 h5 (Ne.symm hk.1)
      rw [← hs.rowCount i h1 h3] at this
      omega
    · exact h3

theorem ColumnGone.missing (i : ℕ) (d : BoundDirection) :
    missing G t i d = (missing G s i d).erase j := by
  unfold Presolve.missing
  rw [h.varsOf]
  ext k
  simp only [Finset.mem_erase, Finset.mem_filter, h.variableBound]
  tauto

theorem ColumnGone.counts (hs : s.Counts G) (hG : G.Consistent)
    (hj : j < G.vars.length) (hj0 : s.counters.columns j ≠ 0) : t.Counts G where
  rowCount i hi hi0 := by
    have hi1 := h.constraint_ne hi0
    rw [h.varsOf, h.constraint]
    simp only
    split
    · rename_i hm
      rw [mem_rowsOf] at hm
      rw [Finset.card_erase_of_mem (mem_varsOf.2 ⟨hj, hm.2.1, hj0⟩), ← hs.rowCount i hi hi1]
    · rename_i hm
      rw [Finset.erase_eq_of_notMem, hs.rowCount i hi hi1]
      intro h'
      rw [mem_varsOf] at h'
      exact hm (mem_rowsOf.2 ⟨hi, h'.2.1, hi1⟩)
  colCount k hk hk0 := by
    rw [h.rowsOf hs hk0 hG hj hj0]
    have := h.columns_ne.1 hk0
    rw [h.columns, insertAt_ne _ _ this.1]
    exact hs.colCount k hk this.2
  activity i hi hi0 d := by
    rw [h.missing]
    exact h.activity i hi hi0 d
  cache i hi hi0 d hd := by
    rw [h.activity i hi hi0]
    rw [h.cache] at hd
    have h0 := hs.cache i hi (h.constraint_ne hi0) d hd
    rw [hs.activity i hi (h.constraint_ne hi0), Finset.card_eq_zero] at h0
    rw [h0]
    rfl
  disjoint k d := by
    rw [h.bounds, h.activityBounds]
    exact hs.disjoint k d
  substitutionQueue := by rw [h.substitution]; exact hs.substitutionQueue
  boundQueue k hk := by
    rcases (h.bound k).1 hk with hk | ⟨hk, h2⟩
    · obtain ⟨h1, h2⟩ := hs.boundQueue k hk
      refine ⟨h1, ?_⟩
      rw [h.constraint]
      simp only
      split <;> omega
    · refine ⟨(mem_rowsOf.1 hk).1, ?_⟩
      rw [h.constraint]
      simp only [if_pos hk, h2]
      exact le_refl 1
  allBounds k hk hk1 := by
    rw [h.constraint] at hk1
    simp only at hk1
    rw [h.bound]
    split at hk1
    · rename_i hm
      exact Or.inr ⟨hm, by omega⟩
    · exact Or.inl (hs.allBounds k hk hk1)
  slackQueue k hk := by
    rw [h.slack] at hk
    obtain ⟨h1, h2, h3⟩ := hs.slackQueue k hk
    refine ⟨h1, ?_, h3⟩
    rw [h.columns]
    by_cases hkj : k = j
    · subst hkj; rw [insertAt_same]; exact Nat.zero_le 1
    · rw [insertAt_ne _ _ hkj]; exact h2
  activityQueue p hp := by
    rcases h.activityQueue p hp with hp | hp
    · obtain ⟨h1, h2⟩ := hs.activityQueue p hp
      refine ⟨h1, fun h3 => ?_⟩
      have h4 := h2 (h.constraint_ne h3)
      rw [hs.activity p.1 h1 (h.constraint_ne h3)] at h4
      rw [h.activity p.1 h1 h3]
      exact le_trans (Finset.card_le_card (Finset.erase_subset _ _)) h4
    · exact hp

/-- The removed rows are those without variables. -/
theorem ColumnGone.wf (hs : s.WF G) (hG : G.Consistent)
    (hj : j < G.vars.length) (hj0 : s.counters.columns j ≠ 0) {r : RemovedVariable} {R : List ℕ}
    (hr : t.updates.removedVariables = s.updates.removedVariables ++ [(j, r)])
    (hR : t.updates.constraintsRemoved = s.updates.constraintsRemoved ++ R) (hn : R.Nodup)
    (hR' : ∀ i, i ∈ R ↔ i ∈ Presolve.rowsOf G s.counters j ∧ s.counters.constraint i = 1)
    (ho : Ordered t.updates.removedVariables)
    (hm : ∀ k, r.Mentions k → k < G.vars.length) : t.WF G where
  toCounts := h.counts hs.toCounts hG hj hj0
  varsRemoved k hk := by
    rw [hr, List.map_append, List.mem_append, List.map_singleton, List.mem_singleton,
      hs.varsRemoved k hk, ← not_iff_not]
    have := h.columns_ne (k := k)
    constructor
    · intro h'
      rw [not_or] at h'
      exact this.2 ⟨h'.2, h'.1⟩
    · intro h' h''
      have := this.1 h'
      tauto
  rowsRemoved i hi := by
    rw [hR, List.mem_append, hs.rowsRemoved i hi, hR', h.constraint]
    simp only
    constructor
    · rintro (h0 | ⟨h1, h2⟩)
      · rw [h0]; split <;> rfl
      · rw [if_pos h1, h2]
    · intro h0
      by_cases h1 : i ∈ Presolve.rowsOf G s.counters j
      · rw [if_pos h1] at h0
        by_cases h2 : s.counters.constraint i = 0
        · exact Or.inl h2
        · exact Or.inr ⟨h1, by omega⟩
      · rw [if_neg h1] at h0
        exact Or.inl h0
  rowsRange i hi := by
    rw [hR, List.mem_append, hR'] at hi
    rcases hi with hi | hi
    · exact hs.rowsRange i hi
    · exact (mem_rowsOf.1 hi.1).1
  varsRange k hk := by
    rw [hr, List.map_append, List.mem_append, List.map_singleton, List.mem_singleton] at hk
    rcases hk with hk | rfl
    · exact hs.varsRange k hk
    · exact hj
  rowsNodup := by
    rw [hR, List.nodup_append]
    refine ⟨hs.rowsNodup, hn, ?_⟩
    intro a ha b hb
    rintro rfl
    rw [hR'] at hb
    have := (hs.rowsRemoved a (hs.rowsRange a ha)).1 ha
    omega
  varsNodup := by
    rw [hr, List.map_append, List.nodup_append]
    refine ⟨hs.varsNodup, by simp, ?_⟩
    intro a ha b hb
    rw [List.map_singleton, List.mem_singleton] at hb
    subst hb
    rintro rfl
    exact hj0 ((hs.varsRemoved _ hj).1 ha)
  ordered := ho
  mentioned p hp k hk := by
    rw [hr, List.mem_append, List.mem_singleton] at hp
    rcases hp with hp | rfl
    · exact hs.mentioned p hp k hk
    · exact hm k hk

end

end Presolve

end Relp
