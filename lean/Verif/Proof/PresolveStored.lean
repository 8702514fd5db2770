import Verif.Proof.PresolveBounds

/-!
# Stored extreme values of constraints, when bounds change
-/

namespace Relp

open Finset

namespace Presolve

variable {G : GeneralForm}

theorem times_eq_iff (c : ℚ) (a b : BoundDirection) : a.times c = b ↔ a = b.times c := by
  unfold BoundDirection.times
  split <;> cases a <;> cases b <;> decide

/-- The extreme value of a constraint if the bound of one variable changes. -/
theorem activityAt_update {s t : Index} {v : Updates} {j : ℕ} {d : BoundDirection} {new : ℚ}
    {change : BoundChange} (h : BoundUpdated G s.updates j d new v change)
    (hc : t.counters.columns = s.counters.columns) (hu : t.updates = v) (k : ℕ) (e : BoundDirection) :
    activityAt G t k e = activityAt G s k e +
      if j ∈ varsOf G s.counters k ∧ e = d.times (coef G k j) then
        coef G k j * ((v.variableBound G j d).getD 0 - (s.updates.variableBound G j d).getD 0)
      else 0 := by
  have hv : varsOf G t.counters k = varsOf G s.counters k := by
    unfold varsOf
    rw [hc]
  unfold activityAt
  rw [hv, hu]
  have hother : ∀ l ∈ (varsOf G s.counters k).erase j,
      coef G k l * (v.variableBound G l (e.times (coef G k l))).getD 0 =
      coef G k l * (s.updates.variableBound G l (e.times (coef G k l))).getD 0 := by
    intro l hl
    rw [h.other l _ fun h' => (Finset.mem_erase.1 hl).1 h'.1]
  by_cases hj : j ∈ varsOf G s.counters k
  · rw [← Finset.add_sum_erase _ _ hj, ← Finset.add_sum_erase _ (fun l => coef G k l *
      (s.updates.variableBound G l (e.times (coef G k l))).getD 0) hj, Finset.sum_congr rfl hother]
    by_cases he : e = d.times (coef G k j)
    · rw [if_pos ⟨hj, he⟩, (times_eq_iff _ _ _).2 he]
      ring
    · rw [if_neg fun h' => he h'.2, h.other j _ fun h' => he ((times_eq_iff _ _ _).1 h'.2)]
      ring
  · rw [if_neg fun h' => hj h'.1, add_zero]
    refine Finset.sum_congr rfl fun l hl => ?_
    exact hother l (Finset.mem_erase.2 ⟨fun h' => hj (h' ▸ hl), hl⟩)

theorem updateActivityBound_stored (d : BoundDirection) (δ : ℚ) (s : Index) (p : ℕ × ℚ)
    (hp : s.counters.constraint p.1 ≠ 0) (k : ℕ) (e : BoundDirection) :
    (updateActivityBound d δ s p).activityBounds k e =
      if k = p.1 ∧ e = d.times p.2 then (s.activityBounds k e).map (· + p.2 * δ)
      else s.activityBounds k e := by
  unfold updateActivityBound
  rw [if_pos (by omega)]
  simp only
  split
  · rename_i bound hb
    show insertAt2 _ _ _ _ _ _ = _
    by_cases h : k = p.1 ∧ e = d.times p.2
    · obtain ⟨rfl, rfl⟩ := h
      rw [insertAt2_same, if_pos ⟨rfl, rfl⟩, hb, mul_comm]
      rfl
    · rw [insertAt2_ne _ _ h, if_neg h]
  · rename_i hb
    by_cases h : k = p.1 ∧ e = d.times p.2
    · obtain ⟨rfl, rfl⟩ := h
      rw [if_pos ⟨rfl, rfl⟩, hb]
      rfl
    · rw [if_neg h]

theorem updateActivityBound_counters (d : BoundDirection) (δ : ℚ) (s : Index) (p : ℕ × ℚ) :
    (updateActivityBound d δ s p).counters = s.counters := by
  unfold updateActivityBound
  split
  · simp only
    split <;> rfl
  · rfl

/-- The stored extreme values of the constraints of a variable are shifted. -/
theorem updateActivityBounds_stored (hG : G.Consistent) (s : Index) (j : ℕ) (d : BoundDirection) (δ : ℚ)
    (k : ℕ) (e : BoundDirection) :
    (updateActivityBounds G s j d δ).activityBounds k e =
      if k ∈ rowsOf G s.counters j ∧ e = d.times (coef G k j) then
        (s.activityBounds k e).map (· + coef G k j * δ)
      else s.activityBounds k e := by
  have ht := activeColumn_tuples hG s.counters j
  have key : ∀ (l : List (ℕ × ℚ)) (s : Index), (l.map (·.1)).Nodup →
      (∀ p ∈ l, s.counters.constraint p.1 ≠ 0 ∧ p.2 = coef G p.1 j) →
      (l.foldl (updateActivityBound d δ) s).activityBounds k e =
        if k ∈ l.map (·.1) ∧ e = d.times (coef G k j) then
          (s.activityBounds k e).map (· + coef G k j * δ)
        else s.activityBounds k e := by
    intro l
    induction l with
    | nil => intro s _ _; simp
    | cons p l ih =>
      intro s hn hl
      rw [List.map_cons, List.nodup_cons] at hn
      obtain ⟨hp1, hp2⟩ := hl p (by simp)
      rw [List.foldl_cons, ih _ hn.2 (fun q hq => by
        rw [updateActivityBound_counters]
        exact hl q (List.mem_cons_of_mem _ hq)), updateActivityBound_stored d δ s p hp1]
      by_cases he : k = p.1 ∧ e = d.times p.2
      · obtain ⟨rfl, rfl⟩ := he
        rw [if_neg fun h' => hn.1 h'.1, if_pos ⟨rfl, rfl⟩, if_pos ⟨by simp, by rw [hp2]⟩, hp2]
      · rw [if_neg he, List.map_cons]
        have : (k ∈ l.map (·.1) ∧ e = d.times (coef G k j)) ↔
            (k ∈ p.1 :: l.map (·.1) ∧ e = d.times (coef G k j)) := by
          rw [List.mem_cons]
          refine ⟨fun h' => ⟨Or.inr h'.1, h'.2⟩, fun h' => ⟨?_, h'.2⟩⟩
          refine h'.1.resolve_left fun h'' => he ⟨h'', ?_⟩
          rw [h'.2, hp2, h'']
        simp only [this]
  unfold updateActivityBounds
  rw [key _ s ht.nodup fun p hp => by
    obtain ⟨h1, h2⟩ := (ht.mem p).1 hp
    exact ⟨(mem_rowsOf.1 h1).2.2, h2⟩]
  simp only [ht.mem_keys]

/-- Stored extreme values stay right when a change of a bound is processed. -/
theorem afterBoundChange_accurate (hG : G.Consistent) {s : Index} (hs : s.Counts G) {v : Updates} {j : ℕ}
    {d : BoundDirection} {new : ℚ} {change : BoundChange}
    (h : BoundUpdated G s.updates j d new v change) (hj : j < G.vars.length)
    (hj0 : ∀ i ∈ rowsOf G s.counters j, s.counters.columns j ≠ 0) {t : Index}
    (ht : afterBoundChange G { s with updates := v } j d change = .ok t) {k : ℕ}
    (hk : k < G.constraintTypes.length) (hk0 : s.counters.constraint k ≠ 0) {e : BoundDirection}
    (ha : AccurateAt G s k e) : AccurateAt G t k e := by
  obtain ⟨t', e', a⟩ := afterBoundChange_spec hG hs h hj hj0
  rw [ht] at e'
  cases e'
  have hact := activityAt_update h a.columns a.updates k e
  have hrow : j ∈ varsOf G s.counters k → k ∈ rowsOf G s.counters j := fun h' =>
    mem_rowsOf.2 ⟨hk, (mem_varsOf.1 h').2.1, hk0⟩
  have hvar : k ∈ rowsOf G s.counters j → j ∈ varsOf G s.counters k := fun h' =>
    mem_varsOf.2 ⟨hj, (mem_rowsOf.1 h').2.1, hj0 k h'⟩
  have hb := h.value
  unfold afterBoundChange at ht
  simp only at ht
  cases change with
  | none =>
    cases ht
    intro b hb'
    rw [ha b hb', hact, if_pos rfl] at *
    rw [hb]
    simp
  | newBound =>
    simp only at ht
    have hnone := h.newBound.1 rfl
    have key : ∀ q : Index, q.counters = s.counters → q.activityBounds = s.activityBounds →
        updateActivityCounters G q j d = .ok t → t.activityBounds = s.activityBounds := by
      intro q h1 h2 h3
      obtain ⟨t1, e1, c1, _⟩ := updateActivityCounters_spec hG q j d (fun i hi => by
        rw [h1] at hi
        have hi' := mem_rowsOf.1 hi
        have hm : j ∈ missing G s i (d.times (coef G i j)) := by
          refine Finset.mem_filter.2 ⟨mem_varsOf.2 ⟨hj, hi'.2.1, hj0 i hi⟩, ?_⟩
          rw [(times_eq_iff _ _ _).2 rfl]
          exact hnone
        rw [h1, hs.activity i hi'.1 hi'.2.2]
        exact Finset.card_ne_zero_of_mem hm)
      rw [h3] at e1
      cases e1
      rw [c1.cache, h2]
    have hst : t.activityBounds = s.activityBounds := by
      refine key _ ?_ ?_ ht <;> split <;> rfl
    intro b hb'
    rw [hst] at hb'
    rw [ha b hb', hact]
    have h0 := hs.cache k hk hk0 e (by rw [hb']; simp)
    rw [hs.activity k hk hk0, Finset.card_eq_zero] at h0
    rw [if_neg, add_zero]
    rintro ⟨h1, h2⟩
    have : j ∈ missing G s k e := by
      refine Finset.mem_filter.2 ⟨h1, ?_⟩
      rw [(times_eq_iff _ _ _).2 h2]
      exact hnone
    rw [h0] at this
    simp at this
  | boundShift δ =>
    obtain ⟨o, ho, hδ, _⟩ := h.shift δ rfl
    have hst : t.activityBounds k e =
        if k ∈ rowsOf G s.counters j ∧ e = d.times (coef G k j) then
          (s.activityBounds k e).map (· + coef G k j * δ) else s.activityBounds k e := by
      simp only [pure, Except.pure, Except.ok.injEq] at ht
      rw [← ht, updateActivityBounds_stored hG]
      split <;> split <;> first | rfl | (split <;> rfl)
    intro b hb'
    rw [hst] at hb'
    rw [hact]
    by_cases hc : k ∈ rowsOf G s.counters j ∧ e = d.times (coef G k j)
    · rw [if_pos hc] at hb'
      rw [if_pos ⟨hvar hc.1, hc.2⟩, hb, if_neg (by simp), ho]
      cases hs' : s.activityBounds k e with
      | none => rw [hs'] at hb'; cases hb'
      | some b' =>
        rw [hs'] at hb'
        simp only [Option.map_some, Option.some.injEq] at hb'
        rw [← hb', ha b' hs', hδ]
        rfl
    · rw [if_neg hc] at hb'
      rw [ha b hb', if_neg fun h' => hc ⟨hrow h'.1, h'.2⟩, add_zero]

end Presolve

end Relp
