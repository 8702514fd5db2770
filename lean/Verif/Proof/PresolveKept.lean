import Verif.Proof.PresolvePropagation

/-!
# Stored extreme values of constraints stay right
-/

namespace Relp

open Finset

namespace Presolve

variable {G : GeneralForm} {s : Index}

theorem accurate_congr {s t : Index} {k : ℕ} {e : BoundDirection}
    (hv : varsOf G t.counters k = varsOf G s.counters k)
    (hb : ∀ j d, t.updates.variableBound G j d = s.updates.variableBound G j d)
    (hc : t.activityBounds = s.activityBounds) (h : AccurateAt G s k e) : AccurateAt G t k e := by
  unfold AccurateAt activityAt at *
  rw [hv, hc]
  simp only [hb]
  exact h

theorem queueVariableByCounter_same {s t : Index} {j : ℕ} (h : queueVariableByCounter G s j = .ok t) :
    t.counters = s.counters ∧ t.activityBounds = s.activityBounds ∧
      ∀ k d, t.updates.variableBound G k d = s.updates.variableBound G k d := by
  unfold queueVariableByCounter at h
  split at h
  · split at h
    · cases hf : feasibleValue (s.updates.variableBound G j .lower) (s.updates.variableBound G j .upper) with
      | none => rw [hf] at h; cases h
      | some v => rw [hf] at h; cases h; exact ⟨rfl, rfl, fun _ _ => rfl⟩
    · cases ho : optimizeIndependentColumn G.objective (costOf G j)
        (s.updates.variableBound G j .lower) (s.updates.variableBound G j .upper) with
      | error a => rw [ho] at h; cases h
      | ok v => rw [ho] at h; cases h; exact ⟨rfl, rfl, fun _ _ => rfl⟩
  · split at h
    · cases h; exact ⟨rfl, rfl, fun _ _ => rfl⟩
    · cases h; exact ⟨rfl, rfl, fun _ _ => rfl⟩
  · cases h; exact ⟨rfl, rfl, fun _ _ => rfl⟩

theorem presolveBoundConstraint_accurate (hG : G.Consistent) (hs : s.WF G) {i : ℕ}
    (hi : i < G.constraintTypes.length) (h1 : s.counters.constraint i = 1) {rest : List ℕ}
    (hsub : rest ⊆ s.queues.bound)
    (hrest : ∀ k ≠ i, s.counters.constraint k = 1 → k ∈ s.queues.bound → k ∈ rest) {t : Index}
    (ht : presolveBoundConstraint G { s with queues := { s.queues with bound := rest } } i = .ok t)
    {k : ℕ} (hk : k < G.constraintTypes.length) (hk0 : t.counters.constraint k ≠ 0)
    {e : BoundDirection} (ha : AccurateAt G s k e) : AccurateAt G t k e := by
  obtain ⟨j, u, hv, hu, he⟩ := presolveBoundConstraint_eq hG hs hi h1 hsub hrest
  rw [he] at ht
  split at ht
  · cases ht
  · obtain ⟨q1, q2, q3⟩ := queueVariableByCounter_same ht
    have hgone := boundRowGone_spec hG hs.toCounts hi h1 hv hsub hrest
    have hk1 := hk0
    rw [q1, hu.constraint] at hk1
    refine accurate_congr (by rw [q1]) q3 q2 (hu.stored k hk hk1 e ?_)
    exact accurate_congr (hgone.varsOf hs.toCounts hk1 hG hi (by omega)) hgone.variableBound hgone.cache ha

theorem createVariableBound_accurate (hG : G.Consistent) (hs : s.Counts G) {i : ℕ} {d : BoundDirection}
    (hi : i < G.constraintTypes.length) {t : Index} {c : Change}
    (ht : createVariableBound G s i d = .ok (t, c))
    {k : ℕ} (hk : k < G.constraintTypes.length) (hk0 : s.counters.constraint k ≠ 0)
    {e : BoundDirection} (ha : AccurateAt G s k e) : AccurateAt G t k e := by
  unfold createVariableBound at ht
  split at ht
  · cases ht; exact ha
  · cases hf : (activeRow G s.counters i).find? (fun p =>
      (s.updates.variableBound G p.1 (d.times p.2)).isNone) with
    | none => rw [hf] at ht; cases ht
    | some p =>
      have hp := mem_varsOf.1 (((activeRow_tuples hG s.counters hi).mem p).1
        (List.mem_of_find?_eq_some hf)).1
      simp only [hf, unwrap, bind, Except.bind, pure, Except.pure] at ht
      split at ht
      · cases ht
      · rename_i u hu
        cases ht
        exact afterBoundChange_accurate hG hs (updateActivityVariableBound_spec (G := G) s.updates p.1 _ _
          hs.disjoint) hp.1 (fun _ _ => hp.2.2) hu hk hk0 ha

end Presolve

end Relp
