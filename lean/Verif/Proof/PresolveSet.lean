import Verif.Proof.PresolvePropagation

/-!
# Rows that leave only one value for their variables, and the rule as a whole
-/

namespace Relp

open Finset

namespace Presolve

variable {G : GeneralForm}

/-! ### Counters after several new bounds -/

/-- The state after the counters were updated for several variables that have new bounds. -/
structure CountersMany (s t : Index) (rows : ℕ → Prop) : Prop where
  updates : t.updates = s.updates
  cache : t.activityBounds = s.activityBounds
  columns : t.counters.columns = s.counters.columns
  constraint : t.counters.constraint = s.counters.constraint
  substitution : t.queues.substitution = s.queues.substitution
  bound : t.queues.bound = s.queues.bound
  slack : t.queues.slack = s.queues.slack
  decreases : ∀ i e, t.counters.activity i e ≤ s.counters.activity i e
  queue : ∀ p ∈ t.queues.activity, p ∈ s.queues.activity ∨
    rows p.1 ∧ t.counters.activity p.1 p.2 ≤ 1

open Classical in
theorem countersMany (hG : G.Consistent) (new : List (ℕ × BoundDirection)) :
    ∀ (s : Index) (M : ℕ → BoundDirection → Finset ℕ), (new.map (·.1)).Nodup →
    (∀ i < G.constraintTypes.length, s.counters.constraint i ≠ 0 → ∀ e,
      s.counters.activity i e = #(M i e)) →
    (∀ p ∈ new, ∀ i ∈ rowsOf G s.counters p.1, p.1 ∈ M i (p.2.times (coef G i p.1))) →
    ∃ t, new.foldlM (fun s p => updateActivityCounters G s p.1 p.2) s = .ok t ∧
      CountersMany s t (· < G.constraintTypes.length) ∧
      ∀ i < G.constraintTypes.length, s.counters.constraint i ≠ 0 → ∀ e,
        t.counters.activity i e = #((M i e).filter fun k =>
          ¬∃ f, (k, f) ∈ new ∧ i ∈ rowsOf G s.counters k ∧ f.times (coef G i k) = e) := by
  induction new with
  | nil =>
    intro s M _ hM _
    refine ⟨s, rfl, ⟨rfl, rfl, rfl, rfl, rfl, rfl, rfl, fun _ _ => le_refl _, fun p hp => Or.inl hp⟩,
      fun i hi hi0 e => ?_⟩
    rw [hM i hi hi0 e]
    simp
  | cons p new ih =>
    intro s M hn hM hmem
    rw [List.map_cons, List.nodup_cons] at hn
    obtain ⟨t, e1, hc, ha⟩ := updateActivityCounters_spec hG s p.1 p.2 (by
      intro i hi
      have hi' := mem_rowsOf.1 hi
      rw [hM i hi'.1 hi'.2.2]
      exact Finset.card_ne_zero_of_mem (hmem p (by simp) i hi))
    have hrows : ∀ k, rowsOf G t.counters k = rowsOf G s.counters k := by
      intro k; unfold rowsOf; rw [hc.constraint]
    let M' : ℕ → BoundDirection → Finset ℕ := fun i e =>
      if i ∈ rowsOf G s.counters p.1 ∧ e = p.2.times (coef G i p.1) then (M i e).erase p.1 else M i e
    obtain ⟨r, e2, hr, hra⟩ := ih t M' hn.2 (by
      intro i hi hi0 e
      rw [hc.constraint] at hi0
      rw [ha, hM i hi hi0 e]
      show _ = #(if _ then _ else _)
      by_cases h : i ∈ rowsOf G s.counters p.1 ∧ e = p.2.times (coef G i p.1)
      · rw [if_pos h, if_pos h, Finset.card_erase_of_mem]
        rw [h.2]
        exact hmem p (by simp) i h.1
      · rw [if_neg h, if_neg h, Nat.sub_zero]) (by
      intro q hq i hi
      rw [hrows] at hi
      have hmq := hmem q (by simp [hq]) i hi
      show q.1 ∈ (if _ then _ else _)
      have hne : q.1 ≠ p.1 := by
        intro h
        exact hn.1 (h ▸ List.mem_map_of_mem hq)
      split
      · exact Finset.mem_erase.2 ⟨hne, hmq⟩
      · exact hmq)
    refine ⟨r, ?_, ⟨hr.updates.trans hc.updates, hr.cache.trans hc.cache, hr.columns.trans hc.columns,
      hr.constraint.trans hc.constraint, hr.substitution.trans hc.substitution,
      hr.bound.trans hc.bound, hr.slack.trans hc.slack, fun i e => ?_, fun q hq => ?_⟩,
      fun i hi hi0 e => ?_⟩
    · rw [List.foldlM_cons, e1]
      exact e2
    · refine (hr.decreases i e).trans ?_
      rw [ha]
      omega
    · rcases hr.queue q hq with h | h
      · rcases hc.queue q h with h | ⟨h, h'⟩
        · exact Or.inl h
        · refine Or.inr ⟨?_, (hr.decreases _ _).trans h'⟩
          obtain ⟨a, ha', rfl⟩ := List.mem_map.1 h
          exact (mem_rowsOf.1 (((activeColumn_tuples hG s.counters p.1).mem a).1 ha').1).1
      · exact Or.inr h
    · rw [hra i hi (by rw [hc.constraint]; exact hi0) e]
      congr 1
      ext k
      simp only [Finset.mem_filter, hrows, List.mem_cons]
      show k ∈ (if _ then _ else _) ∧ _ ↔ _
      by_cases h : i ∈ rowsOf G s.counters p.1 ∧ e = p.2.times (coef G i p.1)
      · rw [if_pos h, Finset.mem_erase]
        constructor
        · rintro ⟨⟨h1, h2⟩, h3⟩
          refine ⟨h2, ?_⟩
          rintro ⟨f, h4 | h4, h5⟩
          · exact h1 (congrArg Prod.fst h4)
          · exact h3 ⟨f, h4, h5⟩
        · rintro ⟨h1, h2⟩
          refine ⟨⟨?_, h1⟩, ?_⟩
          · rintro rfl
            exact h2 ⟨p.2, Or.inl rfl, h.1, h.2.symm⟩
          · rintro ⟨f, h4, h5⟩
            exact h2 ⟨f, Or.inr h4, h5⟩
      · rw [if_neg h]
        constructor
        · rintro ⟨h2, h3⟩
          refine ⟨h2, ?_⟩
          rintro ⟨f, h4 | h4, h5⟩
          · cases p
            cases h4
            exact h ⟨h5.1, h5.2.symm⟩
          · exact h3 ⟨f, h4, h5⟩
        · rintro ⟨h1, h2⟩
          refine ⟨h1, ?_⟩
          rintro ⟨f, h4, h5⟩
          exact h2 ⟨f, Or.inr h4, h5⟩

/-! ### All variables get the value of one of their bounds -/

section

variable {s : Index} {i : ℕ} {d : BoundDirection}

/-- The state after the variables of a list have got the value of the bound that counts for the
activity. -/
structure SetTo (G : GeneralForm) (s : Index) (i : ℕ) (d : BoundDirection) (done : List ℕ) (t : Index)
    (new : List (ℕ × BoundDirection)) : Prop where
  counters : t.counters = s.counters
  cache : t.activityBounds = s.activityBounds
  boundQueue : t.queues.bound = s.queues.bound
  slackQueue : t.queues.slack = s.queues.slack
  activityQueue : t.queues.activity = s.queues.activity
  substitution : ∀ k ∈ t.queues.substitution, k ∈ s.queues.substitution ∨ k ∈ done
  b : t.updates.b = s.updates.b
  constraints : t.updates.constraints = s.updates.constraints
  fixedCost : t.updates.fixedCost = s.updates.fixedCost
  removedVariables : t.updates.removedVariables = s.updates.removedVariables
  constraintsRemoved : t.updates.constraintsRemoved = s.updates.constraintsRemoved
  disjoint : ∀ k e, Separated G k e (t.updates.bounds k e) (t.updates.activityBounds k e)
  bound : ∀ k e, t.updates.variableBound G k e =
    if k ∈ done then s.updates.variableBound G k (d.times (coef G i k))
    else s.updates.variableBound G k e
  newNodup : (new.map (·.1)).Nodup
  new : ∀ p, p ∈ new ↔ p.1 ∈ done ∧ p.2 = (d.times (coef G i p.1)).flip ∧
    s.updates.variableBound G p.1 p.2 = none

theorem setLoop (hs : s.Fit G) (hi : i < G.constraintTypes.length)
    (hi0 : s.counters.constraint i ≠ 0) (h0 : s.counters.activity i d = 0) (l : List (ℕ × ℚ)) :
    ∀ (done : List ℕ) (t : Index) (new : List (ℕ × BoundDirection)), (l.map (·.1)).Nodup →
      (∀ p ∈ l, p.1 ∈ varsOf G s.counters i ∧ p.2 = coef G i p.1 ∧ p.1 ∉ done) →
      SetTo G s i d done t new →
      ∃ r new', l.foldlM (setVariableToBound G d) (t, new) = .ok (r, new') ∧
        SetTo G s i d (done ++ l.map (·.1)) r new' := by
  induction l with
  | nil =>
    intro done t new _ _ ht
    exact ⟨t, new, rfl, by simpa using ht⟩
  | cons p l ih =>
    intro done t new hn hmem ht
    obtain ⟨hp, hc, hd⟩ := hmem p (by simp)
    have hp' := mem_varsOf.1 hp
    rw [List.map_cons, List.nodup_cons] at hn
    obtain ⟨b, hb⟩ := bound_of_count hs.toCounts hi hi0 h0 hp
    have hb' : t.updates.variableBound G p.1 (d.times p.2) = some b := by
      rw [hc, ht.bound, if_neg hd, hb]
    let u : Updates := match t.updates.activityBounds p.1 (d.times p.2) with
      | some value =>
        { t.updates with
          activityBounds := insertAt2 t.updates.activityBounds p.1 (d.times p.2) none
          bounds := insertAt2 t.updates.bounds p.1 (d.times p.2) (some value) }
      | none => t.updates
    have hu : u.b = t.updates.b ∧ u.constraints = t.updates.constraints ∧
        u.fixedCost = t.updates.fixedCost ∧ u.removedVariables = t.updates.removedVariables ∧
        u.constraintsRemoved = t.updates.constraintsRemoved ∧
        (∀ k e, Separated G k e (u.bounds k e) (u.activityBounds k e)) ∧
        ∀ k e, u.variableBound G k e = t.updates.variableBound G k e := by
      cases hact : t.updates.activityBounds p.1 (d.times p.2) with
      | none =>
        simp only [u, hact]
        exact ⟨trivial, trivial, trivial, trivial, trivial, ht.disjoint, fun _ _ => trivial⟩
      | some value =>
        simp only [u, hact]
        refine ⟨by trivial, by trivial, by trivial, by trivial, by trivial, fun k e => ?_,
          fun k e => ?_⟩
        · by_cases h : k = p.1 ∧ e = d.times p.2
          · rw [h.1, h.2]
            exact .of_none (insertAt2_same _ _ _ _)
          · rw [insertAt2_ne _ _ h, insertAt2_ne _ _ h]
            exact ht.disjoint k e
        · unfold Updates.variableBound
          by_cases h : k = p.1 ∧ e = d.times p.2
          · rw [h.1, h.2]
            simp only [insertAt2_same, hact]
            rfl
          · simp only [insertAt2_ne _ _ h]
    obtain ⟨u1, u2, u3, u4, u5, u6, u7⟩ := hu
    have hbu := updateBound_spec (G := G) u p.1 (d.times p.2).flip b u6
    have hval : (u.updateBound G p.1 (d.times p.2).flip b).1.variableBound G p.1 (d.times p.2).flip =
        some b := by
      rw [hbu.value]
      split
      · rename_i hnone
        obtain ⟨e, he, htight⟩ := hbu.tighter hnone
        rw [he]
        have hle : (d.times p.2).Respects (some b) e := by
          rw [u7, ht.bound, if_neg hd] at he
          have hbd := hs.proper.bounds p.1 (hs.mem_live.2 ⟨hp'.1, hp'.2.2⟩)
          rw [← hc] at hb
          revert he hb
          cases d.times p.2 with
          | lower => exact fun hb he => hbd b hb e he
          | upper => exact fun hb he => hbd e he b hb
        have := (respects_not_tighter htight e).1 (BoundDirection.respects_refl _ e)
        exact congrArg some (BoundDirection.respects_antisymm hle (BoundDirection.respects_flip.1 this.2))
      · rfl
    obtain ⟨r, new', e, hr⟩ := ih (done ++ [p.1])
      { t with
        updates := (u.updateBound G p.1 (d.times p.2).flip b).1
        queues := { t.queues with substitution := p.1 :: t.queues.substitution } }
      (if (u.updateBound G p.1 (d.times p.2).flip b).2 = .newBound then
        new ++ [(p.1, (d.times p.2).flip)] else new) hn.2 (by
      intro q hq
      obtain ⟨h1, h2, h3⟩ := hmem q (by simp [hq])
      refine ⟨h1, h2, ?_⟩
      rw [List.mem_append, List.mem_singleton, not_or]
      refine ⟨h3, fun h => hn.1 (h ▸ List.mem_map_of_mem hq)⟩) (by
      have hnewb : (u.updateBound G p.1 (d.times p.2).flip b).2 = .newBound ↔
          s.updates.variableBound G p.1 (d.times p.2).flip = none := by
        rw [hbu.newBound, u7, ht.bound, if_neg hd]
      have hpnew : p.1 ∉ new.map (·.1) := by
        intro h
        obtain ⟨q, hq, hq'⟩ := List.mem_map.1 h
        have := ((ht.new q).1 hq).1
        rw [hq'] at this
        exact hd this
      refine ⟨ht.counters, ht.cache, ht.boundQueue, ht.slackQueue, ht.activityQueue, fun k hk => ?_,
        hbu.b.trans (u1.trans ht.b), hbu.constraints.trans (u2.trans ht.constraints),
        hbu.fixedCost.trans (u3.trans ht.fixedCost),
        hbu.removedVariables.trans (u4.trans ht.removedVariables),
        hbu.constraintsRemoved.trans (u5.trans ht.constraintsRemoved), hbu.disjoint, fun k e => ?_,
        ?_, fun q => ?_⟩
      · rcases List.mem_cons.1 hk with rfl | hk
        · exact Or.inr (by simp)
        · rcases ht.substitution k hk with h | h
          · exact Or.inl h
          · exact Or.inr (List.mem_append_left _ h)
      · show (u.updateBound G p.1 (d.times p.2).flip b).1.variableBound G k e = _
        by_cases hk : k = p.1
        · subst hk
          rw [if_pos (by simp), ← hc]
          by_cases he : e = (d.times p.2).flip
          · rw [he, hval, hc, hb]
          · have : e = d.times p.2 := by
              revert he
              cases e <;> cases d.times p.2 <;> simp [BoundDirection.flip]
            rw [hbu.other _ _ fun h => he h.2, this, u7, hb', hc, hb]
        · rw [hbu.other k e fun h => hk h.1, u7, ht.bound]
          simp [hk]
      · split
        · rw [List.map_append, List.nodup_append]
          refine ⟨ht.newNodup, by simp, ?_⟩
          intro a ha b' hb'
          rw [List.map_singleton, List.mem_singleton] at hb'
          subst hb'
          rintro rfl
          exact hpnew ha
        · exact ht.newNodup
      · by_cases hnb : (u.updateBound G p.1 (d.times p.2).flip b).2 = .newBound
        · rw [if_pos hnb, List.mem_append, List.mem_append, List.mem_singleton, List.mem_singleton, ht.new]
          constructor
          · rintro (h | rfl)
            · exact ⟨Or.inl h.1, h.2⟩
            · exact ⟨Or.inr rfl, by rw [hc], hnewb.1 hnb⟩
          · rintro ⟨h | h, h1, h2⟩
            · exact Or.inl ⟨h, h1, h2⟩
            · exact Or.inr (Prod.ext h (by rw [h1, h, hc]))
        · rw [if_neg hnb, List.mem_append, List.mem_singleton, ht.new]
          constructor
          · rintro h
            exact ⟨Or.inl h.1, h.2⟩
          · rintro ⟨h | h, h1, h2⟩
            · exact ⟨h, h1, h2⟩
            · exfalso
              apply hnb
              rw [hnewb, hc, ← h, ← h1]
              exact h2)
    refine ⟨r, new', ?_, ?_⟩
    · rw [List.foldlM_cons]
      have hstep : setVariableToBound G d (t, new) p = .ok
          ({ t with
            updates := (u.updateBound G p.1 (d.times p.2).flip b).1
            queues := { t.queues with substitution := p.1 :: t.queues.substitution } },
          if (u.updateBound G p.1 (d.times p.2).flip b).2 = .newBound then
            new ++ [(p.1, (d.times p.2).flip)] else new) := by
        unfold setVariableToBound
        simp only [hb', unwrap, bind, Except.bind, pure, Except.pure]
        rfl
      rw [hstep]
      exact e
    · rw [List.map_cons]
      simpa using hr

theorem _root_.Relp.BoundDirection.times_times (d : BoundDirection) (c : ℚ) :
    (d.times c).times c = d := by
  unfold BoundDirection.times
  split
  · rfl
  · exact d.flip_flip

theorem _root_.Relp.BoundDirection.eq_or_flip (d e : BoundDirection) : e = d ∨ e = d.flip := by
  cases d <;> cases e <;> simp [BoundDirection.flip]

/-- If the extreme value is reached, each variable is at its bound. -/
theorem tight (hs : s.WF G) (hi : i < G.constraintTypes.length)
    (hi0 : s.counters.constraint i ≠ 0) (h0 : s.counters.activity i d = 0) {x : ℕ → ℚ}
    (hx : s.updates.BoundsHold G x) (hv : s.updates.value G i x = activityAt G s i d) {j : ℕ}
    (hj : j ∈ varsOf G s.counters i) {b : ℚ}
    (hb : s.updates.variableBound G j (d.times (coef G i j)) = some b) : x j = b := by
  have hj' := mem_varsOf.1 hj
  have h1 := respects_residual hs hi hi0 h0 hx hj hb
  rw [hv] at h1
  have h2 := hx j (hs.mem_live.2 ⟨hj'.1, hj'.2.2⟩) (d.times (coef G i j))
  rw [hb, BoundDirection.respects_times hj'.2.1] at h2
  have h3 : d.Respects (some (coef G i j * x j)) (coef G i j * b) := by
    rw [← BoundDirection.respects_add (c := activityAt G s i d - coef G i j * b)]
    convert h1 using 1
    · congr 1
      ring
    · ring
  exact mul_left_cancel₀ hj'.2.1 (BoundDirection.respects_antisymm h2 h3)

theorem setVariables (hG : G.Consistent) (hs : s.Fit G) (hi : i < G.constraintTypes.length)
    (hi0 : s.counters.constraint i ≠ 0) (h0 : s.counters.activity i d = 0)
    (htight : ∀ V, d.Respects (some (activityAt G s i d)) V →
      ((s.updates.constraintType G i).Holds (s.updates.rhs G i) V ↔ V = activityAt G s i d)) :
    ∃ r new t, (activeRow G s.counters i).foldlM (setVariableToBound G d) (s, []) = .ok (r, new) ∧
      new.foldlM (fun s p => updateActivityCounters G s p.1 p.2) r = .ok t ∧ Narrower G s t ∧
      ∀ x, t.updates.BoundsHold G x →
        (t.updates.constraintType G i).Holds (t.updates.rhs G i) (t.updates.value G i x) := by
  have htu := activeRow_tuples hG s.counters hi
  obtain ⟨r, new, e1, hr⟩ := setLoop hs hi hi0 h0 (activeRow G s.counters i) [] s [] htu.nodup
    (fun p hp => ⟨((htu.mem p).1 hp).1, ((htu.mem p).1 hp).2, by simp⟩)
    ⟨rfl, rfl, rfl, rfl, rfl, fun _ h => Or.inl h, rfl, rfl, rfl, rfl, rfl, hs.disjoint, by simp, by simp,
      by simp⟩
  rw [List.nil_append] at hr
  have hdone : ∀ k, k ∈ (activeRow G s.counters i).map (·.1) ↔ k ∈ varsOf G s.counters i :=
    fun k => htu.mem_keys
  have hbound : ∀ k e, r.updates.variableBound G k e =
      if k ∈ varsOf G s.counters i then s.updates.variableBound G k (d.times (coef G i k))
      else s.updates.variableBound G k e := by
    intro k e
    rw [hr.bound]
    simp only [hdone]
  have hnew : ∀ p, p ∈ new ↔ p.1 ∈ varsOf G s.counters i ∧ p.2 = (d.times (coef G i p.1)).flip ∧
      s.updates.variableBound G p.1 p.2 = none := by
    intro p
    rw [hr.new, hdone]
  obtain ⟨t, e2, ht, hact⟩ := countersMany hG new r (missing G s) hr.newNodup
    (by rw [hr.counters]; exact hs.activity) (by
    intro p hp k hk
    rw [hr.counters] at hk
    have h1 := (hnew p).1 hp
    have h2 := mem_varsOf.1 h1.1
    refine Finset.mem_filter.2 ⟨mem_varsOf.2 ⟨h2.1, (mem_rowsOf.1 hk).2.1, h2.2.2⟩, ?_⟩
    rw [BoundDirection.times_times]
    exact h1.2.2)
  have hrem : t.updates.removedVariables = s.updates.removedVariables := by
    rw [ht.updates, hr.removedVariables]
  have hcr : t.updates.constraintsRemoved = s.updates.constraintsRemoved := by
    rw [ht.updates, hr.constraintsRemoved]
  have htype : ∀ k, t.updates.constraintType G k = s.updates.constraintType G k := by
    intro k; unfold Updates.constraintType; rw [ht.updates, hr.constraints]
  have hrhs : ∀ k, t.updates.rhs G k = s.updates.rhs G k := by
    intro k; unfold Updates.rhs; rw [ht.updates, hr.b]
  have hcol : t.counters.columns = s.counters.columns := by rw [ht.columns, hr.counters]
  have hcon : t.counters.constraint = s.counters.constraint := by rw [ht.constraint, hr.counters]
  have hlive := live_congr (G := G) hrem
  have hbound' : ∀ k e, t.updates.variableBound G k e =
      if k ∈ varsOf G s.counters i then s.updates.variableBound G k (d.times (coef G i k))
      else s.updates.variableBound G k e := by
    intro k e; rw [ht.updates]; exact hbound k e
  have hvars : ∀ k, varsOf G t.counters k = varsOf G s.counters k := by
    intro k; unfold varsOf; rw [hcol]
  have hrows : ∀ k, rowsOf G t.counters k = rowsOf G s.counters k := by
    intro k; unfold rowsOf; rw [hcon]
  have hmissing : ∀ k < G.constraintTypes.length, s.counters.constraint k ≠ 0 → ∀ e,
      t.counters.activity k e = #(missing G t k e) := by
    intro k hk hk0 e
    rw [hact k hk (by rw [hr.counters]; exact hk0) e]
    congr 1
    ext j
    rw [hr.counters]
    simp only [missing, Finset.mem_filter, hvars, hbound']
    constructor
    · rintro ⟨⟨h1, h2⟩, h3⟩
      refine ⟨h1, ?_⟩
      have h1' := mem_varsOf.1 h1
      by_cases hj : j ∈ varsOf G s.counters i
      · exfalso
        obtain ⟨b, hb⟩ := bound_of_count hs.toCounts hi hi0 h0 hj
        rcases BoundDirection.eq_or_flip (d.times (coef G i j)) (e.times (coef G k j)) with h | h
        · rw [h, hb] at h2
          cases h2
        · refine h3 ⟨e.times (coef G k j), (hnew _).2 ⟨hj, h, h2⟩, ?_, BoundDirection.times_times _ _⟩
          exact mem_rowsOf.2 ⟨hk, h1'.2.1, hk0⟩
      · rw [if_neg hj]
        exact h2
    · rintro ⟨h1, h2⟩
      by_cases hj : j ∈ varsOf G s.counters i
      · exfalso
        obtain ⟨b, hb⟩ := bound_of_count hs.toCounts hi hi0 h0 hj
        rw [if_pos hj, hb] at h2
        cases h2
      · rw [if_neg hj] at h2
        refine ⟨⟨h1, h2⟩, ?_⟩
        rintro ⟨f, hf, _⟩
        exact hj ((hnew _).1 hf).1
  have hcounts : t.Counts G := by
    refine ⟨fun k hk hk0 => ?_, fun k hk hk0 => ?_, fun k hk hk0 e => ?_, fun k hk hk0 e he => ?_, ?_,
      fun k hk => ?_, ?_, ?_, ?_, fun p hp => ?_⟩
    · rw [hvars]
      rw [hcon] at hk0 ⊢
      exact hs.rowCount k hk hk0
    · rw [hrows]
      rw [hcol] at hk0 ⊢
      exact hs.colCount k hk hk0
    · rw [hcon] at hk0
      exact hmissing k hk hk0 e
    · rw [hcon] at hk0
      have h1 := ht.decreases k e
      have h2 : r.counters.activity k e = 0 := by
        rw [hr.counters]
        refine hs.cache k hk hk0 e ?_
        rw [← hr.cache, ← ht.cache]
        exact he
      omega
    · rw [ht.updates]; exact hr.disjoint
    · rw [ht.substitution] at hk
      rcases hr.substitution k hk with h | h
      · exact hs.substitutionQueue k h
      · exact (mem_varsOf.1 ((hdone k).1 h)).1
    · rw [ht.bound, hr.boundQueue, hcon]; exact hs.boundQueue
    · rw [ht.bound, hr.boundQueue, hcon]; exact hs.allBounds
    · rw [ht.slack, hr.slackQueue, hcol]; exact hs.slackQueue
    · rcases ht.queue p hp with h | h
      · rw [hr.activityQueue] at h
        obtain ⟨h1, h2⟩ := hs.activityQueue p h
        refine ⟨h1, fun h3 => ?_⟩
        rw [hcon] at h3
        have := ht.decreases p.1 p.2
        rw [hr.counters] at this
        exact this.trans (h2 h3)
      · exact ⟨h.1, fun _ => h.2⟩
  have hproper : Proper G t.updates := by
    refine ⟨fun k hk a ha b hb => ?_, fun k hk hkr q hq => ?_⟩
    · rw [hbound'] at ha hb
      by_cases hj : k ∈ varsOf G s.counters i
      · rw [if_pos hj] at ha hb
        rw [ha] at hb
        cases hb
        exact le_refl _
      · rw [if_neg hj] at ha hb
        exact hs.proper.bounds k (hlive ▸ hk) a ha b hb
    · rw [htype] at hq
      rw [hcr] at hkr
      exact hs.proper.ranges k hk hkr q hq
  have hweaker : ∀ k ∈ s.updates.live G, ∀ e x,
      BoundDirection.Respects e (t.updates.variableBound G k e) x →
      BoundDirection.Respects e (s.updates.variableBound G k e) x := by
    intro k hk e x hx
    rw [hbound'] at hx
    by_cases hj : k ∈ varsOf G s.counters i
    · rw [if_pos hj] at hx
      obtain ⟨b, hb⟩ := bound_of_count hs.toCounts hi hi0 h0 hj
      rw [hb] at hx
      rcases BoundDirection.eq_or_flip (d.times (coef G i k)) e with h | h
      · rw [h] at hx ⊢
        rw [hb]
        exact hx
      · cases hc : s.updates.variableBound G k e with
        | none => trivial
        | some c =>
          refine BoundDirection.Respects.trans (b := b) ?_ hx
          have hbd := hs.proper.bounds k hk
          rw [h] at hc ⊢
          revert hb hc
          cases d.times (coef G i k) with
          | lower => exact fun hb hc => hbd b hb c hc
          | upper => exact fun hb hc => hbd c hc b hb
    · rw [if_neg hj] at hx
      exact hx
  have hrowsHold : ∀ x, s.updates.RowsHold G x ↔ t.updates.RowsHold G x := by
    intro x
    unfold Updates.RowsHold
    rw [hcr]
    simp only [htype, hrhs, value_congr hrem]
  have hir : i ∉ s.updates.constraintsRemoved := (hs.row_active hi).2 hi0
  refine ⟨r, new, t, e1, e2, ⟨⟨⟨hcounts, Removal_of hs.toRemoval hcol hcon hrem hcr⟩, hproper,
    fun k hk hk0 => ?_⟩, equivalent_bounds hrem.symm (by rw [ht.updates, hr.fixedCost]) hrowsHold hweaker
      (fun x h1 h2 k hk e => ?_), hcol, hcon, hrem, fun x h1 h2 => ⟨(hrowsHold x).2 h1, fun k hk e => ?_⟩⟩,
      fun x hx => ?_⟩
  · have hk0' : s.counters.columns k ≠ 0 := by rw [← hcol]; exact hk0
    by_cases hj : k ∈ varsOf G s.counters i
    · obtain ⟨b, hb⟩ := bound_of_count hs.toCounts hi hi0 h0 hj
      rw [Option.isSome_iff_exists]
      refine ⟨b, isVariableFixed_iff.2 ⟨?_, ?_⟩⟩
      · rw [hbound', if_pos hj, hb]
      · rw [hbound', if_pos hj, hb]
    · rw [ht.substitution] at hk
      rcases hr.substitution k hk with h | h
      · have := hs.fixed k h hk0'
        unfold Updates.isVariableFixed at this ⊢
        rw [hbound', if_neg hj, hbound', if_neg hj]
        exact this
      · exact absurd ((hdone k).1 h) hj
  · rw [hbound']
    by_cases hj : k ∈ varsOf G s.counters i
    · obtain ⟨b, hb⟩ := bound_of_count hs.toCounts hi hi0 h0 hj
      rw [if_pos hj, hb]
      have hV := (htight _ (respects_activity hs.toWF hi hi0 h0 h2)).1 (h1 i hi hir)
      rw [tight hs.toWF hi hi0 h0 h2 hV hj hb]
      exact BoundDirection.respects_refl _ _
    · rw [if_neg hj]
      exact h2 k hk e
  · exact hweaker k hk e (x k) (h2 k (by rw [hlive]; exact hk) e)
  · rw [htype, hrhs, value_congr hrem]
    have hval : s.updates.value G i x = activityAt G s i d := by
      rw [hs.value_eq]
      unfold activityAt
      refine Finset.sum_congr rfl fun k hk => ?_
      have hk' := mem_varsOf.1 hk
      obtain ⟨b, hb⟩ := bound_of_count hs.toCounts hi hi0 h0 hk
      have hkl : k ∈ t.updates.live G := by
        rw [hlive]
        exact hs.mem_live.2 ⟨hk'.1, hk'.2.2⟩
      have a1 := hx k hkl .lower
      have a2 := hx k hkl .upper
      rw [hbound', if_pos hk, hb] at a1 a2
      rw [hb]
      congr 1
      exact le_antisymm (α := ℚ) a2 a1
    rw [hval]
    exact (htight _ (BoundDirection.respects_refl _ _)).2 rfl

/-! ### The rule -/

theorem Correct.mono {A B : Abort → Prop} {r : Run Index} (h : Correct G s A r) (hAB : ∀ a, A a → B a) :
    Correct G s B r := by
  match r, h with
  | .ok _, h => exact h
  | .error (.verdict _), h => exact h
  | .error (.abort _), h => exact hAB _ h

theorem map_remove {A : Abort → Prop} {c : Change}
    (h : Correct G s (fun _ => False) (do
      let s ← removeConstraintValues G s i
      pure (removeConstraint s i))) :
    Correct G s A (Except.map Prod.fst (Except.bind (removeConstraintValues G s i) fun s =>
      Except.ok (removeConstraint s i, c))) := by
  have : Except.map Prod.fst (Except.bind (removeConstraintValues G s i) fun s =>
      Except.ok (removeConstraint s i, c)) = (do
      let s ← removeConstraintValues G s i
      pure (removeConstraint s i)) := by
    cases removeConstraintValues G s i <;> rfl
  rw [this]
  exact h.mono fun _ h => h.elim

/-- Propagation, if the activity bound that is stored is right; it may hit `unreachable!` if the extreme
value of a two-sided constraint is reached. -/
theorem presolveDomainPropagation_correct (hG : G.Consistent) (hs : s.Fit G)
    (hi : i < G.constraintTypes.length) (hi0 : s.counters.constraint i ≠ 0)
    (h1 : s.counters.activity i d ≤ 1) (ha : s.counters.activity i d = 0 → AccurateAt G s i d) :
    Correct G s (fun a => a = .unreachable ∧ d = .lower ∧ s.counters.activity i d = 0 ∧
        (∃ r, s.updates.constraintType G i = .range r) ∧ s.updates.rhs G i = activityAt G s i d)
      ((presolveDomainPropagation G s i d).map Prod.fst) := by
  unfold presolveDomainPropagation
  have hcases : s.counters.activity i d = 0 ∨ s.counters.activity i d = 1 := by omega
  rcases hcases with h0 | h1
  swap
  · rw [h1]
    obtain ⟨r, c, e, hr⟩ := createVariableBound_spec hG hs hi hi0 h1
    simp only [e, Except.map]
    exact ⟨hr.fit, hr.refines⟩
  · rw [h0]
    simp only []
    unfold forEntireConstraint
    rw [activityBoundIfNeeded_eq hG hs.toCounts hi hi0 h0 (ha h0)]
    let s₁ : Index := { s with activityBounds :=
      (insertAt2 s.activityBounds i d (some (activityAt G s i d))) }
    have hs₁ : s₁.Fit G := fit_store hs h0 _
    have hir : i ∉ s.updates.constraintsRemoved := (hs.row_active hi).2 hi0
    have hspec := constraintUpdate_spec (d := d) (t := s.updates.constraintType G i)
      (rhs := s.updates.rhs G i) (L := activityAt G s i d) (hs.proper.ranges i hi hir)
    have hrespects : ∀ x, s.updates.BoundsHold G x →
        d.Respects (some (activityAt G s i d)) (s.updates.value G i x) :=
      fun x hx => respects_activity hs.toWF hi hi0 h0 hx
    simp only [bind, Except.bind]
    unfold constraintPart
    simp only [bind, Except.bind]
    cases hu : constraintUpdate d (s.updates.constraintType G i) (s.updates.rhs G i)
      (activityAt G s i d) with
    | error e =>
      rw [hu] at hspec
      simp only [Except.map]
      match e, hspec with
      | .verdict r, h =>
        obtain ⟨rfl, h⟩ := h
        intro x hx
        exact h _ (hrespects x hx.bounds) (hx.rows i hi hir)
      | .abort a, h => exact ⟨h.1, h.2.1, trivial, h.2.2⟩
    | ok c =>
      rw [hu] at hspec
      match c, hspec with
      | none, h =>
        simp only [pure, Except.pure, if_true, variableRuleRhs_eq]
        cases hρ : ruleRhs (s.updates.constraintType G i) (s.updates.rhs G i) d with
        | none =>
          simp only [Bool.false_eq_true, if_false, Except.map]
          exact ⟨hs₁, Refines.refl _⟩
        | some ρ =>
          obtain ⟨r, c, e, hr⟩ := variablePart_spec hG hs₁ hi hi0 h0 (ρ := ρ)
            (fun x h1 _ => ruleRhs_respects hρ (h1 i hi hir)) (h ρ hρ) (activeRow G s.counters i)
            s₁ .none (activeRow_tuples hG s.counters hi).nodup
            (fun p hp => ((activeRow_tuples hG s.counters hi).mem p).1 hp) (Narrower.refl hs₁)
            (fun _ _ => rfl)
          have e' : variablePart G s₁ i ρ (activityAt G s i d) d .none = .ok (r, c) := e
          simp only []
          simp only [s₁] at e'
          rw [e']
          simp only [Bool.false_eq_true, if_false, Except.map]
          exact ⟨hr.fit, hr.refines⟩
      | some .remove, h =>
        simp only [pure, Except.pure, if_true, variableRuleRhs_eq, h.1]
        exact map_remove (removeRow_correct hG hs₁ hi hi0 fun x hx => h.2 _ (hrespects x hx))
      | some (.replace t' shift), h =>
        simp only [pure, Except.pure, if_true]
        have hn := replaceRow (G := G) hs₁ hi hi0 (t := t') (shift := shift) h.1
          (fun x hx => h.2.1 _ (hrespects x hx))
        let s₂ : Index := { s₁ with updates :=
          (({ s₁.updates with constraints := insertAt s₁.updates.constraints i (some t') }).changeB G i
            shift) }
        have htype : s₂.updates.constraintType G i = t' := by
          show Option.getD (insertAt _ _ _ _) _ = t'
          rw [insertAt_same]
          rfl
        have hrhs : s₂.updates.rhs G i = s.updates.rhs G i + shift := by
          show Option.getD (insertAt _ _ _ _) _ = _
          rw [insertAt_same]
          rfl
        have hq : variableRuleRhs G s₂ i d = ruleRhs t' (s.updates.rhs G i + shift) d := by
          rw [variableRuleRhs_eq, htype, hrhs]
        cases hρ : ruleRhs t' (s.updates.rhs G i + shift) d with
        | none =>
          rw [hρ] at hq
          simp only [s₂, s₁] at hq
          simp only [hq, Bool.false_eq_true, if_false, Except.map]
          exact ⟨hn.fit, hn.refines⟩
        | some ρ =>
          obtain ⟨r, c, e, hr⟩ := variablePart_spec hG (s := s₂) hn.fit hi hi0 h0 (ρ := ρ)
            (fun x h1 _ => by
              refine ruleRhs_respects hρ ?_
              have := h1 i hi hir
              rw [htype, hrhs] at this
              exact this) (h.2.2 ρ hρ) (activeRow G s.counters i)
            s₂ .meaningful (activeRow_tuples hG s.counters hi).nodup
            (fun p hp => ((activeRow_tuples hG s.counters hi).mem p).1 hp) (Narrower.refl hn.fit)
            (fun _ _ => rfl)
          have e' : variablePart G s₂ i ρ (activityAt G s i d) d .meaningful = .ok (r, c) := e
          rw [hρ] at hq
          simp only [s₂, s₁] at hq e'
          simp only [hq, e', Bool.false_eq_true, if_false, Except.map]
          exact ⟨hr.fit, hn.refines.trans hr.refines⟩
      | some .setVariablesToBound, h =>
        obtain ⟨r, new, t, e1, e2, hn, hh⟩ := setVariables hG hs₁ hi hi0 h0 h
        show Correct G s _ (Except.map Prod.fst (Except.bind (Except.bind
          ((activeRow G s₁.counters i).foldlM (setVariableToBound G d) (s₁, [])) _) _))
        rw [e1]
        simp only [Except.bind]
        rw [e2]
        simp only [pure, Except.pure, Bool.false_eq_true, if_false, if_true]
        refine Correct.of_narrower (t := t) hn (map_remove (removeRow_correct hG hn.fit hi ?_ hh))
        rw [hn.constraint]
        exact hi0

end

end Presolve

end Relp
