import Verif.Proof.PresolveWhole

/-!
# What holds in every run of presolving

The counters of the rows and columns stay right in every run of presolving, also if a step is not safe: the
defects of the rules only concern the values of bounds and right-hand sides.
-/

namespace Relp

open Finset

namespace Presolve

variable {G : GeneralForm}

/-- What every step does: it leaves a well-formed state, and it aborts at most because bounds cross or at
`unreachable!`. -/
def Shaped (G : GeneralForm) : Run Index → Prop
  | .ok t => t.WF G
  | .error (.verdict _) => True
  | .error (.abort a) => a = .unwrapNone ∨ a = .unreachable
  | .error .outOfFuel => False

/-! ### Variables in no row -/

theorem emptyValue_shape {u : Updates} {j : ℕ} {e : Halt} (h : emptyValue G u j = .error e) :
    Shaped G (.error e) := by
  unfold emptyValue at h
  split at h
  · revert h
    cases feasibleValue (u.variableBound G j .lower) (u.variableBound G j .upper) with
    | none => intro h; cases h; exact .inl rfl
    | some v => intro h; cases h
  · rename_i h0
    unfold optimizeIndependentColumn at h
    rw [if_neg h0] at h
    split at h
    · cases h
    · cases h
      trivial

theorem emptyValues_shape {u : Updates} {E : List ℕ} {e : Halt} (h : emptyValues G u E = .error e) :
    Shaped G (.error e) := by
  obtain ⟨j, _, hj⟩ := emptyValues_error h
  exact emptyValue_shape hj

/-! ### The rules -/

section

variable {s : Index} {i j : ℕ} {d : BoundDirection}

theorem presolveFixedVariable_shape (hG : G.Consistent) (hs : s.WF G) (hj : j < G.vars.length)
    (hj0 : s.counters.columns j ≠ 0) : Shaped G (presolveFixedVariable G s j) := by
  cases hf : s.updates.isVariableFixed G j with
  | none =>
    unfold presolveFixedVariable
    rw [hf]
    exact .inl rfl
  | some value =>
    rw [presolveFixedVariable_eq hG hs.toCounts hf hj hj0]
    split
    · exact fixedState_wf hG hs hf hj hj0
    · trivial

theorem presolveBoundConstraint_shape {s₀ : Index} {rest : List ℕ} (hG : G.Consistent) (hs : s₀.WF G)
    (hi : i < G.constraintTypes.length)
    (h1 : s₀.counters.constraint i = 1) (hsub : rest ⊆ s₀.queues.bound)
    (hrest : ∀ k ≠ i, s₀.counters.constraint k = 1 → k ∈ s₀.queues.bound → k ∈ rest) :
    Shaped G (presolveBoundConstraint G { s₀ with queues := { s₀.queues with bound := rest } } i) := by
  obtain ⟨j, t, hv, ha, heq⟩ := presolveBoundConstraint_eq hG hs hi h1 hsub hrest
  rw [heq]
  have hjm : j ∈ varsOf G s₀.counters i := by rw [hv]; simp
  have hj := mem_varsOf.1 hjm
  have hgone := boundRowGone_spec hG hs.toCounts hi h1 hv hsub hrest
  have hm : BoundsMerged G
      { s₀.updates with constraintsRemoved := s₀.updates.constraintsRemoved ++ [i] } j
      (boundsOfConstraint (s₀.updates.constraintType G i) (s₀.updates.rhs G i) (coef G i j))
      t.updates := ha.merged
  split
  · trivial
  · rw [queueVariable_eq]
    by_cases hc0 : t.counters.columns j = 0
    · rw [if_pos hc0]
      have hcol1 : s₀.counters.columns j = 1 := by
        rw [ha.columns, hgone.columns] at hc0
        simp only [if_pos hjm] at hc0
        have := hj.2.2
        omega
      cases he : emptyValue G t.updates j with
      | error e => exact emptyValue_shape he
      | ok w =>
        simp only [bind, Except.bind, pure, Except.pure]
        have hrem : Index.Removal G { t with updates := solveVars G t.updates [(j, w)] } := by
          have h2 : RowGone G s₀ { boundRowGone { s₀ with queues := { s₀.queues with bound := rest } } i j
              with updates := solveVars G (boundRowGone { s₀ with
                queues := { s₀.queues with bound := rest } } i j).updates [(j, w)] } i :=
            ⟨hgone.constraint, hgone.columns, hgone.activity, hgone.cache, hgone.bounds,
              hgone.activityBounds, hgone.rowsGone, hgone.substitution, hgone.bound, hgone.boundSub,
              hgone.slack, hgone.activityQueue⟩
          refine Removal_of (h2.wf hs hG hi (by omega) (R := [(j, .solved w)]) rfl (by simp) ?_ ?_
            ?_).toRemoval ha.columns ha.constraint ?_ ha.merged.constraintsRemoved
          · intro k
            rw [hv]
            simp only [List.map_cons, List.map_nil, List.mem_singleton, Finset.mem_singleton]
            constructor
            · rintro rfl; exact ⟨rfl, hcol1⟩
            · exact fun h => h.1
          · exact ordered_solved hs.ordered j w
          · intro p hp k hk
            rw [List.mem_singleton] at hp
            subst hp
            exact hk.elim
          · show t.updates.removedVariables ++ _ = s₀.updates.removedVariables ++ _
            rw [hm.removedVariables]
        have hcounts : Index.Counts G { t with updates := solveVars G t.updates [(j, w)] } :=
          Counts_of ha.counts rfl rfl rfl rfl rfl rfl (fun k hk => Or.inl hk) rfl
        exact ⟨hcounts, hrem⟩
    · rw [if_neg hc0]
      have hcj : t.counters.columns j = s₀.counters.columns j - 1 := by
        rw [ha.columns, hgone.columns]
        simp only [if_pos hjm]
      have hrem : t.Removal G := by
        refine Removal_of (hgone.wf hs hG hi (by omega) (R := []) (by
          show _ = s₀.updates.removedVariables ++ []
          rw [List.append_nil]; rfl) (by simp) ?_ hs.ordered (by simp)).toRemoval ha.columns
          ha.constraint ha.merged.removedVariables ha.merged.constraintsRemoved
        intro k
        rw [hv]
        simp only [List.map_nil, List.not_mem_nil, Finset.mem_singleton, false_iff, not_and]
        rintro rfl
        omega
      have hcounts : Index.Counts G { t with queues := { t.queues with slack :=
          (if t.counters.columns j = 1 ∧ costOf G j = 0 then [j] else []) ++ t.queues.slack } } := by
        refine Counts_of ha.counts rfl rfl rfl rfl rfl rfl (fun k hk => ?_) rfl
        rcases List.mem_append.1 hk with hk | hk
        · split at hk
          · rename_i h2
            rw [List.mem_singleton] at hk
            subst hk
            exact Or.inr ⟨hj.1, by omega, h2.2⟩
          · cases hk
        · exact Or.inl hk
      exact ⟨hcounts, Removal_of hrem rfl rfl rfl rfl⟩

theorem presolveSlack_shape (hG : G.Fresh) (hs : s.WF G) (hb : s.queues.bound = [])
    (hj : j < G.vars.length) (h1 : s.counters.columns j = 1) : Shaped G (presolveSlack G s j) := by
  obtain ⟨i, hr, _⟩ := slackRow hG.toConsistent hs.toCounts hj h1
  have him : i ∈ rowsOf G s.counters j := by rw [hr]; simp
  have hi := mem_rowsOf.1 him
  have h2 : 2 ≤ s.counters.constraint i := by
    have h3 := hi.2.2
    have h4 : s.counters.constraint i ≠ 1 := by
      intro h
      have := hs.allBounds i hi.1 h
      rw [hb] at this
      cases this
    omega
  cases hcase : slackCase (s.updates.constraintType G i) (s.updates.variableBound G j .lower)
      (s.updates.variableBound G j .upper) (coef G i j) with
  | none =>
    rw [presolveSlack_both hG.toConsistent hs.toCounts hj h1 hr hcase]
    cases he : emptyValues G s.updates (slackEmptied G s i j) with
    | error e => exact emptyValues_shape he
    | ok solved => exact slackBothState_wf hG hs hj h1 hr he
  | some p =>
    obtain ⟨t, ht, hgone, hu⟩ := presolveSlack_column hG.toConsistent hs.toCounts hj h1 hr h2
      (newType := p.1) (bound := p.2) hcase
    rw [ht]
    have hj0 : s.counters.columns j ≠ 0 := by omega
    have hremoved : t.updates.removedVariables =
        s.updates.removedVariables ++ [(j, slackRemoved G s i j p.2)] := by rw [hu]; rfl
    have hordered : Ordered t.updates.removedVariables := by
      rw [hremoved]
      refine hs.ordered.append_function (fun h => ?_) fun p hp h => ?_
      · exact (Finset.mem_erase.1 (slackRemoved_mentions hG hi.1 h)).1 rfl
      · have hk := mem_varsOf.1 (Finset.mem_erase.1 (slackRemoved_mentions hG hi.1 h)).2
        exact absurd ((hs.varsRemoved p.1 hk.1).1 (List.mem_map_of_mem hp)) hk.2.2
    refine hgone.wf hs hG.toConsistent hj hj0 hremoved (R := []) (by rw [hu]; simp [slackColumn])
      List.nodup_nil (fun k => ?_) hordered fun k hk => ?_
    · rw [hr, Finset.mem_singleton]
      constructor
      · intro h; cases h
      · rintro ⟨rfl, h⟩; omega
    · exact (mem_varsOf.1 (Finset.mem_erase.1 (slackRemoved_mentions hG hi.1 hk)).2).1

/-! ### Propagation -/

theorem wf_store (hs : s.WF G) (h0 : s.counters.activity i d = 0) (b : ℚ) :
    ({ s with activityBounds := insertAt2 s.activityBounds i d (some b) } : Index).WF G := by
  refine ⟨⟨hs.rowCount, hs.colCount, hs.activity, fun k hk hk0 e he => ?_, hs.disjoint,
    hs.substitutionQueue, hs.boundQueue, hs.allBounds, hs.slackQueue, hs.activityQueue⟩,
    ⟨hs.rowsRemoved, hs.varsRemoved, hs.rowsRange, hs.varsRange, hs.rowsNodup, hs.varsNodup,
      hs.ordered, hs.mentioned⟩⟩
  by_cases h : k = i ∧ e = d
  · rw [h.1, h.2]; exact h0
  · refine hs.cache k hk hk0 e ?_
    show s.activityBounds k e ≠ none
    rw [← insertAt2_ne s.activityBounds (some b) h]
    exact he

/-- The same rows and variables remain. -/
structure Stays (G : GeneralForm) (s t : Index) : Prop where
  wf : t.WF G
  columns : t.counters.columns = s.counters.columns
  constraint : t.counters.constraint = s.counters.constraint

theorem Stays.trans {s t r : Index} (h : Stays G s t) (h' : Stays G t r) : Stays G s r :=
  ⟨h'.wf, h'.columns.trans h.columns, h'.constraint.trans h.constraint⟩

theorem boundStep_stays (hG : G.Consistent) (hs : s.WF G) {v : Updates} {new : ℚ} {change : BoundChange}
    (hb : BoundUpdated G s.updates j d new v change) (hj : j < G.vars.length)
    (hj0 : s.counters.columns j ≠ 0) :
    ∃ t, afterBoundChange G { s with updates := v } j d change = .ok t ∧ Stays G s t ∧
      t.updates = v := by
  obtain ⟨t, e, ha⟩ := afterBoundChange_spec hG hs.toCounts hb hj fun _ _ => hj0
  exact ⟨t, e, ⟨⟨ha.counts, Removal_of hs.toRemoval ha.columns ha.constraint
    (by rw [ha.updates]; exact hb.removedVariables) (by rw [ha.updates]; exact hb.constraintsRemoved)⟩,
    ha.columns, ha.constraint⟩, ha.updates⟩

theorem variablePart_stays (hG : G.Consistent) (ρ L : ℚ) (l : List (ℕ × ℚ)) :
    ∀ (t : Index) (c : Change),
      (∀ p ∈ l, p.1 ∈ varsOf G s.counters i ∧ p.2 = coef G i p.1) → Stays G s t →
      (∀ k ∈ varsOf G s.counters i, t.updates.variableBound G k (d.times (coef G i k)) ≠ none) →
      ∃ r c', l.foldlM (variableStep G ρ L d) (t, c) = .ok (r, c') ∧ Stays G s r := by
  induction l with
  | nil => exact fun t c _ ht _ => ⟨t, c, rfl, ht⟩
  | cons p l ih =>
    intro t c hmem ht hsome
    obtain ⟨hp, hc⟩ := hmem p (by simp)
    have hp' := mem_varsOf.1 hp
    obtain ⟨b, hb⟩ := Option.ne_none_iff_exists'.1 (hsome p.1 hp)
    rw [← hc] at hb
    have hbu := updateActivityVariableBound_spec (G := G) t.updates p.1 (d.flip.times p.2)
      ((ρ - (L - p.2 * b)) / p.2) ht.wf.disjoint
    obtain ⟨r, e, hr, hru⟩ := boundStep_stays hG ht.wf hbu hp'.1 (by rw [ht.columns]; exact hp'.2.2)
    have hsome' : ∀ k ∈ varsOf G s.counters i,
        r.updates.variableBound G k (d.times (coef G i k)) ≠ none := by
      intro k hk
      rw [hru, hbu.other]
      · exact hsome k hk
      · rintro ⟨rfl, h⟩
        rw [BoundDirection.flip_times, hc] at h
        exact BoundDirection.flip_ne _ h.symm
    have hstep : ∃ c', variableStep G ρ L d (t, c) p = .ok (r, c') := by
      unfold variableStep
      simp only [hb, unwrap, bind, Except.bind, e, pure, Except.pure]
      exact ⟨_, rfl⟩
    obtain ⟨c', hstep⟩ := hstep
    rw [List.foldlM_cons, hstep]
    exact ih r c' (fun q hq => hmem q (by simp [hq])) (ht.trans hr) hsome'

theorem createVariableBound_stays (hG : G.Consistent) (hs : s.WF G) (hi : i < G.constraintTypes.length)
    (hi0 : s.counters.constraint i ≠ 0) (h1 : s.counters.activity i d = 1) :
    ∃ r c, createVariableBound G s i d = .ok (r, c) ∧ Stays G s r := by
  have ht := activeRow_tuples hG s.counters hi
  unfold createVariableBound
  cases variableRuleRhs G s i d with
  | none => exact ⟨s, _, rfl, ⟨hs, rfl, rfl⟩⟩
  | some ρ =>
    obtain ⟨j, hj⟩ := Finset.card_eq_one.1 ((hs.activity i hi hi0 d).symm.trans h1)
    have hjm : j ∈ missing G s i d := by rw [hj]; simp
    have hjv := (Finset.mem_filter.1 hjm).1
    have hjb : s.updates.variableBound G j (d.times (coef G i j)) = none := (Finset.mem_filter.1 hjm).2
    cases hf : (activeRow G s.counters i).find? (fun p =>
        (s.updates.variableBound G p.1 (d.times p.2)).isNone) with
    | none =>
      rw [List.find?_eq_none] at hf
      have := hf (j, coef G i j) ((ht.mem _).2 ⟨hjv, rfl⟩)
      rw [hjb] at this
      exact absurd rfl this
    | some p =>
      obtain ⟨h3, h4⟩ := (ht.mem p).1 (List.mem_of_find?_eq_some hf)
      have hp' := mem_varsOf.1 h3
      obtain ⟨k, c⟩ := p
      have hbu := updateActivityVariableBound_spec (G := G) s.updates k (d.flip.times c)
        ((ρ - ((activeRow G s.counters i).filterMap fun p =>
          (s.updates.variableBound G p.1 (d.times p.2)).map fun bound => p.2 * bound).sum) / c) hs.disjoint
      obtain ⟨r, e, hr, _⟩ := boundStep_stays hG hs hbu hp'.1 hp'.2.2
      simp only [unwrap, bind, Except.bind, e, pure, Except.pure]
      exact ⟨r, _, rfl, hr⟩

/-- The state after the variables of a list have got the value of the bound that counts for the activity, or
another one if their bounds cross. -/
structure SetAny (G : GeneralForm) (s : Index) (i : ℕ) (d : BoundDirection) (done : List ℕ) (t : Index)
    (new : List (ℕ × BoundDirection)) : Prop where
  counters : t.counters = s.counters
  cache : t.activityBounds = s.activityBounds
  boundQueue : t.queues.bound = s.queues.bound
  slackQueue : t.queues.slack = s.queues.slack
  activityQueue : t.queues.activity = s.queues.activity
  substitution : ∀ k ∈ t.queues.substitution, k ∈ s.queues.substitution ∨ k ∈ done
  removedVariables : t.updates.removedVariables = s.updates.removedVariables
  constraintsRemoved : t.updates.constraintsRemoved = s.updates.constraintsRemoved
  disjoint : ∀ k e, Separated G k e (t.updates.bounds k e) (t.updates.activityBounds k e)
  bound : ∀ k e, t.updates.variableBound G k e = none ↔
    k ∉ done ∧ s.updates.variableBound G k e = none
  newNodup : (new.map (·.1)).Nodup
  new : ∀ p, p ∈ new ↔ p.1 ∈ done ∧ p.2 = (d.times (coef G i p.1)).flip ∧
    s.updates.variableBound G p.1 p.2 = none

theorem setLoop_any (hs : s.WF G) (hi : i < G.constraintTypes.length)
    (hi0 : s.counters.constraint i ≠ 0) (h0 : s.counters.activity i d = 0) (l : List (ℕ × ℚ)) :
    ∀ (done : List ℕ) (t : Index) (new : List (ℕ × BoundDirection)), (l.map (·.1)).Nodup →
      (∀ p ∈ l, p.1 ∈ varsOf G s.counters i ∧ p.2 = coef G i p.1 ∧ p.1 ∉ done) →
      SetAny G s i d done t new →
      ∃ r new', l.foldlM (setVariableToBound G d) (t, new) = .ok (r, new') ∧
        SetAny G s i d (done ++ l.map (·.1)) r new' := by
  induction l with
  | nil =>
    intro done t new _ _ ht
    exact ⟨t, new, rfl, by simpa using ht⟩
  | cons p l ih =>
    intro done t new hn hmem ht
    obtain ⟨hp, hc, hd⟩ := hmem p (by simp)
    have hp' := mem_varsOf.1 hp
    rw [List.map_cons, List.nodup_cons] at hn
    obtain ⟨b₀, hb₀⟩ := bound_of_count hs.toCounts hi hi0 h0 hp
    obtain ⟨b, hb⟩ : ∃ b, t.updates.variableBound G p.1 (d.times p.2) = some b := by
      rw [← Option.ne_none_iff_exists']
      intro h
      have := ((ht.bound _ _).1 h).2
      rw [hc, hb₀] at this
      cases this
    let u : Updates := match t.updates.activityBounds p.1 (d.times p.2) with
      | some value =>
        { t.updates with
          activityBounds := insertAt2 t.updates.activityBounds p.1 (d.times p.2) none
          bounds := insertAt2 t.updates.bounds p.1 (d.times p.2) (some value) }
      | none => t.updates
    have hu : u.removedVariables = t.updates.removedVariables ∧
        u.constraintsRemoved = t.updates.constraintsRemoved ∧
        (∀ k e, Separated G k e (u.bounds k e) (u.activityBounds k e)) ∧
        ∀ k e, u.variableBound G k e = t.updates.variableBound G k e := by
      cases hact : t.updates.activityBounds p.1 (d.times p.2) with
      | none =>
        simp only [u, hact]
        exact ⟨trivial, trivial, ht.disjoint, fun _ _ => trivial⟩
      | some value =>
        simp only [u, hact]
        refine ⟨by trivial, by trivial, fun k e => ?_, fun k e => ?_⟩
        · by_cases h : k = p.1 ∧ e = d.times p.2
          · rw [h.1, h.2]
            exact .of_none (insertAt2_same _ _ _ _)
          · rw [insertAt2_ne _ _ h, insertAt2_ne _ _ h]
            exact ht.disjoint k e
        · unfold Updates.variableBound
          by_cases h : k = p.1 ∧ e = d.times p.2
          · rw [h.1, h.2]
            simp only [insertAt2_same, hact]
            rfl
          · simp only [insertAt2_ne _ _ h]
    obtain ⟨u4, u5, u6, u7⟩ := hu
    have hbu := updateBound_spec (G := G) u p.1 (d.times p.2).flip b u6
    obtain ⟨r, new', e, hr⟩ := ih (done ++ [p.1])
      { t with
        updates := (u.updateBound G p.1 (d.times p.2).flip b).1
        queues := { t.queues with substitution := p.1 :: t.queues.substitution } }
      (if (u.updateBound G p.1 (d.times p.2).flip b).2 = .newBound then
        new ++ [(p.1, (d.times p.2).flip)] else new) hn.2 (by
      intro q hq
      obtain ⟨h1, h2, h3⟩ := hmem q (by simp [hq])
      refine ⟨h1, h2, ?_⟩
      rw [List.mem_append, List.mem_singleton, not_or]
      refine ⟨h3, fun h => hn.1 (h ▸ List.mem_map_of_mem hq)⟩) (by
      have hnewb : (u.updateBound G p.1 (d.times p.2).flip b).2 = .newBound ↔
          s.updates.variableBound G p.1 (d.times p.2).flip = none := by
        rw [hbu.newBound, u7, ht.bound]
        exact ⟨fun h => h.2, fun h => ⟨hd, h⟩⟩
      have hpnew : p.1 ∉ new.map (·.1) := by
        intro h
        obtain ⟨q, hq, hq'⟩ := List.mem_map.1 h
        have := ((ht.new q).1 hq).1
        rw [hq'] at this
        exact hd this
      refine ⟨ht.counters, ht.cache, ht.boundQueue, ht.slackQueue, ht.activityQueue, fun k hk => ?_,
        hbu.removedVariables.trans (u4.trans ht.removedVariables),
        hbu.constraintsRemoved.trans (u5.trans ht.constraintsRemoved), hbu.disjoint, fun k e => ?_,
        ?_, fun q => ?_⟩
      · rcases List.mem_cons.1 hk with rfl | hk
        · exact Or.inr (by simp)
        · rcases ht.substitution k hk with h | h
          · exact Or.inl h
          · exact Or.inr (List.mem_append_left _ h)
      · show (u.updateBound G p.1 (d.times p.2).flip b).1.variableBound G k e = none ↔ _
        by_cases hk : k = p.1
        · subst hk
          have hne : (u.updateBound G p.1 (d.times p.2).flip b).1.variableBound G p.1 e ≠ none := by
            by_cases he : e = (d.times p.2).flip
            · rw [he]
              exact hbu.isSome
            · have : e = d.times p.2 := by
                revert he
                cases e <;> cases d.times p.2 <;> simp [BoundDirection.flip]
              rw [hbu.other _ _ fun h => he h.2, this, u7, hb]
              simp
          simp [hne]
        · rw [hbu.other k e fun h => hk h.1, u7, ht.bound]
          simp [hk]
      · split
        · rw [List.map_append, List.nodup_append]
          refine ⟨ht.newNodup, by simp, ?_⟩
          intro a ha b' hb'
          rw [List.map_singleton, List.mem_singleton] at hb'
          subst hb'
          rintro rfl
          exact hpnew ha
        · exact ht.newNodup
      · by_cases hnb : (u.updateBound G p.1 (d.times p.2).flip b).2 = .newBound
        · rw [if_pos hnb, List.mem_append, List.mem_append, List.mem_singleton, List.mem_singleton, ht.new]
          constructor
          · rintro (h | rfl)
            · exact ⟨Or.inl h.1, h.2⟩
            · exact ⟨Or.inr rfl, by rw [hc], hnewb.1 hnb⟩
          · rintro ⟨h | h, h1, h2⟩
            · exact Or.inl ⟨h, h1, h2⟩
            · exact Or.inr (Prod.ext h (by rw [h1, h, hc]))
        · rw [if_neg hnb, List.mem_append, List.mem_singleton, ht.new]
          constructor
          · rintro h
            exact ⟨Or.inl h.1, h.2⟩
          · rintro ⟨h | h, h1, h2⟩
            · exact ⟨h, h1, h2⟩
            · exfalso
              apply hnb
              rw [hnewb, hc, ← h, ← h1]
              exact h2)
    refine ⟨r, new', ?_, ?_⟩
    · rw [List.foldlM_cons]
      have hstep : setVariableToBound G d (t, new) p = .ok
          ({ t with
            updates := (u.updateBound G p.1 (d.times p.2).flip b).1
            queues := { t.queues with substitution := p.1 :: t.queues.substitution } },
          if (u.updateBound G p.1 (d.times p.2).flip b).2 = .newBound then
            new ++ [(p.1, (d.times p.2).flip)] else new) := by
        unfold setVariableToBound
        simp only [hb, unwrap, bind, Except.bind, pure, Except.pure]
        rfl
      rw [hstep]
      exact e
    · rw [List.map_cons]
      simpa using hr

theorem setVariables_stays (hG : G.Consistent) (hs : s.WF G) (hi : i < G.constraintTypes.length)
    (hi0 : s.counters.constraint i ≠ 0) (h0 : s.counters.activity i d = 0) :
    ∃ r new t, (activeRow G s.counters i).foldlM (setVariableToBound G d) (s, []) = .ok (r, new) ∧
      new.foldlM (fun s p => updateActivityCounters G s p.1 p.2) r = .ok t ∧ Stays G s t := by
  have htu := activeRow_tuples hG s.counters hi
  obtain ⟨r, new, e1, hr⟩ := setLoop_any hs hi hi0 h0 (activeRow G s.counters i) [] s [] htu.nodup
    (fun p hp => ⟨((htu.mem p).1 hp).1, ((htu.mem p).1 hp).2, by simp⟩)
    ⟨rfl, rfl, rfl, rfl, rfl, fun _ h => Or.inl h, rfl, rfl, hs.disjoint, by simp, by simp, by simp⟩
  rw [List.nil_append] at hr
  have hdone : ∀ k, k ∈ (activeRow G s.counters i).map (·.1) ↔ k ∈ varsOf G s.counters i :=
    fun k => htu.mem_keys
  have hnew : ∀ p, p ∈ new ↔ p.1 ∈ varsOf G s.counters i ∧ p.2 = (d.times (coef G i p.1)).flip ∧
      s.updates.variableBound G p.1 p.2 = none := by
    intro p
    rw [hr.new, hdone]
  obtain ⟨t, e2, ht, hact⟩ := countersMany hG new r (missing G s) hr.newNodup
    (by rw [hr.counters]; exact hs.activity) (by
    intro p hp k hk
    rw [hr.counters] at hk
    have h1 := (hnew p).1 hp
    have h2 := mem_varsOf.1 h1.1
    refine Finset.mem_filter.2 ⟨mem_varsOf.2 ⟨h2.1, (mem_rowsOf.1 hk).2.1, h2.2.2⟩, ?_⟩
    rw [BoundDirection.times_times]
    exact h1.2.2)
  have hrem : t.updates.removedVariables = s.updates.removedVariables := by
    rw [ht.updates, hr.removedVariables]
  have hcr : t.updates.constraintsRemoved = s.updates.constraintsRemoved := by
    rw [ht.updates, hr.constraintsRemoved]
  have hcol : t.counters.columns = s.counters.columns := by rw [ht.columns, hr.counters]
  have hcon : t.counters.constraint = s.counters.constraint := by rw [ht.constraint, hr.counters]
  have hbound' : ∀ k e, t.updates.variableBound G k e = none ↔
      k ∉ varsOf G s.counters i ∧ s.updates.variableBound G k e = none := by
    intro k e
    rw [ht.updates, hr.bound, hdone]
  have hvars : ∀ k, varsOf G t.counters k = varsOf G s.counters k := by
    intro k; unfold varsOf; rw [hcol]
  have hrows : ∀ k, rowsOf G t.counters k = rowsOf G s.counters k := by
    intro k; unfold rowsOf; rw [hcon]
  have hmissing : ∀ k < G.constraintTypes.length, s.counters.constraint k ≠ 0 → ∀ e,
      t.counters.activity k e = #(missing G t k e) := by
    intro k hk hk0 e
    rw [hact k hk (by rw [hr.counters]; exact hk0) e]
    congr 1
    ext j
    rw [hr.counters]
    simp only [missing, Finset.mem_filter, hvars, hbound']
    constructor
    · rintro ⟨⟨h1, h2⟩, h3⟩
      refine ⟨h1, ?_⟩
      have h1' := mem_varsOf.1 h1
      by_cases hj : j ∈ varsOf G s.counters i
      · exfalso
        obtain ⟨b, hb⟩ := bound_of_count hs.toCounts hi hi0 h0 hj
        rcases BoundDirection.eq_or_flip (d.times (coef G i j)) (e.times (coef G k j)) with h | h
        · rw [h, hb] at h2
          cases h2
        · refine h3 ⟨e.times (coef G k j), (hnew _).2 ⟨hj, h, h2⟩, ?_, BoundDirection.times_times _ _⟩
          exact mem_rowsOf.2 ⟨hk, h1'.2.1, hk0⟩
      · exact ⟨hj, h2⟩
    · rintro ⟨h1, hj, h2⟩
      refine ⟨⟨h1, h2⟩, ?_⟩
      rintro ⟨f, hf, _⟩
      exact hj ((hnew _).1 hf).1
  have hcounts : t.Counts G := by
    refine ⟨fun k hk hk0 => ?_, fun k hk hk0 => ?_, fun k hk hk0 e => ?_, fun k hk hk0 e he => ?_, ?_,
      fun k hk => ?_, ?_, ?_, ?_, fun p hp => ?_⟩
    · rw [hvars]
      rw [hcon] at hk0 ⊢
      exact hs.rowCount k hk hk0
    · rw [hrows]
      rw [hcol] at hk0 ⊢
      exact hs.colCount k hk hk0
    · rw [hcon] at hk0
      exact hmissing k hk hk0 e
    · rw [hcon] at hk0
      have h1 := ht.decreases k e
      have h2 : r.counters.activity k e = 0 := by
        rw [hr.counters]
        refine hs.cache k hk hk0 e ?_
        rw [← hr.cache, ← ht.cache]
        exact he
      omega
    · rw [ht.updates]; exact hr.disjoint
    · rw [ht.substitution] at hk
      rcases hr.substitution k hk with h | h
      · exact hs.substitutionQueue k h
      · exact (mem_varsOf.1 ((hdone k).1 h)).1
    · rw [ht.bound, hr.boundQueue, hcon]; exact hs.boundQueue
    · rw [ht.bound, hr.boundQueue, hcon]; exact hs.allBounds
    · rw [ht.slack, hr.slackQueue, hcol]; exact hs.slackQueue
    · rcases ht.queue p hp with h | h
      · rw [hr.activityQueue] at h
        obtain ⟨h1, h2⟩ := hs.activityQueue p h
        refine ⟨h1, fun h3 => ?_⟩
        rw [hcon] at h3
        have := ht.decreases p.1 p.2
        rw [hr.counters] at this
        exact this.trans (h2 h3)
      · exact ⟨h.1, fun _ => h.2⟩
  exact ⟨r, new, t, e1, e2, ⟨hcounts, Removal_of hs.toRemoval hcol hcon hrem hcr⟩, hcol, hcon⟩

/-- What every application of propagation does: it leaves a well-formed state, and removes the row only if it
says that the change is meaningful. -/
def ShapedChange (G : GeneralForm) (s : Index) : Run (Index × Change) → Prop
  | .ok p => p.1.WF G ∧ (p.2 ≠ .meaningful → p.1.counters.constraint = s.counters.constraint)
  | .error e => Shaped G (.error e)

theorem ShapedChange.shaped {r : Run (Index × Change)} (h : ShapedChange G s r) :
    Shaped G (r.map Prod.fst) := by
  cases r with
  | error e => exact h
  | ok p => exact h.1

theorem removeRow_shape {s₀ : Index} (hG : G.Consistent) (hs : s.WF G) (hi : i < G.constraintTypes.length)
    (hi0 : s.counters.constraint i ≠ 0) :
    ShapedChange G s₀ (do
      let s ← removeConstraintValues G s i
      pure (removeConstraint s i, .meaningful) : Run (Index × Change)) := by
  rw [removeConstraintValues_eq hG hs.toCounts hi hi0]
  cases he : emptyValues G s.updates (emptied G s i) with
  | error e => exact emptyValues_shape he
  | ok solved => exact ⟨removedState_wf hG hs hi hi0 he, fun h => absurd rfl h⟩

theorem activityBoundIfNeeded_stays (hG : G.Consistent) (hs : s.WF G) (hi : i < G.constraintTypes.length)
    (hi0 : s.counters.constraint i ≠ 0) (h0 : s.counters.activity i d = 0) :
    ∃ (f : ℕ → BoundDirection → Option ℚ) (L : ℚ),
      activityBoundIfNeeded G s i d = .ok ({ s with activityBounds := f }, L) ∧
        ({ s with activityBounds := f } : Index).WF G := by
  unfold activityBoundIfNeeded
  cases h : s.activityBounds i d with
  | none =>
    simp only [computeActivityBound_eq hG hs.toCounts hi hi0 h0, bind, Except.bind, pure, Except.pure]
    exact ⟨_, _, rfl, wf_store hs h0 _⟩
  | some b => exact ⟨s.activityBounds, b, rfl, hs⟩

theorem constraintUpdate_shape (d : BoundDirection) (t : ConstraintType) (rhs L : ℚ) :
    match constraintUpdate d t rhs L with
    | .error e => Shaped G (.error e)
    | .ok _ => True := by
  cases d <;> cases t <;> simp only [constraintUpdate] <;> split_ifs <;>
    first | trivial | exact .inr rfl

theorem constraintUpdate_remove {d : BoundDirection} {t : ConstraintType} {rhs L : ℚ}
    (h : constraintUpdate d t rhs L = .ok (some .remove)) : ruleRhs t rhs d = none := by
  cases d <;> cases t <;> simp only [constraintUpdate] at h <;> split_ifs at h <;>
    first | rfl | (exfalso; revert h; simp)

theorem presolveDomainPropagation_shape (hG : G.Consistent) (hs : s.WF G)
    (hi : i < G.constraintTypes.length) (hi0 : s.counters.constraint i ≠ 0)
    (h1 : s.counters.activity i d ≤ 1) :
    ShapedChange G s (presolveDomainPropagation G s i d) := by
  unfold presolveDomainPropagation
  have hcases : s.counters.activity i d = 0 ∨ s.counters.activity i d = 1 := by omega
  rcases hcases with h0 | h1
  swap
  · rw [h1]
    obtain ⟨r, c, e, hr⟩ := createVariableBound_stays hG hs hi hi0 h1
    simp only [e]
    exact ⟨hr.wf, fun _ => hr.constraint⟩
  · rw [h0]
    simp only []
    unfold forEntireConstraint
    obtain ⟨f, L, e, hs₁⟩ := activityBoundIfNeeded_stays hG hs hi hi0 h0
    rw [e]
    have hvar : ∀ (t : Index) (c : Change), t.WF G → t.counters = s.counters →
        t.updates.bounds = s.updates.bounds → t.updates.activityBounds = s.updates.activityBounds →
        ∀ ρ, ∃ r c', variablePart G t i ρ L d c = .ok (r, c') ∧ Stays G t r := by
      intro t c ht hc hb hab ρ
      have htu := activeRow_tuples hG t.counters hi
      refine variablePart_stays hG ρ L (activeRow G t.counters i) t c (fun p hp => (htu.mem p).1 hp)
        ⟨ht, rfl, rfl⟩ fun k hk => ?_
      obtain ⟨b, hb⟩ := bound_of_count ht.toCounts hi (by rw [hc]; exact hi0) (by rw [hc]; exact h0) hk
      rw [hb]
      simp
    simp only [bind, Except.bind]
    unfold constraintPart
    simp only [bind, Except.bind]
    have hspec := constraintUpdate_shape (G := G) d (s.updates.constraintType G i) (s.updates.rhs G i) L
    cases hu : constraintUpdate d (s.updates.constraintType G i) (s.updates.rhs G i) L with
    | error e =>
      rw [hu] at hspec
      exact hspec
    | ok c =>
      match c with
      | none =>
        simp only [pure, Except.pure, if_true]
        cases variableRuleRhs G { s with activityBounds := f } i d with
        | none => exact ⟨hs₁, fun _ => rfl⟩
        | some ρ =>
          obtain ⟨r, c', e, hr⟩ := hvar { s with activityBounds := f } .none hs₁ rfl rfl rfl ρ
          simp only [e]
          exact ⟨hr.wf, fun _ => hr.constraint⟩
      | some .remove =>
        have hnone : variableRuleRhs G { s with activityBounds := f } i d = none := by
          rw [variableRuleRhs_eq]
          exact constraintUpdate_remove hu
        simp only [pure, Except.pure, if_true, hnone]
        exact removeRow_shape hG hs₁ hi hi0
      | some (.replace t' shift) =>
        simp only [pure, Except.pure, if_true]
        have hs₂ : ({ s with
            activityBounds := f
            updates := (({ s.updates with constraints := (insertAt s.updates.constraints i
              (some t')) }).changeB G i shift) } : Index).WF G :=
          ⟨Counts_of hs₁.toCounts rfl rfl rfl rfl rfl rfl (fun _ h => .inl h) rfl,
            Removal_of hs₁.toRemoval rfl rfl rfl rfl⟩
        generalize hq : variableRuleRhs G _ i d = q
        cases q with
        | none => exact ⟨hs₂, fun _ => rfl⟩
        | some ρ =>
          obtain ⟨r, c', e, hr⟩ := hvar _ .meaningful hs₂ rfl rfl rfl ρ
          simp only [e]
          exact ⟨hr.wf, fun _ => hr.constraint⟩
      | some .setVariablesToBound =>
        obtain ⟨r, new, t, e1, e2, hn⟩ := setVariables_stays hG hs₁ hi hi0 h0
        simp only [pure, Except.pure]
        simp only [] at e1
        rw [e1]
        simp only []
        rw [e2]
        simp only [Bool.false_eq_true, if_false, if_true]
        exact removeRow_shape hG hn.wf hi (by rw [hn.constraint]; exact hi0)

end

/-! ### The steps and the loop -/

theorem wf_queues {s : Index} (hs : s.WF G) {q : Queues} (h1 : q.substitution ⊆ s.queues.substitution)
    (h2 : q.bound ⊆ s.queues.bound)
    (h2' : ∀ i ∈ s.queues.bound, s.counters.constraint i = 1 → i ∈ q.bound)
    (h3 : q.slack ⊆ s.queues.slack) (h4 : q.activity ⊆ s.queues.activity) :
    ({ s with queues := q } : Index).WF G :=
  ⟨⟨hs.rowCount, hs.colCount, hs.activity, hs.cache, hs.disjoint,
    fun j hj => hs.substitutionQueue j (h1 hj), fun i hi => hs.boundQueue i (h2 hi),
    fun i hi h => h2' i (hs.allBounds i hi h) h, fun j hj => hs.slackQueue j (h3 hj),
    fun p hp => hs.activityQueue p (h4 hp)⟩, ⟨hs.rowsRemoved, hs.varsRemoved, hs.rowsRange,
      hs.varsRange, hs.rowsNodup, hs.varsNodup, hs.ordered, hs.mentioned⟩⟩

theorem presolveStep_shape {s : Index} (hG : G.Fresh) (hs : s.WF G) :
    Shaped G ((presolveStep G s).map Prod.fst) := by
  have hG' := hG.toConsistent
  let s₁ : Index := { s with queues := { s.queues with substitution := s.queues.substitution.tail } }
  have hs₁ : s₁.WF G := wf_queues hs (List.tail_subset _) (fun _ h => h) (fun _ h _ => h)
    (fun _ h => h) (fun _ h => h)
  unfold presolveStep
  simp only []
  cases hv : s.queues.substitution.head?.filter fun j => 0 < s.counters.columns j with
  | some j =>
    simp only []
    rw [map_fst_bind]
    rw [Option.filter_eq_some_iff] at hv
    have hj : j ∈ s.queues.substitution := List.mem_of_mem_head? hv.1
    have hj0 : s.counters.columns j ≠ 0 := by
      have := hv.2
      simp only [decide_eq_true_eq] at this
      omega
    exact presolveFixedVariable_shape hG' hs₁ (hs.substitutionQueue j hj) hj0
  | none =>
    simp only []
    cases hb : s.queues.bound.dropWhile fun i => s.counters.constraint i = 0 with
    | cons i rest =>
      simp only []
      rw [map_fst_bind]
      have hsuf : i :: rest <:+ s.queues.bound := hb ▸ List.dropWhile_suffix _
      have hi : i ∈ s.queues.bound := hsuf.subset (by simp)
      have hi0 : s.counters.constraint i ≠ 0 := by
        have h := dropWhile_head hb
        simpa using h
      have h1 := hs.boundQueue i hi
      refine presolveBoundConstraint_shape hG' hs₁ h1.1 ?_ (fun k hk => hsuf.subset (by simp [hk])) ?_
      · show s.counters.constraint i = 1
        omega
      · intro k hk h h'
        have : k ∈ s.queues.bound.dropWhile fun i => decide (s.counters.constraint i = 0) :=
          mem_dropWhile h' (by
            have : s.counters.constraint k = 1 := h
            simp [this])
        rw [hb, List.mem_cons] at this
        exact this.resolve_left hk
    | nil =>
      simp only []
      have hnone : ∀ i ∈ s.queues.bound, s.counters.constraint i = 0 := by
        intro i hi
        by_contra h
        have := mem_dropWhile (p := fun i => decide (s.counters.constraint i = 0)) hi (by simp [h])
        rw [hb] at this
        cases this
      let s₂ : Index := { s₁ with queues := { s₁.queues with bound := [] } }
      have hs₂ : s₂.WF G := wf_queues hs₁ (fun _ h => h) (by simp)
        (fun i hi h => by
          have h1 := hnone i hi
          have h2 : s.counters.constraint i = 1 := h
          omega)
        (fun _ h => h) (fun _ h => h)
      cases hl : s.queues.slack.dropWhile fun j => s.counters.columns j = 0 with
      | cons j rest =>
        simp only []
        rw [map_fst_bind]
        have hsuf : j :: rest <:+ s.queues.slack := hl ▸ List.dropWhile_suffix _
        have hj : j ∈ s.queues.slack := hsuf.subset (by simp)
        have hj0 : s.counters.columns j ≠ 0 := by
          have h := dropWhile_head hl
          simpa using h
        have h1 := hs.slackQueue j hj
        let s₃ : Index := { s₂ with queues := { s₂.queues with slack := rest } }
        have hs₃ : s₃.WF G := wf_queues hs₂ (fun _ h => h) (fun _ h => h) (fun _ h _ => h)
          (fun k hk => hsuf.subset (by simp [hk])) (fun _ h => h)
        exact presolveSlack_shape hG hs₃ rfl h1.1 (by show s.counters.columns j = 1; omega)
      | nil =>
        simp only []
        let s₃ : Index := { s₂ with queues := { s₂.queues with slack := [] } }
        have hs₃ : s₃.WF G := wf_queues hs₂ (fun _ h => h) (fun _ h => h) (fun _ h _ => h)
          (by simp) (fun _ h => h)
        cases ha : s.queues.activity.dropWhile fun p => s.counters.constraint p.1 = 0 with
        | cons p rest =>
          obtain ⟨i, d⟩ := p
          simp only []
          have hsuf : (i, d) :: rest <:+ s.queues.activity := ha ▸ List.dropWhile_suffix _
          have hi : (i, d) ∈ s.queues.activity := hsuf.subset (by simp)
          have hi0 : s.counters.constraint i ≠ 0 := by
            have h := dropWhile_head ha
            simpa using h
          have h1 := hs.activityQueue _ hi
          let s₄ : Index := { s₃ with queues := { s₃.queues with activity := rest } }
          have hs₄ : s₄.WF G := wf_queues hs₃ (fun _ h => h) (fun _ h => h) (fun _ h _ => h)
            (fun _ h => h) (fun k hk => hsuf.subset (by simp [hk]))
          exact (presolveDomainPropagation_shape hG' hs₄ h1.1 hi0 (h1.2 hi0)).shaped
        | nil =>
          simp only [pure, Except.pure, Except.map]
          exact wf_queues hs₃ (fun _ h => h) (fun _ h => h) (fun _ h _ => h) (fun _ h => h) (by simp)

theorem presolveLoop_shape (hG : G.Fresh) (fuel : ℕ) : ∀ (s : Index) (iterations : ℕ), s.WF G →
    match presolveLoop G fuel s iterations with
    | .ok t => t.WF G
    | .error (.verdict _) => True
    | .error (.abort a) => a = .unwrapNone ∨ a = .unreachable
    | .error .outOfFuel => True := by
  induction fuel with
  | zero =>
    intro s k hs
    unfold presolveLoop
    by_cases h : (!s.queues.areEmpty && decide (k < remaining G s)) = true
    · rw [if_pos h]
      trivial
    · rw [if_neg h]
      exact hs
  | succ fuel ih =>
    intro s k hs
    unfold presolveLoop
    by_cases h : (!s.queues.areEmpty && decide (k < remaining G s)) = true
    · rw [if_pos h]
      have hstep := presolveStep_shape hG hs
      cases hr : presolveStep G s with
      | error e =>
        rw [hr] at hstep
        simp only [bind, Except.bind]
        match e, hstep with
        | .verdict r, _ => trivial
        | .abort a, h => exact h
      | ok p =>
        rw [hr] at hstep
        simp only [bind, Except.bind]
        exact ih _ _ hstep
    · rw [if_neg h]
      exact hs

/-! ### The start and the end -/

theorem start_wf (hG : G.Consistent) {solved : List (ℕ × ℚ)}
    (hs : solved.map (·.1) = emptyColumns G) : (startIndex G solved).WF G := by
  have hrem : (startIndex G solved).updates.removedVariables.map (·.1) = emptyColumns G := by
    simp only [startIndex, startUpdates, solveVars, Updates.initial, List.nil_append, List.map_map]
    exact hs
  have hec : ∀ j, j ∈ emptyColumns G ↔ j < G.vars.length ∧ (Counters.new G).columns j = 0 := by
    intro j; simp [emptyColumns]
  have her : ∀ i, i ∈ emptyRows G ↔ i < G.constraintTypes.length ∧ (Counters.new G).constraint i = 0 := by
    intro i; simp [emptyRows]
  refine ⟨⟨?_, ?_, ?_, ?_, ?_, ?_, ?_, ?_, ?_, ?_⟩, ⟨?_, ?_, ?_, ?_, ?_, ?_, ?_, ?_⟩⟩
  · intro i hi _
    show (Counters.new G).constraint i = #(varsOf G (Counters.new G) i)
    rw [start_varsOf hG, start_rows hG hi]
  · intro j hj _
    show (Counters.new G).columns j = #(rowsOf G (Counters.new G) j)
    rw [start_rowsOf hG, start_columns hG]
  · intro i hi _ d
    show (row G i).countP _ = _
    rw [List.countP_eq_length_filter, ((row_tuples hG hi).filter _).length]
    congr 1
    ext j
    simp only [missing, mem_filter]
    rw [show (startIndex G solved).counters = Counters.new G from rfl, start_varsOf hG]
    simp only [mem_filter, Option.isNone_iff_eq_none]
    rfl
  · intro i _ _ d h
    exact absurd rfl h
  · intro j d
    exact .of_none rfl
  · intro j hj
    simp only [startIndex, Queues.new, List.mem_reverse, List.mem_filter, List.mem_range] at hj
    exact hj.1
  · intro i hi
    simp only [startIndex, Queues.new, List.mem_reverse, List.mem_filter, List.mem_range,
      decide_eq_true_eq] at hi
    exact ⟨hi.1, hi.2.le⟩
  · intro i hi h
    simp only [startIndex, Queues.new, List.mem_reverse, List.mem_filter, List.mem_range,
      decide_eq_true_eq]
    exact ⟨hi, h⟩
  · intro j hj
    simp only [startIndex, Queues.new, List.mem_reverse, List.mem_filter, List.mem_range,
      decide_eq_true_eq] at hj
    exact ⟨hj.1, hj.2.1.le, hj.2.2⟩
  · intro p hp
    simp only [startIndex, Queues.new, List.mem_flatMap, List.mem_range] at hp
    obtain ⟨i, hi, hp⟩ := hp
    split at hp
    · rw [List.mem_append] at hp
      rcases hp with hp | hp
      · split at hp
        · rename_i h
          rw [List.mem_singleton] at hp
          rw [hp]
          exact ⟨hi, fun _ => h⟩
        · cases hp
      · split at hp
        · rename_i h
          rw [List.mem_singleton] at hp
          rw [hp]
          exact ⟨hi, fun _ => h⟩
        · cases hp
    · cases hp
  · intro i hi
    show i ∈ emptyRows G ↔ _
    rw [her]
    exact ⟨fun h => h.2, fun h => ⟨hi, h⟩⟩
  · intro j hj
    rw [hrem, hec]
    exact ⟨fun h => h.2, fun h => ⟨hj, h⟩⟩
  · intro i hi
    exact ((her i).1 hi).1
  · intro j hj
    rw [hrem] at hj
    exact ((hec j).1 hj).1
  · exact List.nodup_range.filter _
  · rw [hrem]
    exact List.nodup_range.filter _
  · exact Ordered.append_solved (l := []) ⟨by simp, List.Pairwise.nil⟩ solved
  · intro p hp k hk
    simp only [startIndex, startUpdates, solveVars, Updates.initial, List.nil_append, List.mem_map] at hp
    obtain ⟨q, _, rfl⟩ := hp
    exact hk.elim

theorem indexNew_shape (hG : G.Consistent) : Shaped G (Index.new G) := by
  have e1 : Index.new G = (do
      let solved ← emptyValues G Updates.initial (emptyColumns G)
      if ∀ i ∈ emptyRows G, isEmptyConstraintFeasible (Updates.initial.rhs G i)
          (Updates.initial.constraintType G i) = true then
        .ok (startIndex G solved)
      else .error (.verdict .infeasible)) := by
    unfold Index.new
    simp only []
    rw [updatesNew_eq]
    cases emptyValues G Updates.initial (emptyColumns G) with
    | error e => rfl
    | ok solved =>
      simp only [bind, Except.bind]
      by_cases h : ∀ i ∈ emptyRows G, isEmptyConstraintFeasible (Updates.initial.rhs G i)
          (Updates.initial.constraintType G i) = true
      · rw [if_pos h, if_pos h]
        rfl
      · rw [if_neg h, if_neg h]
  rw [e1]
  cases hv : emptyValues G Updates.initial (emptyColumns G) with
  | error e => exact emptyValues_shape hv
  | ok solved =>
    simp only [bind, Except.bind]
    split
    · exact start_wf hG (emptyValues_ok hv).1
    · trivial

/-! ### The rows that are left -/

/-- After a step that is not meaningful, no constraint has a single variable. -/
theorem presolveStep_rows {s t : Index} {c : Change} (hG : G.Fresh) (hs : s.WF G)
    (h : presolveStep G s = .ok (t, c)) (hc : c ≠ .meaningful) :
    ∀ i < G.constraintTypes.length, t.counters.constraint i ≠ 1 := by
  have hG' := hG.toConsistent
  let s₁ : Index := { s with queues := { s.queues with substitution := s.queues.substitution.tail } }
  have hs₁ : s₁.WF G := wf_queues hs (List.tail_subset _) (fun _ h => h) (fun _ h _ => h)
    (fun _ h => h) (fun _ h => h)
  have hmeaning : ∀ r : Run Index, (do let s ← r; pure (s, Change.meaningful) : Run (Index × Change)) =
      .ok (t, c) → False := by
    intro r hr
    cases r with
    | error e => cases hr
    | ok s => cases hr; exact hc rfl
  unfold presolveStep at h
  simp only [] at h
  cases hv : s.queues.substitution.head?.filter fun j => 0 < s.counters.columns j with
  | some j =>
    rw [hv] at h
    exact (hmeaning _ h).elim
  | none =>
    rw [hv] at h
    simp only [] at h
    cases hb : s.queues.bound.dropWhile fun i => s.counters.constraint i = 0 with
    | cons i rest =>
      rw [hb] at h
      exact (hmeaning _ h).elim
    | nil =>
      rw [hb] at h
      simp only [] at h
      have hnone : ∀ i ∈ s.queues.bound, s.counters.constraint i = 0 := by
        intro i hi
        by_contra h
        have := mem_dropWhile (p := fun i => decide (s.counters.constraint i = 0)) hi (by simp [h])
        rw [hb] at this
        cases this
      have hone : ∀ i < G.constraintTypes.length, s.counters.constraint i ≠ 1 := by
        intro i hi h1
        have := hnone i (hs.allBounds i hi h1)
        omega
      let s₂ : Index := { s₁ with queues := { s₁.queues with bound := [] } }
      have hs₂ : s₂.WF G := wf_queues hs₁ (fun _ h => h) (by simp)
        (fun i hi h => by
          have h1 := hnone i hi
          have h2 : s.counters.constraint i = 1 := h
          omega)
        (fun _ h => h) (fun _ h => h)
      cases hl : s.queues.slack.dropWhile fun j => s.counters.columns j = 0 with
      | cons j rest =>
        rw [hl] at h
        exact (hmeaning _ h).elim
      | nil =>
        rw [hl] at h
        simp only [] at h
        let s₃ : Index := { s₂ with queues := { s₂.queues with slack := [] } }
        have hs₃ : s₃.WF G := wf_queues hs₂ (fun _ h => h) (fun _ h => h) (fun _ h _ => h)
          (by simp) (fun _ h => h)
        cases ha : s.queues.activity.dropWhile fun p => s.counters.constraint p.1 = 0 with
        | cons p rest =>
          obtain ⟨i, d⟩ := p
          rw [ha] at h
          simp only [] at h
          have hsuf : (i, d) :: rest <:+ s.queues.activity := ha ▸ List.dropWhile_suffix _
          have hi : (i, d) ∈ s.queues.activity := hsuf.subset (by simp)
          have hi0 : s.counters.constraint i ≠ 0 := by
            have h := dropWhile_head ha
            simpa using h
          have h1 := hs.activityQueue _ hi
          let s₄ : Index := { s₃ with queues := { s₃.queues with activity := rest } }
          have hs₄ : s₄.WF G := wf_queues hs₃ (fun _ h => h) (fun _ h => h) (fun _ h _ => h)
            (fun _ h => h) (fun k hk => hsuf.subset (by simp [hk]))
          have h2 := presolveDomainPropagation_shape hG' hs₄ h1.1 hi0 (h1.2 hi0)
          have h' : presolveDomainPropagation G s₄ i d = .ok (t, c) := h
          rw [h'] at h2
          have h3 : t.counters.constraint = s.counters.constraint := h2.2 hc
          rw [h3]
          exact hone
        | nil =>
          rw [ha] at h
          simp only [pure, Except.pure] at h
          cases h
          exact hone

/-- At the end of the loop no constraint has a single variable. -/
theorem presolveLoop_rows (hG : G.Fresh) (fuel : ℕ) : ∀ (s t : Index) (iterations : ℕ), s.WF G →
    (iterations = 0 ∨ ∀ i < G.constraintTypes.length, s.counters.constraint i ≠ 1) →
    presolveLoop G fuel s iterations = .ok t →
    t.WF G ∧ ∀ i < G.constraintTypes.length, t.counters.constraint i ≠ 1 := by
  have hexit : ∀ (s : Index) (k : ℕ), s.WF G →
      (k = 0 ∨ ∀ i < G.constraintTypes.length, s.counters.constraint i ≠ 1) →
      ¬(!s.queues.areEmpty && decide (k < remaining G s)) = true →
      ∀ i < G.constraintTypes.length, s.counters.constraint i ≠ 1 := by
    intro s k hs hk h i hi h1
    rcases hk with rfl | hk
    · simp only [Bool.and_eq_true, Bool.not_eq_true', decide_eq_true_eq, not_and, not_lt,
        Bool.not_eq_false] at h
      by_cases he : s.queues.areEmpty = true
      · have hb := hs.allBounds i hi h1
        simp only [Queues.areEmpty, Bool.and_eq_true, List.isEmpty_iff] at he
        rw [he.1.2] at hb
        cases hb
      · have h := h (by simpa using he)
        unfold remaining at h
        have hsub : s.updates.constraintsRemoved.toFinset ⊆ range G.constraintTypes.length := by
          intro k hk
          exact Finset.mem_range.2 (hs.rowsRange k (List.mem_toFinset.1 hk))
        have hcard : #s.updates.constraintsRemoved.toFinset = s.updates.constraintsRemoved.length :=
          List.toFinset_card_of_nodup hs.rowsNodup
        have heq := Finset.eq_of_subset_of_card_le hsub (by rw [Finset.card_range, hcard]; omega)
        have : i ∈ s.updates.constraintsRemoved := by
          rw [← List.mem_toFinset, heq]
          exact Finset.mem_range.2 hi
        have := (hs.rowsRemoved i hi).1 this
        omega
    · exact hk i hi h1
  induction fuel with
  | zero =>
    intro s t k hs hk hl
    unfold presolveLoop at hl
    by_cases h : (!s.queues.areEmpty && decide (k < remaining G s)) = true
    · rw [if_pos h] at hl
      cases hl
    · rw [if_neg h] at hl
      cases hl
      exact ⟨hs, hexit _ k hs hk h⟩
  | succ fuel ih =>
    intro s t k hs hk hl
    unfold presolveLoop at hl
    by_cases h : (!s.queues.areEmpty && decide (k < remaining G s)) = true
    · rw [if_pos h] at hl
      have hstep := presolveStep_shape hG hs
      cases hr : presolveStep G s with
      | error e =>
        rw [hr] at hl
        cases hl
      | ok p =>
        obtain ⟨r, c⟩ := p
        rw [hr] at hstep hl
        simp only [bind, Except.bind] at hl
        refine ih r t _ hstep ?_ hl
        by_cases hc : c = .meaningful
        · subst hc
          exact .inl rfl
        · exact .inr (presolveStep_rows hG hs hr hc)
    · rw [if_neg h] at hl
      cases hl
      exact ⟨hs, hexit _ k hs hk h⟩

/-! ### The variables that are left -/

theorem raw_result {u : Updates} {H : GeneralForm} (h : Finished G u H) (ho : OriginalAfter G u H.original) :
    Result G u H where
  toFinished := h
  originalLength := ho.length
  entries := by
    intro o name e he
    rcases ho.cases he with ⟨k, _, hk⟩ | ⟨r, hr, hk⟩
    · exact .inl ⟨k, hk⟩
    · exact .inr (.inr ⟨r, hr, hk⟩)
  equations := by
    intro x
    constructor
    · intro h p hp
      obtain ⟨name, e⟩ := ho.removed p hp
      exact h _ _ _ e
    · intro h o name r he
      rcases ho.cases he with ⟨k, _, hk⟩ | ⟨r', hr, hk⟩
      · cases hk
      · cases hk
        exact h _ hr

/-- If all variables are removed, the values of all of them can be computed. -/
theorem computedValue_all {H : GeneralForm} (hac : H.Acyclic)
    (hr : ∀ o < H.original.length, ∃ name r, H.original[o]? = some (name, .removed r)) {o : ℕ}
    (ho : o < H.original.length) : ∃ v, computedValue H (H.original.length + 1) o = some v := by
  obtain ⟨rank, h1, h2⟩ := hac
  have key : ∀ m o, o < H.original.length → rank o ≤ m → ∃ v, computedValue H (m + 1) o = some v := by
    intro m
    induction m with
    | zero =>
      intro o ho hm
      obtain ⟨name, r, he⟩ := hr o ho
      cases r with
      | solved v => exact ⟨v, computedValue_succ.2 (.inl ⟨name, he⟩)⟩
      | functionOfOthers c cs =>
        refine ⟨_, computedValue_succ.2 (.inr ⟨name, c, cs, he, fun _ => 0, fun p hp => ?_, rfl⟩)⟩
        have := (h2 o name c cs he p hp).2
        omega
    | succ m ih =>
      intro o ho hm
      obtain ⟨name, r, he⟩ := hr o ho
      cases r with
      | solved v => exact ⟨v, computedValue_succ.2 (.inl ⟨name, he⟩)⟩
      | functionOfOthers c cs =>
        refine ⟨_, computedValue_succ.2 (.inr ⟨name, c, cs, he,
          fun k => (computedValue H (m + 1) k).getD 0, fun p hp => ?_, rfl⟩)⟩
        have h3 := h2 o name c cs he p hp
        obtain ⟨v, hv⟩ := ih p.1 h3.1 (by omega)
        simp only [hv, Option.getD_some]
  exact key _ o ho (h1 o)

theorem mapM_isSome {α β : Type} {f : α → Option β} : ∀ {l : List α}, (∀ a ∈ l, ∃ b, f a = some b) →
    ∃ r, l.mapM f = some r
  | [], _ => ⟨[], rfl⟩
  | a :: l, h => by
    obtain ⟨b, hb⟩ := h a (by simp)
    obtain ⟨r, hr⟩ := mapM_isSome (l := l) fun a ha => h a (by simp [ha])
    exact ⟨b :: r, by rw [List.mapM_cons, hb, hr]; rfl⟩

/-- If all variables are removed, presolving gives the solution. -/
theorem getSolution_all {H : GeneralForm} (hac : H.Acyclic)
    (hr : ∀ o < H.original.length, ∃ name r, H.original[o]? = some (name, .removed r)) :
    getSolution (computeSolutionWherePossible H) ≠ none := by
  have hsolved : ∀ q ∈ (computeSolutionWherePossible H).original, ∃ name v,
      q = (name, .removed (.solved v)) := by
    intro q hq
    obtain ⟨o, ho, rfl⟩ := List.mem_iff_getElem.1 hq
    obtain ⟨e', h1, h2⟩ := computed_entry.1 (show (computeSolutionWherePossible H).original[o]? =
      some (((computeSolutionWherePossible H).original[o]).1, _) from List.getElem?_eq_getElem ho)
    have hlt : o < H.original.length := (List.getElem?_eq_some_iff.1 h1).1
    obtain ⟨name, r, h3⟩ := hr o hlt
    obtain ⟨v, hv⟩ := computedValue_all hac hr hlt
    rw [h1] at h3
    cases h3
    rcases h2 with ⟨h4, h5⟩ | ⟨c, cs, w, _, _, h4⟩
    · cases r with
      | solved w => exact ⟨_, w, Prod.ext rfl h4⟩
      | functionOfOthers c cs =>
        rw [h5 c cs rfl] at hv
        cases hv
    · exact ⟨_, w, Prod.ext rfl h4⟩
  unfold getSolution
  generalize hf : (fun p : String × OriginalVariable => _) = f
  obtain ⟨r, hr⟩ := mapM_isSome (f := f) (l := (computeSolutionWherePossible H).original) (by
    intro q hq
    obtain ⟨name, v, rfl⟩ := hsolved q hq
    exact ⟨(name, v), by rw [← hf]⟩)
  rw [hr]
  simp

/-- What is known of the problem that is left. -/
theorem presolve_left (hG : G.Fresh) {fuel : ℕ} {H : GeneralForm} (h : presolve fuel G = .ok H) :
    ∃ s : Index, s.WF G ∧ (∀ i < G.constraintTypes.length, s.counters.constraint i ≠ 1) ∧
      Result G s.updates H ∧ H.Acyclic ∧ leftVars G s.updates ≠ [] := by
  unfold presolve at h
  have hnew := indexNew_shape hG.toConsistent
  cases hs : Index.new G with
  | error e =>
    rw [hs] at h
    cases h
  | ok s =>
    rw [hs] at h hnew
    simp only [bind, Except.bind] at h
    cases hl : presolveLoop G fuel s 0 with
    | error e =>
      rw [hl] at h
      cases h
    | ok t =>
      rw [hl] at h
      simp only [] at h
      obtain ⟨ht, hone⟩ := presolveLoop_rows hG fuel s t 0 hnew (.inl rfl) hl
      obtain ⟨K, h1, h2, h3⟩ := removeRowsAndColumns_finished hG ht.varsNodup ht.varsRange ht.rowsNodup
        ht.rowsRange
      rw [h1] at h
      simp only [] at h
      have hres := computed_result h2 h3
      cases hsol : getSolution (computeSolutionWherePossible K) with
      | some solution => rw [hsol] at h; cases h
      | none =>
        rw [hsol] at h
        cases h
        refine ⟨t, ht, hone, hres, hres.acyclic ht.varsNodup ht.varsRange ht.ordered ht.mentioned, ?_⟩
        intro hnil
        refine getSolution_all ((raw_result h2 h3).acyclic ht.varsNodup ht.varsRange ht.ordered
          ht.mentioned) (fun o ho => ?_) hsol
        rcases h3.cases (List.getElem?_eq_getElem ho) with ⟨k, hk, _⟩ | ⟨r, _, hr⟩
        · rw [hnil] at hk; cases hk
        · exact ⟨K.original[o].1, r, by rw [List.getElem?_eq_getElem ho, ← hr]⟩

theorem coef_toProgram {H : GeneralForm} (i : Fin H.constraintTypes.length) (j : Fin H.vars.length) :
    H.toProgram.A i j = coef H i j := rfl

/-- The variables and constraints that are left: each variable is in a constraint, and each constraint has at
least two variables. -/
theorem presolve_occupied {s : Index} {H : GeneralForm} (hs : s.WF G)
    (hone : ∀ i < G.constraintTypes.length, s.counters.constraint i ≠ 1) (h : Result G s.updates H) :
    (∀ j, ∃ i, H.toProgram.A i j ≠ 0) ∧
    ∀ i, ∃ j k, j ≠ k ∧ H.toProgram.A i j ≠ 0 ∧ H.toProgram.A i k ≠ 0 := by
  have hvar : ∀ j, j < G.vars.length → s.counters.columns j ≠ 0 →
      ∃ k : Fin H.vars.length, (leftVars G s.updates)[k.val]? = some j := by
    intro j hj hj0
    obtain ⟨k, hk, he⟩ := List.mem_iff_getElem.1
      (mem_keptIndices.2 ⟨hj, fun hm => hj0 ((hs.varsRemoved j hj).1 hm)⟩ : j ∈ leftVars G s.updates)
    exact ⟨⟨k, h.varsLength ▸ hk⟩, by unfold leftVars; rw [List.getElem?_eq_getElem hk, he]⟩
  have hrow : ∀ i, i < G.constraintTypes.length → s.counters.constraint i ≠ 0 →
      ∃ r : Fin H.constraintTypes.length, (leftRows G s.updates)[r.val]? = some i := by
    intro i hi hi0
    obtain ⟨k, hk, he⟩ := List.mem_iff_getElem.1
      (mem_keptIndices.2 ⟨hi, fun hm => hi0 ((hs.rowsRemoved i hi).1 hm)⟩ : i ∈ leftRows G s.updates)
    exact ⟨⟨k, h.rowsLength ▸ hk⟩, by unfold leftRows; rw [List.getElem?_eq_getElem hk, he]⟩
  constructor
  · intro k
    have hk := left_getElem (h.varsLength ▸ k.isLt : k.val < (leftVars G s.updates).length)
    have hj := mem_keptIndices.1 (List.mem_of_getElem? hk)
    have hj0 : s.counters.columns _ ≠ 0 := fun h0 => hj.2 ((hs.varsRemoved _ hj.1).2 h0)
    have hcard := hs.colCount _ hj.1 hj0
    obtain ⟨i, hi⟩ := Finset.card_pos.1 (Nat.pos_of_ne_zero (hcard ▸ hj0))
    have hi := mem_rowsOf.1 hi
    obtain ⟨r, hr⟩ := hrow i hi.1 hi.2.2
    refine ⟨r, ?_⟩
    rw [coef_toProgram, h.coef _ _ _ _ hr hk]
    exact hi.2.1
  · intro r
    have hr := left_getElem (h.rowsLength ▸ r.isLt : r.val < (leftRows G s.updates).length)
    have hi := mem_keptIndices.1 (List.mem_of_getElem? hr)
    have hi0 : s.counters.constraint _ ≠ 0 := fun h0 => hi.2 ((hs.rowsRemoved _ hi.1).2 h0)
    have hcard := hs.rowCount _ hi.1 hi0
    have hi1 := hone _ hi.1
    have htwo : 1 < #(varsOf G s.counters ((leftRows G s.updates).getD r.val 0)) := by omega
    obtain ⟨a, ha, b, hb, hab⟩ := Finset.one_lt_card.1 htwo
    have ha := mem_varsOf.1 ha
    have hb := mem_varsOf.1 hb
    obtain ⟨j, hj⟩ := hvar a ha.1 ha.2.2
    obtain ⟨k, hk⟩ := hvar b hb.1 hb.2.2
    refine ⟨j, k, ?_, ?_, ?_⟩
    · rintro rfl
      rw [hj] at hk
      exact hab (Option.some.inj hk)
    · rw [coef_toProgram, h.coef _ _ _ _ hr hj]
      exact ha.2.1
    · rw [coef_toProgram, h.coef _ _ _ _ hr hk]
      exact hb.2.1

/-- What is left is part of the problem. -/
theorem Result.part {u : Updates} {H : GeneralForm} (h : Result G u H) :
    ∃ row : Fin H.constraintTypes.length → Fin G.constraintTypes.length,
    ∃ var : Fin H.vars.length → Fin G.vars.length, StrictMono row ∧ StrictMono var ∧
      (∀ j, H.fromActive[j.val]? = some (var j).val) ∧
      (∀ i j, H.toProgram.A i j = G.toProgram.A (row i) (var j)) ∧
      ∀ j, H.toProgram.c j = G.toProgram.c (var j) := by
  have hv : ∀ k : Fin H.vars.length, k.val < (leftVars G u).length := fun k => h.varsLength ▸ k.isLt
  have hr : ∀ r : Fin H.constraintTypes.length, r.val < (leftRows G u).length :=
    fun r => h.rowsLength ▸ r.isLt
  have hvs : (leftVars G u).Pairwise (· < ·) := List.pairwise_lt_range.filter _
  have hrs : (leftRows G u).Pairwise (· < ·) := List.pairwise_lt_range.filter _
  refine ⟨fun r => ⟨(leftRows G u)[r.val]'(hr r), (mem_keptIndices.1 (List.getElem_mem (hr r))).1⟩,
    fun k => ⟨(leftVars G u)[k.val]'(hv k), (mem_keptIndices.1 (List.getElem_mem (hv k))).1⟩,
    fun a b hab => List.pairwise_iff_getElem.1 hrs _ _ _ _ hab,
    fun a b hab => List.pairwise_iff_getElem.1 hvs _ _ _ _ hab, fun k => ?_, fun r k => ?_, fun k => ?_⟩
  · rw [h.fromActive]
    exact List.getElem?_eq_getElem (hv k)
  · rw [coef_toProgram, coef_toProgram]
    exact h.coef _ _ _ _ (List.getElem?_eq_getElem (hr r)) (List.getElem?_eq_getElem (hv k))
  · have h1 := h.cost _ _ (List.getElem?_eq_getElem (hv k))
    have hlt := (mem_keptIndices.1 (List.getElem_mem (hv k))).1
    unfold costOf at h1
    rw [List.getElem?_eq_getElem k.isLt, List.getElem?_eq_getElem hlt] at h1
    exact h1

/-- The aborts of presolving. -/
theorem presolve_aborts (hG : G.Fresh) {fuel : ℕ} {a : Abort} (h : presolve fuel G = .error (.abort a)) :
    a = .unwrapNone ∨ a = .unreachable := by
  unfold presolve at h
  have hnew := indexNew_shape hG.toConsistent
  cases hs : Index.new G with
  | error e =>
    rw [hs] at h hnew
    cases h
    exact hnew
  | ok s =>
    rw [hs] at h hnew
    simp only [bind, Except.bind] at h
    have hloop := presolveLoop_shape hG fuel s 0 hnew
    cases hl : presolveLoop G fuel s 0 with
    | error e =>
      rw [hl] at h hloop
      cases h
      exact hloop
    | ok t =>
      rw [hl] at h hloop
      simp only [] at h
      obtain ⟨K, h1, _, _⟩ := removeRowsAndColumns_finished hG hloop.varsNodup hloop.varsRange
        hloop.rowsNodup hloop.rowsRange
      rw [h1] at h
      simp only [] at h
      cases hsol : getSolution (computeSolutionWherePossible K) with
      | some solution => rw [hsol] at h; cases h
      | none => rw [hsol] at h; cases h

end Presolve

end Relp
