import Verif.Proof.PresolveBound

/-!
# Slack variables
-/

namespace Relp

open Finset

namespace Presolve

variable {G : GeneralForm}

section

variable {s : Index} {i j : ℕ}

/-- The only row of a slack variable. -/
theorem slackRow (hG : G.Consistent) (hs : s.Counts G) (hj : j < G.vars.length)
    (h1 : s.counters.columns j = 1) :
    ∃ i, rowsOf G s.counters j = {i} ∧ activeColumn G s.counters j = [(i, coef G i j)] := by
  obtain ⟨i, hi⟩ := Finset.card_eq_one.1 ((hs.colCount j hj (by omega)).symm.trans h1)
  have ht := activeColumn_tuples hG s.counters j
  rw [hi] at ht
  refine ⟨i, hi, ?_⟩
  have hl := ht.length
  rw [Finset.card_singleton] at hl
  obtain ⟨p, hp⟩ := List.length_eq_one_iff.1 hl
  have := (ht.mem p).1 (by rw [hp]; simp)
  rw [Finset.mem_singleton] at this
  rw [hp]
  congr 1
  exact Prod.ext this.1 (by rw [this.2, this.1])

theorem getD_range {n k : ℕ} (h : k < n) : (List.range n).getD k 0 = k := by
  rw [List.getD_eq_getElem?_getD, List.getElem?_range h]
  rfl

/-- The value recorded for a slack variable. -/
theorem solution_valueAt (hG : G.Fresh) (hs : s.WF G) (hi : i < G.constraintTypes.length)
    (x : ℕ → ℚ) :
    (removedVariableSolution G s i j (coef G i j)).valueAt x =
      (s.updates.rhs G i - ∑ k ∈ (varsOf G s.counters i).erase j, coef G i k * x k) / coef G i j := by
  have ht := (activeRow_tuples hG.toConsistent s.counters hi).filter fun p => p.1 ≠ j
  unfold removedVariableSolution
  simp only [RemovedVariable.valueAt]
  rw [List.map_map]
  have hmap : ((activeRow G s.counters i).filter fun p => p.1 ≠ j).map
      ((fun p : ℕ × ℚ => p.2 * x p.1) ∘ fun p => (G.fromActive.getD p.1 0, p.2 / coef G i j)) =
      ((activeRow G s.counters i).filter fun p => p.1 ≠ j).map
        fun p => p.2 / coef G i j * x p.1 := by
    apply List.map_congr_left
    intro p hp
    have hp' := (Finset.mem_filter.1 ((ht.mem p).1 hp).1).1
    simp only [Function.comp]
    rw [hG.identity, getD_range (mem_varsOf.1 hp').1]
  rw [hmap, ht.sum]
  have hset : (varsOf G s.counters i).filter (fun k => decide ((k, coef G i k).1 ≠ j) = true) =
      (varsOf G s.counters i).erase j := by
    ext k
    simp only [Finset.mem_filter, Finset.mem_erase, decide_eq_true_eq]
    tauto
  rw [hset, sub_div, div_eq_mul_inv (∑ k ∈ _, _), Finset.sum_mul]
  congr 1
  exact Finset.sum_congr rfl fun k _ => by simp only []; ring

theorem solution_mentions (hG : G.Fresh) (hi : i < G.constraintTypes.length) {c : ℚ} {k : ℕ}
    (h : (removedVariableSolution G s i j c).Mentions k) : k ∈ (varsOf G s.counters i).erase j := by
  have ht := activeRow_tuples hG.toConsistent s.counters hi
  unfold removedVariableSolution RemovedVariable.Mentions at h
  simp only [List.map_map, List.mem_map, List.mem_filter, decide_eq_true_eq, Function.comp] at h
  obtain ⟨p, ⟨hp, hne⟩, rfl⟩ := h
  have hp' := ((ht.mem p).1 hp).1
  rw [hG.identity, getD_range (mem_varsOf.1 hp').1]
  exact Finset.mem_erase.2 ⟨hne, hp'⟩

theorem Ordered.append_function {l : List (ℕ × RemovedVariable)} (h : Ordered l) {j : ℕ}
    {r : RemovedVariable} (hr : ¬r.Mentions j)
    (hm : ∀ p ∈ l, r.Mentions p.1 → ∃ v, p.2 = .solved v) : Ordered (l ++ [(j, r)]) := by
  refine ⟨fun p hp => ?_, ?_⟩
  · rcases List.mem_append.1 hp with hp | hp
    · exact h.1 p hp
    · rw [List.mem_singleton] at hp
      subst hp
      exact hr
  · rw [List.pairwise_append]
    refine ⟨h.2, List.pairwise_singleton _ _, fun p hp q hq => ?_⟩
    rw [List.mem_singleton] at hq
    subst hq
    exact hm p hp

/-- Left-hand side without a slack variable. -/
theorem value_slack (hs : s.WF G) {v : Updates} {r : RemovedVariable}
    (hv : v.removedVariables = s.updates.removedVariables ++ [(j, r)]) (x : ℕ → ℚ) :
    v.value G i x = ∑ k ∈ (varsOf G s.counters i).erase j, coef G i k * x k := by
  symm
  unfold Updates.value
  rw [Updates.live_cons hv]
  apply Finset.sum_subset
  · intro k hk
    rw [Finset.mem_erase, mem_varsOf] at hk
    rw [Finset.mem_erase, hs.mem_live]
    exact ⟨hk.1, hk.2.1, hk.2.2.2⟩
  · intro k hk hk'
    rw [Finset.mem_erase, hs.mem_live] at hk
    have : coef G i k = 0 := by
      by_contra hc
      exact hk' (Finset.mem_erase.2 ⟨hk.1, mem_varsOf.2 ⟨hk.2.1, hc, hk.2.2⟩⟩)
    rw [this, zero_mul]

/-- The variable is in no other row. -/
theorem slack_only (hs : s.WF G) (hr : rowsOf G s.counters j = {i}) {k : ℕ}
    (hk : k < G.constraintTypes.length)
    (hkr : k ∉ s.updates.constraintsRemoved) (hki : k ≠ i) : coef G k j = 0 := by
  by_contra hc
  have : k ∈ rowsOf G s.counters j := mem_rowsOf.2 ⟨hk, hc, (hs.row_active hk).1 hkr⟩
  rw [hr, Finset.mem_singleton] at this
  exact hki this

/-! ### Row and column are removed -/

/-- The row and the slack variable are removed, before other variables are. -/
def slackGone (G : GeneralForm) (s : Index) (i j : ℕ) : Updates :=
  { s.updates with
    removedVariables :=
      s.updates.removedVariables ++ [(j, removedVariableSolution G s i j (coef G i j))]
    constraintsRemoved := s.updates.constraintsRemoved ++ [i] }

theorem slackGone_ordered (hG : G.Fresh) (hs : s.WF G) (hi : i < G.constraintTypes.length) :
    Ordered (slackGone G s i j).removedVariables := by
  refine hs.ordered.append_function (fun h => ?_) fun p hp h => ?_
  · exact (Finset.mem_erase.1 (solution_mentions hG hi h)).1 rfl
  · have hk := mem_varsOf.1 (Finset.mem_erase.1 (solution_mentions hG hi h)).2
    exact absurd ((hs.varsRemoved p.1 hk.1).1 (List.mem_map_of_mem hp)) hk.2.2

theorem slackGone_nodup (hs : s.WF G) (hj : j < G.vars.length) (h1 : s.counters.columns j = 1) :
    ((slackGone G s i j).removedVariables.map (·.1)).Nodup := by
  show (List.map _ (_ ++ _)).Nodup
  rw [List.map_append, List.nodup_append]
  refine ⟨hs.varsNodup, by simp, ?_⟩
  intro a ha b hb
  rw [List.map_singleton, List.mem_singleton] at hb
  subst hb
  rintro rfl
  have := (hs.varsRemoved _ hj).1 ha
  omega

/-- If the variable has no bounds, the row always holds with the recorded value. -/
theorem slackGone_refines (hG : G.Fresh) (hs : s.Fit G) (hj : j < G.vars.length)
    (h1 : s.counters.columns j = 1) (hr : rowsOf G s.counters j = {i}) (hcost : costOf G j = 0)
    (hl : s.updates.variableBound G j .lower = none) (hu : s.updates.variableBound G j .upper = none) :
    Refines G s.updates (slackGone G s i j) := by
  have him : i ∈ rowsOf G s.counters j := by rw [hr]; simp
  have hi := mem_rowsOf.1 him
  have hir : i ∉ s.updates.constraintsRemoved := (hs.row_active hi.1).2 hi.2.2
  refine refines_slack (i := i) (j := j) rfl (hs.mem_live.2 ⟨hj, by omega⟩) hcost
    (fun k hk hkr hki => slack_only hs.toWF hr hk hkr hki) (slackGone_ordered hG hs.toWF hi.1)
    (slackGone_nodup hs.toWF hj h1) (fun k hk hki => ?_) (fun _ _ _ => rfl) (fun _ _ _ => rfl)
    (fun _ _ _ => rfl) rfl hi.1 hir (fun x hx _ => ?_) (fun x _ _ h => ?_)
  · show k ∈ _ ++ _ ↔ _
    rw [List.mem_append, List.mem_singleton]
    exact ⟨fun h => h.resolve_right hki, Or.inl⟩
  · constructor
    · rw [solution_valueAt hG hs.toWF hi.1, ← value_slack hs.toWF (v := slackGone G s i j) rfl] at hx
      have : coef G i j * x j + (slackGone G s i j).value G i x = s.updates.rhs G i := by
        rw [hx, mul_div_cancel₀ _ hi.2.1]
        ring
      rw [this]
      cases ht : s.updates.constraintType G i with
      | equal => rfl
      | less => exact le_refl _
      | greater => exact le_refl _
      | range r =>
        have := hs.proper.ranges i hi.1 hir r ht
        exact ⟨by linarith, le_refl _⟩
    · intro d
      cases d
      · rw [hl]; trivial
      · rw [hu]; trivial
  · exact absurd (List.mem_append_right _ (List.mem_singleton.2 rfl)) h

/-- The state after row and column are removed. -/
def slackBothState (G : GeneralForm) (s : Index) (i j : ℕ) (solved : List (ℕ × ℚ)) : Index :=
  removeConstraint (removeVariable (emptyResult G s i (· ≠ j) ((activeRow G s.counters i).map (·.1))
    solved) j (removedVariableSolution G s i j (coef G i j))) i

/-- The other variables that are in no row any more. -/
def slackEmptied (G : GeneralForm) (s : Index) (i j : ℕ) : List ℕ :=
  ((activeRow G s.counters i).map (·.1)).filter fun k => k ≠ j ∧ s.counters.columns k = 1

theorem presolveSlack_both (hG : G.Consistent) (hs : s.Counts G) (hj : j < G.vars.length)
    (h1 : s.counters.columns j = 1) (hr : rowsOf G s.counters j = {i})
    (hcase : slackCase (s.updates.constraintType G i) (s.updates.variableBound G j .lower)
      (s.updates.variableBound G j .upper) (coef G i j) = none) :
    presolveSlack G s j = (do
      let solved ← emptyValues G s.updates (slackEmptied G s i j)
      pure (slackBothState G s i j solved)) := by
  obtain ⟨i', hr', hcol⟩ := slackRow hG hs hj h1
  have : i' = i := by
    rw [hr] at hr'
    exact (Finset.singleton_inj.1 hr').symm
  subst this
  have him : i' ∈ rowsOf G s.counters j := by rw [hr]; simp
  have hi := mem_rowsOf.1 him
  have ht := activeRow_tuples hG s.counters hi.1
  have hloop := emptyLoop (G := G) (· ≠ j) i' ((activeRow G s.counters i').map (·.1)) s ht.nodup (by
    rw [List.length_map, ht.length]
    exact le_of_eq (hs.rowCount i' hi.1 hi.2.2).symm) (by
    intro k hk
    rw [ht.mem_keys] at hk
    exact (mem_varsOf.1 hk).2.2)
  unfold presolveSlack
  simp only [hcol, List.head?_cons, unwrap, bind, Except.bind, hcase]
  simp only [bind, Except.bind] at hloop
  rw [hloop]
  unfold slackEmptied
  cases emptyValues G s.updates (((activeRow G s.counters i').map (·.1)).filter
    fun k => k ≠ j ∧ s.counters.columns k = 1) <;> rfl

theorem slackBothState_rowGone (hG : G.Consistent) (hs : s.Counts G)
    (hi : i < G.constraintTypes.length) (hi0 : s.counters.constraint i ≠ 0)
    (solved : List (ℕ × ℚ)) : RowGone G s (slackBothState G s i j solved) i := by
  have ht := activeRow_tuples hG s.counters hi
  refine ⟨?_, ?_, rfl, rfl, rfl, rfl, rfl, rfl, fun _ _ _ h => h, fun _ h => h, fun k hk => ?_, rfl⟩
  · show insertAt _ _ _ = _
    rw [List.length_map, ht.length, ← hs.rowCount i hi hi0, Nat.sub_self]
  · funext k
    show (if k ∈ _ then _ else _) = _
    simp only [ht.mem_keys]
  · replace hk : k ∈ (List.filter _ _).reverse ++ s.queues.slack := hk
    rw [List.mem_append, List.mem_reverse, List.mem_filter, ht.mem_keys] at hk
    rcases hk with ⟨h1, h2⟩ | hk
    · simp only [ne_eq, decide_eq_true_eq] at h2
      refine Or.inr ⟨(mem_varsOf.1 h1).1, ?_, h2.2.2⟩
      show (if k ∈ _ then _ else _) ≤ 1
      rw [if_pos (ht.mem_keys.2 h1), h2.2.1]
    · exact Or.inl hk

theorem slackBothState_wf (hG : G.Fresh) (hs : s.WF G) (hj : j < G.vars.length)
    (h1 : s.counters.columns j = 1) (hr : rowsOf G s.counters j = {i}) {solved : List (ℕ × ℚ)}
    (hsol : emptyValues G s.updates (slackEmptied G s i j) = .ok solved) :
    (slackBothState G s i j solved).WF G := by
  have him : i ∈ rowsOf G s.counters j := by rw [hr]; simp
  have hi := mem_rowsOf.1 him
  have ht := activeRow_tuples hG.toConsistent s.counters hi.1
  obtain ⟨hkeys, _⟩ := emptyValues_ok hsol
  have hjm : j ∈ varsOf G s.counters i := mem_varsOf.2 ⟨hj, hi.2.1, by omega⟩
  have hmemE : ∀ k, k ∈ slackEmptied G s i j ↔
      k ∈ varsOf G s.counters i ∧ k ≠ j ∧ s.counters.columns k = 1 := by
    intro k
    unfold slackEmptied
    rw [List.mem_filter, ht.mem_keys]
    simp
  have hmapkeys : (solved.map fun p => (p.1, RemovedVariable.solved p.2)).map (·.1) =
      slackEmptied G s i j := by
    rw [← hkeys, List.map_map]
    rfl
  refine (slackBothState_rowGone hG.toConsistent hs.toCounts hi.1 hi.2.2 solved).wf hs hG.toConsistent
    hi.1 hi.2.2
    (R := (solved.map fun p => (p.1, RemovedVariable.solved p.2)) ++
      [(j, removedVariableSolution G s i j (coef G i j))]) ?_ ?_ ?_ ?_ ?_
  · show (_ ++ _) ++ _ = _ ++ (_ ++ _)
    rw [List.append_assoc]
  · rw [List.map_append, hmapkeys, List.nodup_append]
    refine ⟨ht.nodup.filter _, by simp, ?_⟩
    intro a ha b hb
    rw [List.map_singleton, List.mem_singleton] at hb
    subst hb
    rintro rfl
    exact ((hmemE _).1 ha).2.1 rfl
  · intro k
    rw [List.map_append, hmapkeys, List.mem_append, hmemE, List.map_singleton, List.mem_singleton]
    constructor
    · rintro (h | rfl)
      · exact ⟨h.1, h.2.2⟩
      · exact ⟨hjm, h1⟩
    · rintro ⟨h2, h3⟩
      by_cases hk : k = j
      · exact Or.inr hk
      · exact Or.inl ⟨h2, hk, h3⟩
  · show Ordered ((_ ++ _) ++ _)
    refine (hs.ordered.append_solved solved).append_function (fun h => ?_) fun p hp h => ?_
    · exact (Finset.mem_erase.1 (solution_mentions hG hi.1 h)).1 rfl
    · rcases List.mem_append.1 hp with hp | hp
      · have hk := mem_varsOf.1 (Finset.mem_erase.1 (solution_mentions hG hi.1 h)).2
        exact absurd ((hs.varsRemoved p.1 hk.1).1 (List.mem_map_of_mem hp)) hk.2.2
      · obtain ⟨q, _, rfl⟩ := List.mem_map.1 hp
        exact ⟨q.2, rfl⟩
  · intro p hp k hk
    rcases List.mem_append.1 hp with hp | hp
    · obtain ⟨q, _, rfl⟩ := List.mem_map.1 hp
      exact hk.elim
    · rw [List.mem_singleton] at hp
      subst hp
      exact (mem_varsOf.1 (Finset.mem_erase.1 (solution_mentions hG hi.1 hk)).2).1

/-- Variables whose only row is removed. -/
theorem emptied_coef (hs : s.WF G) (hi : i < G.constraintTypes.length)
    (hi0 : s.counters.constraint i ≠ 0) {k : ℕ} (hk : k ∈ varsOf G s.counters i)
    (hk1 : s.counters.columns k = 1) : ∀ l < G.constraintTypes.length,
    l ∉ s.updates.constraintsRemoved ++ [i] → coef G l k = 0 := by
  intro l hl hlr
  by_contra hc
  rw [List.mem_append, List.mem_singleton, not_or] at hlr
  have hk' := mem_varsOf.1 hk
  have h2 : l ∈ rowsOf G s.counters k := mem_rowsOf.2 ⟨hl, hc, (hs.row_active hl).1 hlr.1⟩
  have h3 : i ∈ rowsOf G s.counters k := mem_rowsOf.2 ⟨hi, hk'.2.1, hi0⟩
  have := two_le_card h2 h3 hlr.2
  rw [← hs.colCount k hk'.1 hk'.2.2] at this
  omega

theorem presolveSlack_both_correct (hG : G.Fresh) (hs : s.Fit G) (hj : j < G.vars.length)
    (h1 : s.counters.columns j = 1) (hr : rowsOf G s.counters j = {i}) (hcost : costOf G j = 0)
    (hl : s.updates.variableBound G j .lower = none)
    (hu : s.updates.variableBound G j .upper = none) :
    Correct G s (fun _ => False) (presolveSlack G s j) := by
  have him : i ∈ rowsOf G s.counters j := by rw [hr]; simp
  have hi := mem_rowsOf.1 him
  have ht := activeRow_tuples hG.toConsistent s.counters hi.1
  have hcase : slackCase (s.updates.constraintType G i) (s.updates.variableBound G j .lower)
      (s.updates.variableBound G j .upper) (coef G i j) = none := by
    rw [hl, hu]
    unfold slackCase
    split <;> rfl
  rw [presolveSlack_both hG.toConsistent hs.toCounts hj h1 hr hcase]
  have hmemE : ∀ k, k ∈ slackEmptied G s i j ↔
      k ∈ varsOf G s.counters i ∧ k ≠ j ∧ s.counters.columns k = 1 := by
    intro k
    unfold slackEmptied
    rw [List.mem_filter, ht.mem_keys]
    simp
  have hlive : ∀ k ∈ slackEmptied G s i j, k ∈ (slackGone G s i j).live G := by
    intro k hk
    rw [hmemE] at hk
    have hk' := mem_varsOf.1 hk.1
    rw [Updates.live_cons (u := s.updates) (j := j)
      (r := removedVariableSolution G s i j (coef G i j)) rfl, Finset.mem_erase, hs.mem_live]
    exact ⟨hk.2.1, hk'.1, hk'.2.2⟩
  have hgone := slackGone_refines hG hs hj h1 hr hcost hl hu
  obtain ⟨hok, herr⟩ := emptyValues_refines (G := G) (u := slackGone G s i j)
    (E := slackEmptied G s i j) (slackGone_ordered hG hs.toWF hi.1) (slackGone_nodup hs.toWF hj h1)
    (ht.nodup.filter _) hlive
    (fun k hk => emptied_coef hs.toWF hi.1 hi.2.2 ((hmemE k).1 hk).1 ((hmemE k).1 hk).2.2)
    (fun k hk l hl r hr => hs.proper.bounds k
      (hs.mem_live.2 ⟨(mem_varsOf.1 ((hmemE k).1 hk).1).1, (mem_varsOf.1 ((hmemE k).1 hk).1).2.2⟩)
      l hl r hr)
  have hsame : emptyValues G (slackGone G s i j) (slackEmptied G s i j) =
      emptyValues G s.updates (slackEmptied G s i j) := rfl
  rw [hsame] at hok herr
  cases he : emptyValues G s.updates (slackEmptied G s i j) with
  | error e =>
    obtain ⟨rfl, hv⟩ := herr e he
    exact hgone.verdict hv
  | ok solved =>
    simp only [bind, Except.bind, pure, Except.pure]
    have hwf := slackBothState_wf hG hs.toWF hj h1 hr he
    have hrow := slackBothState_rowGone (j := j) hG.toConsistent hs.toCounts hi.1 hi.2.2 solved
    have hcols : ∀ k, (slackBothState G s i j solved).counters.columns k ≠ 0 →
        s.counters.columns k ≠ 0 := by
      intro k hk h0
      apply hk
      rw [hrow.columns]
      simp only [h0]
      split <;> rfl
    refine ⟨⟨hwf, proper_of hs.proper (fun k hk => ?_) (fun l hl hlr => ⟨?_, rfl⟩)
      fun _ _ _ => rfl, fun k hk hk0 => hs.fixed k hk (hcols k hk0)⟩, ?_⟩
    · rw [hwf.mem_live] at hk
      exact hs.mem_live.2 ⟨hk.1, hcols k hk.2⟩
    · exact fun h => hlr (List.mem_append_left _ h)
    · refine (hgone.trans (hok solved he)).trans (refines_perm
        (L := (slackBothState G s i j solved).updates.removedVariables) rfl ?_)
      show List.Perm ((_ ++ _) ++ _) ((_ ++ _) ++ _)
      rw [List.append_assoc, List.append_assoc]
      exact (List.perm_append_comm).append_left _

/-! ### Only the column is removed -/

theorem activityQueueIfNeeded_spec (s : Index) (i : ℕ) (d : BoundDirection) (missing : Bool)
    (h : missing = true → s.counters.activity i d ≠ 0) :
    ∃ q, activityQueueIfNeeded s i d missing = .ok
        { s with
          counters := { s.counters with activity := (insertAt2 s.counters.activity i d
            (s.counters.activity i d - if missing = true then 1 else 0)) }
          queues := { s.queues with activity := q } } ∧
      ∀ p ∈ q, p ∈ s.queues.activity ∨ p = (i, d) ∧ s.counters.activity i d -
        (if missing = true then 1 else 0) ≤ 1 := by
  unfold activityQueueIfNeeded
  cases missing with
  | false =>
    refine ⟨s.queues.activity, ?_, fun p hp => Or.inl hp⟩
    have : insertAt2 s.counters.activity i d (s.counters.activity i d) = s.counters.activity := by
      funext a b
      unfold insertAt2
      split
      · rename_i h
        rw [h.1, h.2]
      · rfl
    simp [this, pure, Except.pure]
  | true =>
    have h0 := h rfl
    simp only [if_true, decrement, h0, if_false, bind, Except.bind]
    by_cases h1 : s.counters.activity i d - 1 ≤ 1
    · refine ⟨pushFifo s.queues.activity (i, d), ?_, fun p hp => ?_⟩
      · simp [h1, pure, Except.pure]
      · rcases mem_pushFifo.1 hp with hp | hp
        · exact Or.inl hp
        · exact Or.inr ⟨hp, h1⟩
    · exact ⟨s.queues.activity, by simp [h1, pure, Except.pure], fun p hp => Or.inl hp⟩

/-- What is recorded of the variable if only its column is removed. -/
def slackRemoved (G : GeneralForm) (s : Index) (i j : ℕ) (bound : ℚ) : RemovedVariable :=
  match s.updates.constraintType G i with
  | .equal => removedVariableSolution G s i j (coef G i j)
  | .range _ => removedVariableSolution G s i j (coef G i j)
  | _ => .solved bound

/-- The problem after only the column is removed. -/
def slackColumn (G : GeneralForm) (s : Index) (i j : ℕ) (newType : ConstraintType) (bound : ℚ) :
    Updates :=
  { s.updates with
    removedVariables := s.updates.removedVariables ++ [(j, slackRemoved G s i j bound)]
    b := insertAt s.updates.b i (some (s.updates.rhs G i + -coef G i j * bound))
    constraints := insertAt s.updates.constraints i (some newType) }

theorem slackColumn_rhs (newType : ConstraintType) (bound : ℚ) :
    (slackColumn G s i j newType bound).rhs G i = s.updates.rhs G i - coef G i j * bound := by
  unfold slackColumn Updates.rhs
  simp only [insertAt_same, Option.getD_some]
  ring

theorem slackColumn_type (newType : ConstraintType) (bound : ℚ) :
    (slackColumn G s i j newType bound).constraintType G i = newType := by
  unfold slackColumn Updates.constraintType
  simp only [insertAt_same, Option.getD_some]

theorem slackColumn_rhs_ne (newType : ConstraintType) (bound : ℚ) {k : ℕ} (hk : k ≠ i) :
    (slackColumn G s i j newType bound).rhs G k = s.updates.rhs G k := by
  unfold slackColumn Updates.rhs
  simp only [insertAt_ne _ _ hk]

theorem slackColumn_type_ne (newType : ConstraintType) (bound : ℚ) {k : ℕ} (hk : k ≠ i) :
    (slackColumn G s i j newType bound).constraintType G k = s.updates.constraintType G k := by
  unfold slackColumn Updates.constraintType
  simp only [insertAt_ne _ _ hk]

theorem slackRemoved_mentions (hG : G.Fresh) (hi : i < G.constraintTypes.length) {bound : ℚ} {k : ℕ}
    (h : (slackRemoved G s i j bound).Mentions k) : k ∈ (varsOf G s.counters i).erase j := by
  unfold slackRemoved at h
  split at h
  · exact solution_mentions hG hi h
  · exact solution_mentions hG hi h
  · exact h.elim

theorem card_erase_missing (s : Index) (i j : ℕ) (d : BoundDirection)
    (hj : j ∈ varsOf G s.counters i) :
    #((missing G s i d).erase j) = #(missing G s i d) -
      if (s.updates.variableBound G j (d.times (coef G i j))).isNone = true then 1 else 0 := by
  by_cases h : s.updates.variableBound G j (d.times (coef G i j)) = none
  · have hm : j ∈ missing G s i d := Finset.mem_filter.2 ⟨hj, h⟩
    rw [Finset.card_erase_of_mem hm, h]
    rfl
  · have hm : j ∉ missing G s i d := fun h' => h (Finset.mem_filter.1 h').2
    rw [Finset.erase_eq_of_notMem hm, if_neg, Nat.sub_zero]
    simpa using h

theorem presolveSlack_column (hG : G.Consistent) (hs : s.Counts G) (hj : j < G.vars.length)
    (h1 : s.counters.columns j = 1) (hr : rowsOf G s.counters j = {i})
    (h2 : 2 ≤ s.counters.constraint i) {newType : ConstraintType} {bound : ℚ}
    (hcase : slackCase (s.updates.constraintType G i) (s.updates.variableBound G j .lower)
      (s.updates.variableBound G j .upper) (coef G i j) = some (newType, bound)) :
    ∃ t, presolveSlack G s j = .ok t ∧ ColumnGone G s t j ∧
      t.updates = slackColumn G s i j newType bound := by
  obtain ⟨i', hr', hcol⟩ := slackRow hG hs hj h1
  have : i' = i := by
    rw [hr] at hr'
    exact (Finset.singleton_inj.1 hr').symm
  subst this
  have him : i' ∈ rowsOf G s.counters j := by rw [hr]; simp
  have hi := mem_rowsOf.1 him
  have hjm : j ∈ varsOf G s.counters i' := mem_varsOf.2 ⟨hj, hi.2.1, by omega⟩
  have hpos : ∀ d, (s.updates.variableBound G j (d.times (coef G i' j))).isNone = true →
      s.counters.activity i' d ≠ 0 := by
    intro d hd
    rw [hs.activity i' hi.1 hi.2.2 d]
    exact Finset.card_ne_zero_of_mem (Finset.mem_filter.2 ⟨hjm, Option.isNone_iff_eq_none.1 hd⟩)
  let s₁ : Index :=
    { s with
      counters := { s.counters with columns := insertAt s.counters.columns j 0 }
      updates := { s.updates with removedVariables :=
        s.updates.removedVariables ++ [(j, slackRemoved G s i' j bound)] } }
  obtain ⟨q₁, hq₁, hm₁⟩ := activityQueueIfNeeded_spec s₁ i' .lower
    (s.updates.variableBound G j (BoundDirection.lower.times (coef G i' j))).isNone (hpos .lower)
  let s₂ : Index :=
    { s₁ with
      counters := { s₁.counters with activity := (insertAt2 s₁.counters.activity i' .lower
        (s₁.counters.activity i' .lower - if (s.updates.variableBound G j
          (BoundDirection.lower.times (coef G i' j))).isNone = true then 1 else 0)) }
      queues := { s₁.queues with activity := q₁ } }
  have hu : s₂.counters.activity i' .upper = s.counters.activity i' .upper := by
    show insertAt2 _ _ _ _ _ _ = _
    unfold insertAt2
    rw [if_neg (by simp)]
  obtain ⟨q₂, hq₂, hm₂⟩ := activityQueueIfNeeded_spec s₂ i' .upper
    (s.updates.variableBound G j (BoundDirection.upper.times (coef G i' j))).isNone (by
      rw [hu]
      exact hpos .upper)
  let s₃ : Index :=
    { s₂ with
      counters := { s₂.counters with
        activity := (insertAt2 s₂.counters.activity i' .upper
          (s₂.counters.activity i' .upper - if (s.updates.variableBound G j
            (BoundDirection.upper.times (coef G i' j))).isNone = true then 1 else 0))
        constraint := insertAt s.counters.constraint i' (s.counters.constraint i' - 1) }
      queues := { s₂.queues with
        activity := q₂
        bound := if s.counters.constraint i' = 2 then i' :: s.queues.bound else s.queues.bound }
      updates := slackColumn G s i' j newType bound }
  have hact : ∀ d, s₃.counters.activity i' d = #((missing G s i' d).erase j) := by
    intro d
    rw [card_erase_missing s i' j d hjm, ← hs.activity i' hi.1 hi.2.2 d]
    cases d with
    | lower =>
      show insertAt2 (insertAt2 _ _ _ _) _ _ _ _ _ = _
      unfold insertAt2
      rw [if_neg (by simp), if_pos ⟨rfl, rfl⟩]
    | upper =>
      show insertAt2 _ _ _ _ _ _ = _
      rw [hu]
      unfold insertAt2
      rw [if_pos ⟨rfl, rfl⟩]
  refine ⟨s₃, ?_, ⟨rfl, ?_, ?_, rfl, rfl, rfl, rfl, ?_, rfl, ?_⟩, rfl⟩
  · unfold presolveSlack
    simp only [hcol, List.head?_cons, unwrap, bind, Except.bind, hcase]
    have hcolumn : decrementColumn s j =
        .ok { s with counters := { s.counters with columns := insertAt s.counters.columns j 0 } } := by
      unfold decrementColumn
      simp [decrement, h1, bind, Except.bind, pure, Except.pure]
    simp only [hcolumn]
    have hfirst : activityQueueIfNeeded s₁ i' .lower (s₁.updates.variableBound G j
        (BoundDirection.lower.times (coef G i' j))).isNone = .ok s₂ := hq₁
    have hsecond : activityQueueIfNeeded s₂ i' .upper
        (s₂.updates.variableBound G j (BoundDirection.upper.times (coef G i' j))).isNone = _ := hq₂
    show Except.bind (activityQueueIfNeeded s₁ i' .lower (s₁.updates.variableBound G j
        (BoundDirection.lower.times (coef G i' j))).isNone) _ = _
    rw [hfirst]
    simp only [Except.bind]
    rw [hsecond]
    simp only []
    have h0 : s.counters.constraint i' ≠ 0 := by omega
    simp only [decrementConstraint, decrement, s₂, s₁, h0, if_false, bind, Except.bind, pure,
      Except.pure]
    simp only [queueConstraintByCounter, insertAt_same]
    obtain ⟨n, hn⟩ : ∃ n, s.counters.constraint i' - 1 = n + 1 := ⟨s.counters.constraint i' - 2, by omega⟩
    cases n with
    | zero =>
      have : s.counters.constraint i' = 2 := by omega
      simp only [hn, s₃, this, if_true, pure, Except.pure]
      rfl
    | succ n =>
      have : s.counters.constraint i' ≠ 2 := by omega
      simp only [hn, s₃, this, if_false, pure, Except.pure]
      rfl
  · funext k
    show insertAt _ _ _ _ = _
    rw [hr]
    unfold insertAt
    simp only [Finset.mem_singleton]
    by_cases hk : k = i'
    · subst hk; simp
    · simp [hk]
  · intro k hk hk0 d
    by_cases hki : k = i'
    · subst hki
      exact hact d
    · have hk0' : s.counters.constraint k ≠ 0 := by
        intro h'
        apply hk0
        show insertAt _ _ _ _ = _
        rw [insertAt_ne _ _ hki, h']
      have hjk : j ∉ missing G s k d := by
        intro h'
        have h3 := mem_varsOf.1 (Finset.mem_filter.1 h').1
        have : k ∈ rowsOf G s.counters j := mem_rowsOf.2 ⟨hk, h3.2.1, hk0'⟩
        rw [hr, Finset.mem_singleton] at this
        exact hki this
      rw [Finset.erase_eq_of_notMem hjk, ← hs.activity k hk hk0' d]
      show insertAt2 (insertAt2 _ _ _ _) _ _ _ _ _ = _
      unfold insertAt2
      rw [if_neg (by simp [hki]), if_neg (by simp [hki])]
  · intro k
    show k ∈ (if _ then _ else _) ↔ _
    rw [hr, Finset.mem_singleton]
    by_cases hk : s.counters.constraint i' = 2
    · rw [if_pos hk, List.mem_cons]
      constructor
      · rintro (rfl | h)
        · exact Or.inr ⟨rfl, hk⟩
        · exact Or.inl h
      · rintro (h | ⟨rfl, _⟩)
        · exact Or.inr h
        · exact Or.inl rfl
    · rw [if_neg hk]
      constructor
      · exact Or.inl
      · rintro (h | ⟨rfl, h⟩)
        · exact h
        · exact absurd h hk
  · intro p hp
    rcases hm₂ p hp with h' | ⟨rfl, h⟩
    · rcases hm₁ p h' with h | ⟨rfl, h⟩
      · exact Or.inl h
      · refine Or.inr ⟨hi.1, fun _ => ?_⟩
        show s₃.counters.activity i' .lower ≤ 1
        rw [hact, card_erase_missing s i' j _ hjm, ← hs.activity i' hi.1 hi.2.2]
        exact h
    · refine Or.inr ⟨hi.1, fun _ => ?_⟩
      show s₃.counters.activity i' .upper ≤ 1
      rw [hact, card_erase_missing s i' j _ hjm, ← hs.activity i' hi.1 hi.2.2, ← hu]
      exact h

/-! ### Arithmetic of the cases -/

section Arithmetic

variable {t newType : ConstraintType} {lower upper : Option ℚ} {c bound rhs W y : ℚ}

theorem slackCase_complete (hc : c ≠ 0) (hcase : slackCase t lower upper c = some (newType, bound))
    (hgood : SlackGood t lower upper c)
    (hl : BoundDirection.lower.Respects lower y) (hu : BoundDirection.upper.Respects upper y)
    (h : t.Holds rhs (c * y + W)) : newType.Holds (rhs - c * bound) W := by
  rcases lt_or_gt_of_ne hc with hc' | hc'
  · have hn : ¬0 < c := not_lt.2 hc'.le
    have hl' : ∀ l, lower = some l → c * y ≤ c * l := by
      rintro l rfl
      exact mul_le_mul_of_nonpos_left hl hc'.le
    have hu' : ∀ u, upper = some u → c * u ≤ c * y := by
      rintro u rfl
      exact mul_le_mul_of_nonpos_left hu hc'.le
    simp only [slackCase, SlackGood, if_neg hn] at hcase hgood
    clear hl hu
    cases t <;> cases lower <;> cases upper <;> simp at hcase hgood <;>
      obtain ⟨rfl, rfl⟩ := hcase <;> (try have hl' := hl' _ rfl) <;> (try have hu' := hu' _ rfl) <;>
      simp only [ConstraintType.Holds] at h ⊢ <;> first | linarith | (constructor <;> linarith)
  · have hl' : ∀ l, lower = some l → c * l ≤ c * y := by
      rintro l rfl
      exact mul_le_mul_of_nonneg_left hl hc'.le
    have hu' : ∀ u, upper = some u → c * y ≤ c * u := by
      rintro u rfl
      exact mul_le_mul_of_nonneg_left hu hc'.le
    simp only [slackCase, SlackGood, if_pos hc'] at hcase hgood
    clear hl hu
    cases t <;> cases lower <;> cases upper <;> simp at hcase hgood <;>
      obtain ⟨rfl, rfl⟩ := hcase <;> (try have hl' := hl' _ rfl) <;> (try have hu' := hu' _ rfl) <;>
      simp only [ConstraintType.Holds] at h ⊢ <;> first | linarith | (constructor <;> linarith)

theorem slackCase_sound (hc : c ≠ 0) (hcase : slackCase t lower upper c = some (newType, bound))
    (hgood : SlackGood t lower upper c) (hlu : ∀ l ∈ lower, ∀ u ∈ upper, l ≤ u)
    (hr : ∀ r, t = .range r → 0 ≤ r) (h : newType.Holds (rhs - c * bound) W)
    (hy : y = match (generalizing := false) t with
      | .equal => (rhs - W) / c
      | .range _ => (rhs - W) / c
      | _ => bound) :
    t.Holds rhs (c * y + W) ∧ BoundDirection.lower.Respects lower y ∧
      BoundDirection.upper.Respects upper y := by
  have hy' : c * y = match (generalizing := false) t with
      | .equal => rhs - W
      | .range _ => rhs - W
      | _ => c * bound := by
    rw [hy]
    cases t
    · exact mul_div_cancel₀ _ hc
    · exact mul_div_cancel₀ _ hc
    · rfl
    · rfl
  rcases lt_or_gt_of_ne hc with hc' | hc'
  · have hn : ¬0 < c := not_lt.2 hc'.le
    have hl' : ∀ l, c * y ≤ c * l → l ≤ y := fun l h => (mul_le_mul_left_of_neg hc').1 h
    have hu' : ∀ u, c * u ≤ c * y → y ≤ u := fun l h => (mul_le_mul_left_of_neg hc').1 h
    simp only [slackCase, SlackGood, if_neg hn] at hcase hgood
    cases t <;> cases lower <;> cases upper <;> simp at hcase hgood <;>
      obtain ⟨rfl, rfl⟩ := hcase <;>
      simp only [ConstraintType.Holds, BoundDirection.Respects] at h hy hy' ⊢ <;>
      refine ⟨?_, ?_, ?_⟩ <;> first
        | trivial
        | linarith
        | (apply hl'; linarith)
        | (apply hu'; linarith)
        | (constructor <;> have := hr _ rfl <;> linarith)
        | (rw [hy]; exact hlu _ rfl _ rfl)
  · have hl' : ∀ l, c * l ≤ c * y → l ≤ y := fun l h => le_of_mul_le_mul_left h hc'
    have hu' : ∀ u, c * y ≤ c * u → y ≤ u := fun l h => le_of_mul_le_mul_left h hc'
    simp only [slackCase, SlackGood, if_pos hc'] at hcase hgood
    cases t <;> cases lower <;> cases upper <;> simp at hcase hgood <;>
      obtain ⟨rfl, rfl⟩ := hcase <;>
      simp only [ConstraintType.Holds, BoundDirection.Respects] at h hy hy' ⊢ <;>
      refine ⟨?_, ?_, ?_⟩ <;> first
        | trivial
        | linarith
        | (apply hl'; linarith)
        | (apply hu'; linarith)
        | (constructor <;> have := hr _ rfl <;> linarith)
        | (rw [hy]; exact hlu _ rfl _ rfl)

theorem slackCase_range (hcase : slackCase t lower upper c = some (newType, bound))
    (hlu : ∀ l ∈ lower, ∀ u ∈ upper, l ≤ u) (hr : ∀ r, t = .range r → 0 ≤ r) :
    ∀ r, newType = .range r → 0 ≤ r := by
  intro r hnew
  subst hnew
  by_cases hc : 0 < c
  · simp only [slackCase, if_pos hc] at hcase
    cases t <;> cases lower <;> cases upper <;> simp at hcase
    · rw [← hcase.1]
      exact mul_nonneg hc.le (sub_nonneg.2 (hlu _ rfl _ rfl))
    · rw [← hcase.1]
      exact add_nonneg (hr _ rfl) (mul_nonneg hc.le (sub_nonneg.2 (hlu _ rfl _ rfl)))
  · simp only [slackCase, if_neg hc] at hcase
    cases t <;> cases lower <;> cases upper <;> simp at hcase
    · rw [← hcase.1]
      exact mul_nonneg_of_nonpos_of_nonpos (not_lt.1 hc) (sub_nonpos.2 (hlu _ rfl _ rfl))
    · rw [← hcase.1]
      exact add_nonneg (hr _ rfl)
        (mul_nonneg_of_nonpos_of_nonpos (not_lt.1 hc) (sub_nonpos.2 (hlu _ rfl _ rfl)))

end Arithmetic

/-! ### The rule -/

theorem slackRemoved_valueAt (hG : G.Fresh) (hs : s.WF G) (hi : i < G.constraintTypes.length)
    (bound : ℚ) (x : ℕ → ℚ) :
    (slackRemoved G s i j bound).valueAt x = match s.updates.constraintType G i with
      | .equal => (s.updates.rhs G i -
          ∑ k ∈ (varsOf G s.counters i).erase j, coef G i k * x k) / coef G i j
      | .range _ => (s.updates.rhs G i -
          ∑ k ∈ (varsOf G s.counters i).erase j, coef G i k * x k) / coef G i j
      | _ => bound := by
  unfold slackRemoved
  cases s.updates.constraintType G i
  · exact solution_valueAt hG hs hi x
  · exact solution_valueAt hG hs hi x
  · rfl
  · rfl

theorem presolveSlack_column_correct (hG : G.Fresh) (hs : s.Fit G) (hj : j < G.vars.length)
    (h1 : s.counters.columns j = 1) (hr : rowsOf G s.counters j = {i}) (hcost : costOf G j = 0)
    (h2 : 2 ≤ s.counters.constraint i) {newType : ConstraintType} {bound : ℚ}
    (hcase : slackCase (s.updates.constraintType G i) (s.updates.variableBound G j .lower)
      (s.updates.variableBound G j .upper) (coef G i j) = some (newType, bound))
    (hgood : SlackGood (s.updates.constraintType G i) (s.updates.variableBound G j .lower)
      (s.updates.variableBound G j .upper) (coef G i j)) :
    Correct G s (fun _ => False) (presolveSlack G s j) := by
  obtain ⟨t, ht, hgone, hu⟩ := presolveSlack_column hG.toConsistent hs.toCounts hj h1 hr h2 hcase
  rw [ht]
  have him : i ∈ rowsOf G s.counters j := by rw [hr]; simp
  have hi := mem_rowsOf.1 him
  have hir : i ∉ s.updates.constraintsRemoved := (hs.row_active hi.1).2 hi.2.2
  have hj0 : s.counters.columns j ≠ 0 := by omega
  have hjl : j ∈ s.updates.live G := hs.mem_live.2 ⟨hj, hj0⟩
  have hremoved : t.updates.removedVariables =
      s.updates.removedVariables ++ [(j, slackRemoved G s i j bound)] := by rw [hu]; rfl
  have hordered : Ordered t.updates.removedVariables := by
    rw [hremoved]
    refine hs.ordered.append_function (fun h => ?_) fun p hp h => ?_
    · exact (Finset.mem_erase.1 (slackRemoved_mentions hG hi.1 h)).1 rfl
    · have hk := mem_varsOf.1 (Finset.mem_erase.1 (slackRemoved_mentions hG hi.1 h)).2
      exact absurd ((hs.varsRemoved p.1 hk.1).1 (List.mem_map_of_mem hp)) hk.2.2
  have hwf : t.WF G := by
    refine hgone.wf hs.toWF hG.toConsistent hj hj0 hremoved (R := []) (by rw [hu]; simp [slackColumn])
      List.nodup_nil (fun k => ?_) hordered fun k hk => ?_
    · rw [hr, Finset.mem_singleton]
      constructor
      · intro h; cases h
      · rintro ⟨rfl, h⟩; omega
    · exact (mem_varsOf.1 (Finset.mem_erase.1 (slackRemoved_mentions hG hi.1 hk)).2).1
  have hbounds := hs.proper.bounds j hjl
  have hranges := hs.proper.ranges i hi.1 hir
  have hvb : ∀ k d, t.updates.variableBound G k d = s.updates.variableBound G k d :=
    fun k d => hgone.variableBound k d
  refine ⟨⟨hwf, ⟨fun k hk l hl r hr' => ?_, fun k hk hkr r hr' => ?_⟩, fun k hk hk0 => ?_⟩, ?_⟩
  · rw [hvb] at hl hr'
    rw [Updates.live_cons hremoved, Finset.mem_erase] at hk
    exact hs.proper.bounds k hk.2 l hl r hr'
  · have hkr' : k ∉ s.updates.constraintsRemoved := by rw [hu] at hkr; exact hkr
    rw [hu] at hr'
    by_cases hki : k = i
    · subst hki
      rw [slackColumn_type] at hr'
      exact slackCase_range hcase hbounds hranges r hr'
    · rw [slackColumn_type_ne _ _ hki] at hr'
      exact hs.proper.ranges k hk hkr' r hr'
  · have := hs.fixed k (by rw [hgone.substitution] at hk; exact hk) (hgone.columns_ne.1 hk0).2
    unfold Updates.isVariableFixed at this ⊢
    rw [hvb, hvb]
    exact this
  · refine refines_slack (i := i) hremoved hjl hcost
      (fun k hk hkr hki => slack_only hs.toWF hr hk hkr hki) hordered hwf.varsNodup
      (fun k hk hki => by rw [hu]; rfl) (fun k hk hki => by rw [hu]; exact slackColumn_type_ne _ _ hki)
      (fun k hk hki => by rw [hu]; exact slackColumn_rhs_ne _ _ hki) (fun k _ d => hvb k d)
      (by rw [hu]; rfl) hi.1 hir (fun x hx hrow => ?_) (fun x hx hrow hir' => ?_)
    · have hir' : i ∉ t.updates.constraintsRemoved := by rw [hu]; exact hir
      have hrow := hrow hir'
      rw [value_slack hs.toWF hremoved] at hrow ⊢
      rw [slackRemoved_valueAt hG hs.toWF hi.1] at hx
      rw [hu, slackColumn_rhs, slackColumn_type] at hrow
      obtain ⟨h3, h4, h5⟩ := slackCase_sound hi.2.1 hcase hgood hbounds hranges hrow hx
      refine ⟨h3, fun d => ?_⟩
      cases d
      · exact h4
      · exact h5
    · rw [hu, slackColumn_rhs, slackColumn_type, ← hu]
      exact slackCase_complete hi.2.1 hcase hgood (hx .lower) (hx .upper) hrow

/-- The rule for slack variables. -/
theorem presolveSlack_correct (hG : G.Fresh) (hs : s.Fit G) (hb : s.queues.bound = [])
    (hj : j < G.vars.length) (h1 : s.counters.columns j = 1) (hcost : costOf G j = 0)
    (hgood : ∀ i ∈ rowsOf G s.counters j, SlackGood (s.updates.constraintType G i)
      (s.updates.variableBound G j .lower) (s.updates.variableBound G j .upper) (coef G i j)) :
    Correct G s (fun _ => False) (presolveSlack G s j) := by
  obtain ⟨i, hr, _⟩ := slackRow hG.toConsistent hs.toCounts hj h1
  have him : i ∈ rowsOf G s.counters j := by rw [hr]; simp
  have hi := mem_rowsOf.1 him
  have hgood := hgood i him
  have h2 : 2 ≤ s.counters.constraint i := by
    have h3 := hi.2.2
    have h4 : s.counters.constraint i ≠ 1 := by
      intro h
      have := hs.allBounds i hi.1 h
      rw [hb] at this
      cases this
    omega
  cases hcase : slackCase (s.updates.constraintType G i) (s.updates.variableBound G j .lower)
      (s.updates.variableBound G j .upper) (coef G i j) with
  | some p =>
    exact presolveSlack_column_correct hG hs hj h1 hr hcost h2 (newType := p.1) (bound := p.2)
      hcase hgood
  | none =>
    have : s.updates.variableBound G j .lower = none ∧ s.updates.variableBound G j .upper = none := by
      revert hcase hgood
      generalize s.updates.constraintType G i = t
      generalize s.updates.variableBound G j .lower = l
      generalize s.updates.variableBound G j .upper = u
      unfold slackCase SlackGood
      intro h1 h2
      split at h2 <;> rename_i hc <;> simp only [hc, if_true, if_false] at h1 <;>
        cases t <;> cases l <;> cases u <;> simp at h1 h2 ⊢
    exact presolveSlack_both_correct hG hs hj h1 hr hcost this.1 this.2

end

end Presolve

end Relp
