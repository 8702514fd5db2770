import Verif.Proof.PresolveWhole
import Verif.Proof.PresolveDecide
import Verif.Spec.Roomy
import Verif.Spec.PresolveDebug

/-!
# Presolving of roomy problems

Only fixed variables are substituted and constraints with one variable are used as bounds.
-/

open Finset

namespace Relp

namespace Presolve

variable {G : GeneralForm}

/-- A check by evaluation. -/
def roomy (G : GeneralForm) : Bool :=
  ((List.range G.constraintTypes.length).all fun i => !decide (Several G i) ||
    decide (Free G i .lower) && decide (Free G i .upper)) &&
  (List.range G.vars.length).all fun j => decide (costOf G j ≠ 0) ||
    ((List.range G.constraintTypes.length).all fun i => decide (coef G i j = 0)) ||
    (List.range G.constraintTypes.length).any fun i => (List.range G.constraintTypes.length).any fun k =>
      decide (i ≠ k) && decide (coef G i j ≠ 0) && decide (Several G i) && decide (coef G k j ≠ 0) &&
        decide (Several G k)

theorem roomy_spec (h : roomy G = true) : Roomy G := by
  unfold roomy at h
  simp only [Bool.and_eq_true, List.all_eq_true, List.mem_range, Bool.or_eq_true, Bool.not_eq_true',
    decide_eq_false_iff_not, List.any_eq_true, decide_eq_true_eq] at h
  refine ⟨fun i hi hm => ?_, fun j hj hc => ?_⟩
  · exact (h.1 i hi).resolve_left fun h => h hm
  · rcases h.2 j hj with (h | h) | ⟨i, hi, k, hk, ⟨⟨⟨h1, h2⟩, h3⟩, h4⟩, h5⟩
    · exact absurd hc h
    · exact Or.inl h
    · exact Or.inr ⟨i, hi, k, hk, h1, ⟨h2, h3⟩, h4, h5⟩

/-- What does not change while presolving a roomy problem. -/
structure Calm (G : GeneralForm) (s : Index) : Prop where
  rows : ∀ i < G.constraintTypes.length, Several G i → s.counters.constraint i ≠ 0
  vars : ∀ i < G.constraintTypes.length, ∀ j < G.vars.length, ∀ d, coef G i j ≠ 0 →
    Loose G j d → s.counters.columns j ≠ 0
  bounds : ∀ j d, Loose G j d → s.updates.bounds j d = none
  derived : ∀ j d, s.updates.activityBounds j d = none
  slack : s.queues.slack = []

theorem Calm.variableBound {s : Index} (hc : Calm G s) {j : ℕ} {d : BoundDirection}
    (hj : Loose G j d) : s.updates.variableBound G j d = none := by
  unfold Updates.variableBound
  rw [hc.derived, hc.bounds j d hj]
  exact hj.1

/-- A constraint with several variables keeps two that nothing limits. -/
theorem Calm.two {s : Index} (hr : Roomy G) (hs : s.Counts G) (hc : Calm G s) {i : ℕ}
    (hi : i < G.constraintTypes.length) (hm : Several G i) :
    2 ≤ s.counters.constraint i ∧ ∀ d, 2 ≤ s.counters.activity i d := by
  have h0 := hc.rows i hi hm
  have key : ∀ d, Free G i d := fun d => by
    cases d
    · exact (hr.rows i hi hm).1
    · exact (hr.rows i hi hm).2
  have hmem : ∀ d : BoundDirection, ∃ j k, j ≠ k ∧ (j ∈ varsOf G s.counters i ∧ Loose G j (d.times (coef G i j))) ∧
      k ∈ varsOf G s.counters i ∧ Loose G k (d.times (coef G i k)) := by
    intro d
    obtain ⟨j, hj, k, hk, hjk, ⟨j1, j2⟩, k1, k2⟩ := key d
    exact ⟨j, k, hjk, ⟨mem_varsOf.2 ⟨hj, j1, hc.vars i hi j hj _ j1 j2⟩, j2⟩,
      mem_varsOf.2 ⟨hk, k1, hc.vars i hi k hk _ k1 k2⟩, k2⟩
  refine ⟨?_, fun d => ?_⟩
  · obtain ⟨j, k, hjk, ⟨mj, -⟩, mk, -⟩ := hmem .lower
    rw [hs.rowCount i hi h0]
    exact two_le_card mj mk hjk
  · obtain ⟨j, k, hjk, ⟨mj, j2⟩, mk, k2⟩ := hmem d
    rw [hs.activity i hi h0 d]
    exact two_le_card (Finset.mem_filter.2 ⟨mj, hc.variableBound j2⟩)
      (Finset.mem_filter.2 ⟨mk, hc.variableBound k2⟩) hjk

/-- Variables without cost are in several constraints. -/
theorem Calm.columns {s : Index} (hr : Roomy G) (hs : s.Counts G) (hc : Calm G s) {i j : ℕ}
    (hi : i < G.constraintTypes.length) (hj : j < G.vars.length) (hij : coef G i j ≠ 0)
    (h0 : costOf G j = 0) : s.counters.columns j ≠ 1 := by
  intro h1
  rcases hr.costs j hj h0 with h | ⟨i, hi, k, hk, hik, ⟨i1, i2⟩, k1, k2⟩
  · exact hij (h i hi)
  · have := two_le_card (mem_rowsOf.2 ⟨hi, i1, hc.rows i hi i2⟩)
      (mem_rowsOf.2 ⟨hk, k1, hc.rows k hk k2⟩) hik
    rw [← hs.colCount j hj (by omega)] at this
    omega

theorem new_calm (hG : G.Consistent) (hr : Roomy G) {s : Index} (h : Index.new G = .ok s) : Calm G s := by
  unfold Index.new Updates.new at h
  simp only [bind, Except.bind, pure, Except.pure] at h
  split at h
  · cases h
  rename_i u hu
  split at hu
  · cases hu
  split at hu
  · cases hu
  cases hu
  cases h
  refine ⟨fun i hi hm => ?_, fun i _ j _ _ hij _ => start_columns_ne hG hij, fun _ _ _ => rfl, fun _ _ => rfl,
    ?_⟩
  · obtain ⟨j, -, -, -, -, hij, -⟩ := hm
    exact start_rows_ne hG hij
  · show (List.filter _ _).reverse = []
    rw [List.reverse_eq_nil_iff, List.filter_eq_nil_iff]
    intro j hj
    rw [List.mem_range] at hj
    simp only [decide_eq_true_eq, not_and]
    intro h1 h0
    rw [start_columns hG] at h1
    rcases hr.costs j hj h0 with h | ⟨i, hi, k, hk, hik, ⟨i1, i2⟩, k1, k2⟩
    · rw [Finset.filter_eq_empty_iff.2 (by intro i hi; simp [h i (Finset.mem_range.1 hi)])] at h1
      simp at h1
    · have := two_le_card (S := (range G.constraintTypes.length).filter fun i => coef G i j ≠ 0)
        (by simp [hi, i1]) (by simp [hk, k1]) hik
      omega

/-! ### The two rules -/

theorem fixed_calm (hG : G.Consistent) (hr : Roomy G) {s t : Index} (hs : s.Fit G) (hc : Calm G s) {j : ℕ}
    (hf : (s.updates.isVariableFixed G j).isSome) (hj : j < G.vars.length)
    (hj0 : s.counters.columns j ≠ 0) (h : presolveFixedVariable G s j = .ok t) : Calm G t := by
  obtain ⟨value, hf⟩ := Option.isSome_iff_exists.1 hf
  have hl : ∀ d, ¬Loose G j d := by
    intro d hl
    have := isVariableFixed_iff.1 hf
    cases d
    · rw [hc.variableBound hl] at this
      cases this.1
    · rw [hc.variableBound hl] at this
      cases this.2
  rw [presolveFixedVariable_eq hG hs.toCounts hf hj hj0] at h
  split at h
  swap
  · cases h
  cases h
  refine ⟨fun i hi hm => ?_, fun i hi k hk d hik hk' => ?_, hc.bounds, hc.derived, hc.slack⟩
  · have := (hc.two hr hs.toCounts hi hm).1
    have h : ∀ p : Prop, [Decidable p] →
        (if p then s.counters.constraint i - 1 else s.counters.constraint i) ≠ 0 := by
      intro p _
      split <;> omega
    exact h _
  · show insertAt _ _ _ k ≠ 0
    rw [insertAt_ne _ _ (by rintro rfl; exact hl _ hk')]
    exact hc.vars i hi k hk d hik hk'

theorem updateBound_calm (u : Updates) (j : ℕ) (hd : ∀ k d, u.activityBounds k d = none)
    (d : BoundDirection) (new : ℚ) :
    (∀ k d', (u.updateBound G j d new).1.activityBounds k d' = none) ∧
      ∀ k, k ≠ j → ∀ d', (u.updateBound G j d new).1.bounds k d' = u.bounds k d' := by
  have key : ∀ (v : ℚ) k, k ≠ j → ∀ d', insertAt2 u.bounds j d (some v) k d' = u.bounds k d' :=
    fun v k hk d' => insertAt2_ne _ _ fun h => hk h.1
  unfold Updates.updateBound
  simp only [hd]
  split
  · split
    · exact ⟨hd, key _⟩
    · exact ⟨hd, fun _ _ _ => rfl⟩
  · split
    · split
      · exact ⟨hd, key _⟩
      · exact ⟨hd, fun _ _ _ => rfl⟩
    · exact ⟨hd, key _⟩

theorem updateBounds_calm (j : ℕ) (L : List (BoundDirection × ℚ)) : ∀ (u : Updates),
    (∀ k d, u.activityBounds k d = none) →
    (∀ k d', (L.foldl (fun u p => (u.updateBound G j p.1 p.2).1) u).activityBounds k d' = none) ∧
      ∀ k, k ≠ j → ∀ d', (L.foldl (fun u p => (u.updateBound G j p.1 p.2).1) u).bounds k d' =
        u.bounds k d' := by
  induction L with
  | nil => exact fun u hd => ⟨hd, fun _ _ _ => rfl⟩
  | cons p L ih =>
    intro u hd
    obtain ⟨h1, h2⟩ := updateBound_calm (G := G) u j hd p.1 p.2
    obtain ⟨h3, h4⟩ := ih _ h1
    exact ⟨h3, fun k hk d' => (h4 k hk d').trans (h2 k hk d')⟩

theorem bound_calm (hG : G.Consistent) (hr : Roomy G) {s : Index} (hs : s.Fit G) (hc : Calm G s) {i : ℕ}
    {rest : List ℕ} (hi : i < G.constraintTypes.length) (h1 : s.counters.constraint i = 1)
    (hsub : rest ⊆ s.queues.bound)
    (hrest : ∀ k ≠ i, s.counters.constraint k = 1 → k ∈ s.queues.bound → k ∈ rest) {t : Index}
    (h : presolveBoundConstraint G { s with queues := { s.queues with bound := rest } } i = .ok t) :
    Calm G t := by
  obtain ⟨j, u, hv, ha, he⟩ := presolveBoundConstraint_eq hG hs.toWF hi h1 hsub hrest
  rw [he] at h
  have hj := mem_varsOf.1 (show j ∈ varsOf G s.counters i by rw [hv]; simp)
  have hl : ∀ d, ¬Loose G j d := fun d hl => by
    have := (hc.two hr hs.toCounts hi (hl.2 i hi hj.2.1)).1
    omega
  have hu : Calm G u := by
    refine ⟨fun k hk hm => ?_, fun i' hi' k hk d hik hk' => ?_, fun k d hk => ?_, ?_,
      ha.slack.trans hc.slack⟩
    · rw [ha.constraint]
      show insertAt _ _ _ k ≠ 0
      have := (hc.two hr hs.toCounts hk hm).1
      rw [insertAt_ne _ _ (by rintro rfl; omega)]
      show s.counters.constraint k ≠ 0
      omega
    · rw [ha.columns]
      show insertAt _ _ _ k ≠ 0
      rw [insertAt_ne _ _ (by rintro rfl; exact hl _ hk')]
      exact hc.vars i' hi' k hk d hik hk'
    · rw [ha.updates]
      exact ((updateBounds_calm j _ (boundRowGone { s with queues := { s.queues with bound := rest } } i
        j).updates hc.derived).2 k (by rintro rfl; exact hl _ hk) d).trans (hc.bounds k d hk)
    · rw [ha.updates]
      exact (updateBounds_calm j _ (boundRowGone { s with queues := { s.queues with bound := rest } } i
        j).updates hc.derived).1
  split at h
  · cases h
  unfold queueVariableByCounter at h
  split at h
  · split at h
    · simp only [bind, Except.bind] at h
      split at h <;> cases h
      exact ⟨hu.rows, hu.vars, hu.bounds, hu.derived, hu.slack⟩
    · simp only [bind, Except.bind] at h
      split at h <;> cases h
      exact ⟨hu.rows, hu.vars, hu.bounds, hu.derived, hu.slack⟩
  · rename_i hone
    split at h
    · rename_i h0
      exact absurd hone (hu.columns hr ha.counts hi hj.1 hj.2.1 h0)
    · cases h
      exact hu
  · cases h
    exact hu

/-! ### A step -/

/-- The next rule is neither removal of a slack variable nor propagation. -/
theorem Calm.rule (hr : Roomy G) {s : Index} (hs : s.Fit G) (hc : Calm G s) :
    (∀ j, nextRule s ≠ .slack j) ∧ ∀ i d, nextRule s ≠ .propagation i d := by
  unfold nextRule
  cases s.queues.substitution.head?.filter fun j => 0 < s.counters.columns j with
  | some j => simp
  | none =>
    cases hb : s.queues.bound.find? fun i => s.counters.constraint i ≠ 0 with
    | some i => simp
    | none =>
      rw [hc.slack]
      simp only [List.find?_nil]
      cases hp : s.queues.activity.find? fun p => s.counters.constraint p.1 ≠ 0 with
      | none => simp
      | some p =>
        exfalso
        have hp0 := List.find?_some hp
        simp only [ne_eq, decide_eq_true_eq] at hp0
        obtain ⟨hi, ha⟩ := hs.activityQueue p (List.mem_of_find?_eq_some hp)
        have ha := ha hp0
        have hns : ¬Several G p.1 := fun hm => by
          have := (hc.two hr hs.toCounts hi hm).2 p.2
          omega
        have h1 : s.counters.constraint p.1 = 1 := by
          by_contra h1
          have h2 : 1 < #(varsOf G s.counters p.1) := by
            rw [← hs.rowCount _ hi hp0]
            omega
          obtain ⟨a, ha, b, hb, hab⟩ := Finset.one_lt_card.1 h2
          rw [mem_varsOf] at ha hb
          exact hns ⟨a, ha.1, b, hb.1, hab, ha.2.1, hb.2.1⟩
        have := List.find?_eq_none.1 hb _ (hs.allBounds _ hi h1)
        simp [h1] at this

theorem Calm.safe (hr : Roomy G) {s : Index} (hs : s.Fit G) (hc : Calm G s) : SafeStep G s := by
  obtain ⟨h1, h2⟩ := hc.rule hr hs
  unfold SafeStep
  cases h : nextRule s with
  | slack j => exact absurd h (h1 j)
  | propagation i d => exact absurd h (h2 i d)
  | fixed j => trivial
  | bound i => trivial
  | nothing => trivial

/-- A step is as before, and does not abort. -/
theorem step_calm (hG : G.Fresh) (hr : Roomy G) {s : Index} (hs : s.Fit G) (hc : Calm G s) :
    match presolveStep G s with
    | .ok (t, _) => Calm G t
    | .error e => ∃ r, e = .verdict r := by
  have hG' := hG.toConsistent
  have hrule := hc.rule hr hs
  let s₁ : Index := { s with queues := { s.queues with substitution := s.queues.substitution.tail } }
  have hs₁ : s₁.Fit G := fit_queues hs (List.tail_subset _) (fun _ h => h) (fun _ h _ => h)
    (fun _ h => h) (fun _ h => h)
  have hc₁ : Calm G s₁ := ⟨hc.rows, hc.vars, hc.bounds, hc.derived, hc.slack⟩
  unfold presolveStep
  unfold nextRule at hrule
  simp only []
  cases hv : s.queues.substitution.head?.filter fun j => 0 < s.counters.columns j with
  | some j =>
    simp only []
    rw [Option.filter_eq_some_iff] at hv
    have hj : j ∈ s.queues.substitution := List.mem_of_mem_head? hv.1
    have hj0 : s.counters.columns j ≠ 0 := by
      have := hv.2
      simp only [decide_eq_true_eq] at this
      omega
    have h := presolveFixedVariable_correct hG' hs₁ (hs.fixed j hj hj0) (hs.substitutionQueue j hj) hj0
    cases hp : presolveFixedVariable G s₁ j with
    | ok t =>
      exact fixed_calm hG' hr hs₁ hc₁ (hs.fixed j hj hj0) (hs.substitutionQueue j hj) hj0 hp
    | error e => exact ⟨_, (h.2 e hp).1⟩
  | none =>
    simp only []
    simp only [hv] at hrule
    have hf : s.queues.bound.find? (fun i => s.counters.constraint i ≠ 0) =
        (s.queues.bound.dropWhile fun i => s.counters.constraint i = 0).head? := by
      rw [dropWhile_find]
      simp
    cases hb : s.queues.bound.dropWhile fun i => s.counters.constraint i = 0 with
    | cons i rest =>
      simp only []
      have hsuf : i :: rest <:+ s.queues.bound := hb ▸ List.dropWhile_suffix _
      have hi : i ∈ s.queues.bound := hsuf.subset (by simp)
      have hi0 : s.counters.constraint i ≠ 0 := by
        have h := dropWhile_head hb
        simpa using h
      have h1 := hs.boundQueue i hi
      have hone : s₁.counters.constraint i = 1 := by
        show s.counters.constraint i = 1
        omega
      have hsub : rest ⊆ s₁.queues.bound := fun k hk => hsuf.subset (by simp [hk])
      have hrest : ∀ k ≠ i, s₁.counters.constraint k = 1 → k ∈ s₁.queues.bound → k ∈ rest := by
        intro k hk h h'
        have : k ∈ s.queues.bound.dropWhile fun i => decide (s.counters.constraint i = 0) :=
          mem_dropWhile h' (by
            have : s.counters.constraint k = 1 := h
            simp [this])
        rw [hb, List.mem_cons] at this
        exact this.resolve_left hk
      have hcor := presolveBoundConstraint_correct hG' hs₁ h1.1 hone hsub hrest
      cases hp : presolveBoundConstraint G { s₁ with queues := { s₁.queues with bound := rest } } i with
      | ok t => exact bound_calm hG' hr hs₁ hc₁ h1.1 hone hsub hrest hp
      | error e =>
        rw [hp] at hcor
        match e, hcor with
        | .verdict r, _ => exact ⟨r, rfl⟩
    | nil =>
      rw [hb] at hf
      simp only [hf, List.head?_nil, hc.slack, List.find?_nil] at hrule
      simp only [hc.slack, List.dropWhile_nil]
      have hf : s.queues.activity.find? (fun p => s.counters.constraint p.1 ≠ 0) =
          (s.queues.activity.dropWhile fun p => s.counters.constraint p.1 = 0).head? := by
        rw [dropWhile_find]
        simp
      cases ha : s.queues.activity.dropWhile fun p => s.counters.constraint p.1 = 0 with
      | cons p rest =>
        rw [ha] at hf
        simp only [hf, List.head?_cons] at hrule
        exact absurd rfl (hrule.2 p.1 p.2)
      | nil => exact ⟨hc.rows, hc.vars, hc.bounds, hc.derived, rfl⟩

/-! ### All steps -/

theorem run_calm (hG : G.Fresh) (hr : Roomy G) (fuel : ℕ) : ∀ (s : Index) (k : ℕ), s.Fit G → Calm G s →
    SafeRun G fuel s k ∧
      match presolveLoop G fuel s k with
      | .ok t => Calm G t
      | .error e => ∀ a, e ≠ .abort a := by
  induction fuel with
  | zero =>
    intro s k hs hc
    refine ⟨trivial, ?_⟩
    unfold presolveLoop
    by_cases h : (!s.queues.areEmpty && decide (k < remaining G s)) = true
    · rw [if_pos h]
      intro a h
      cases h
    · rw [if_neg h]
      exact hc
  | succ fuel ih =>
    intro s k hs hc
    have hsafe := hc.safe hr hs
    have h1 := step_calm hG hr hs hc
    have h2 := presolveStep_correct hG hs hsafe
    constructor
    · intro _ _
      refine ⟨hsafe, ?_⟩
      cases hp : presolveStep G s with
      | error e => trivial
      | ok p =>
        obtain ⟨t, c⟩ := p
        rw [hp] at h1 h2
        cases c <;> exact (ih t _ h2.1 h1).1
    · unfold presolveLoop
      by_cases h : (!s.queues.areEmpty && decide (k < remaining G s)) = true
      · rw [if_pos h]
        simp only [bind, Except.bind]
        cases hp : presolveStep G s with
        | error e =>
          rw [hp] at h1
          obtain ⟨r, rfl⟩ := h1
          intro a h
          cases h
        | ok p =>
          obtain ⟨t, c⟩ := p
          rw [hp] at h1 h2
          exact (ih t _ h2.1 h1).2
      · rw [if_neg h]
        exact hc

theorem ResultCorrect.mono {allowed allowed' : Abort → Prop} {r : Run GeneralForm}
    (h : ResultCorrect G allowed r) (ha : ∀ a, r = .error (.abort a) → allowed' a) :
    ResultCorrect G allowed' r := by
  cases r with
  | ok H => exact h
  | error e =>
    match e, h with
    | .verdict (.finiteOptimum _), h => exact h
    | .verdict .infeasible, h => exact h
    | .verdict .unbounded, h => exact h
    | .abort a, _ => exact ha a rfl
    | .outOfFuel, _ => trivial

theorem roomy_start (hG : G.Fresh) (hp : G.Proper) (hr : Roomy G) {s : Index} (h : Index.new G = .ok s) :
    s.Fit G ∧ Calm G s :=
  ⟨((indexNew_correct hG.toConsistent hp).1 s h).1, new_calm hG.toConsistent hr h⟩

theorem Calm.unfixed (hG : G.Fresh) (hr : Roomy G) (F : ℕ → Bool) (fuel : ℕ) : ∀ (s : Index) (k : ℕ),
    s.Fit G → Calm G s → UnfixedRun G fuel s k ∧ KeptRun G F fuel s k := by
  induction fuel with
  | zero => exact fun _ _ _ _ => ⟨trivial, trivial⟩
  | succ fuel ih =>
    intro s k hs hc
    have h1 := step_calm hG hr hs hc
    have h2 := presolveStep_correct hG hs (hc.safe hr hs)
    obtain ⟨r1, r2⟩ := hc.rule hr hs
    have h3 : UnfixedStep G s ∧ KeptStep G F s := by
      unfold UnfixedStep KeptStep
      cases h : nextRule s with
      | slack j => exact absurd h (r1 j)
      | propagation i d => exact absurd h (r2 i d)
      | fixed j => exact ⟨trivial, trivial⟩
      | bound i => exact ⟨trivial, trivial⟩
      | nothing => exact ⟨trivial, trivial⟩
    cases hp : presolveStep G s with
    | error e =>
      constructor
      · intro _ _
        exact ⟨h3.1, by rw [hp]; trivial⟩
      · intro _ _
        exact ⟨h3.2, by rw [hp]; trivial⟩
    | ok p =>
      obtain ⟨t, c⟩ := p
      rw [hp] at h1 h2
      constructor
      · intro _ _
        refine ⟨h3.1, ?_⟩
        rw [hp]
        cases c <;> exact (ih t _ h2.1 h1).1
      · intro _ _
        refine ⟨h3.2, ?_⟩
        rw [hp]
        cases c <;> exact (ih t _ h2.1 h1).2

/-- Presolving a roomy problem is right, and does not abort. -/
theorem roomy_correct (hG : G.Fresh) (hp : G.Proper) (hr : Roomy G) (fuel : ℕ) :
    ResultCorrect G (fun _ => False) (presolve fuel G) := by
  have hnew := indexNew_correct hG.toConsistent hp
  have hstart : ∀ s, Index.new G = .ok s → s.Fit G ∧ Calm G s := fun s h =>
    ⟨(hnew.1 s h).1, new_calm hG.toConsistent hr h⟩
  have h := presolve_correct hG hp fuel (fun s h => (run_calm hG hr fuel s 0 (hstart s h).1 (hstart s h).2).1)
    fun s t h1 h2 _ => discardedFollow_of_kept fun j _ d => by
      have := (run_calm hG hr fuel s 0 (hstart s h1).1 (hstart s h1).2).2
      rw [h2] at this
      unfold Updates.kept Updates.newBound Updates.variableBound
      simp only [this.derived, Option.none_or, ite_self]
  have hno : ∀ a, presolve fuel G ≠ .error (.abort a) := by
    intro a ha
    cases hs : Index.new G with
    | error e =>
      obtain ⟨r, rfl, -⟩ := hnew.2 e hs
      unfold presolve at ha
      rw [hs] at ha
      cases ha
    | ok s =>
      obtain ⟨h1, h2⟩ := hstart s hs
      have hrun := run_calm hG hr fuel s 0 h1 h2
      have hcor := presolveLoop_correct hG fuel s 0 h1 hrun.1
      cases hl : presolveLoop G fuel s 0 with
      | error e =>
        rw [hl] at hrun
        unfold presolve at ha
        rw [hs] at ha
        simp only [bind, Except.bind] at ha
        rw [hl] at ha
        cases ha
        exact hrun.2 a rfl
      | ok t =>
        rw [hl] at hcor
        obtain ⟨H, -, -, -, he⟩ := finish_result hG hcor.1
        rw [he fuel s hs hl] at ha
        split at ha <;> cases ha
  exact h.mono fun a ha => hno a ha

end Presolve

end Relp
