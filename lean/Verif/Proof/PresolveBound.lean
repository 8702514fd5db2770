import Verif.Proof.PresolveFixed
import Verif.Proof.PresolveStored
import Mathlib.Algebra.Order.Field.Basic

/-!
# Constraints that are bounds
-/

namespace Relp

open Finset

namespace Presolve

variable {G : GeneralForm}

/-! ### Bounds that leave one value -/

/-- The bounds of a variable leave at most one value. -/
def Pinned (G : GeneralForm) (u : Updates) (j : ℕ) : Prop := ∃ value, ∀ x, u.Within G j x → x = value

theorem pinned_of_fixed {u : Updates} {j : ℕ} (h : (u.isVariableFixed G j).isSome) : Pinned G u j := by
  obtain ⟨value, h⟩ := Option.isSome_iff_exists.1 h
  obtain ⟨h1, h2⟩ := isVariableFixed_iff.1 h
  refine ⟨value, fun x hx => ?_⟩
  have a1 := hx .lower
  have a2 := hx .upper
  rw [h1] at a1
  rw [h2] at a2
  exact le_antisymm a2 a1

theorem fixed_of_pinned {u : Updates} {j : ℕ} (h : Pinned G u j)
    (hc : ∀ l ∈ u.variableBound G j .lower, ∀ r ∈ u.variableBound G j .upper, l ≤ r) :
    (u.isVariableFixed G j).isSome := by
  obtain ⟨value, h⟩ := h
  have hw : ∀ x, u.Within G j x ↔ (∀ l ∈ u.variableBound G j .lower, l ≤ x) ∧
      ∀ r ∈ u.variableBound G j .upper, x ≤ r := by
    intro x
    constructor
    · intro hx
      constructor
      · intro l hl
        have := hx .lower
        rw [hl] at this
        exact this
      · intro r hr
        have := hx .upper
        rw [hr] at this
        exact this
    · rintro ⟨h1, h2⟩ d
      cases d
      · cases hl : u.variableBound G j .lower with
        | none => trivial
        | some l => exact h1 l hl
      · cases hl : u.variableBound G j .upper with
        | none => trivial
        | some l => exact h2 l hl
  simp only [hw] at h
  unfold Updates.isVariableFixed
  cases hl : u.variableBound G j .lower with
  | none =>
    cases hr : u.variableBound G j .upper with
    | none =>
      rw [hl, hr] at h
      have h1 := h 0 (by simp)
      have h2 := h 1 (by simp)
      rw [← h1] at h2
      exact absurd h2 one_ne_zero
    | some r =>
      rw [hl, hr] at h
      have h1 := h r (by simp)
      have h2 := h (r - 1) (by simp)
      linarith
  | some l =>
    cases hr : u.variableBound G j .upper with
    | none =>
      rw [hl, hr] at h
      have h1 := h l (by simp)
      have h2 := h (l + 1) (by simp)
      linarith
    | some r =>
      rw [hl, hr] at h hc
      have hlr := hc l rfl r rfl
      have h1 := h l (by simpa using hlr)
      have h2 := h r (by simpa using hlr)
      have : l = r := by rw [h1, h2]
      simp [this]

theorem Pinned.mono {u v : Updates} {j : ℕ} (h : Pinned G u j)
    (hw : ∀ x, v.Within G j x → u.Within G j x) : Pinned G v j := by
  obtain ⟨value, h⟩ := h
  exact ⟨value, fun x hx => h x (hw x hx)⟩

/-! ### Several bounds for one variable -/

/-- Bounds of a variable are combined with new ones. -/
structure BoundsMerged (G : GeneralForm) (u : Updates) (j : ℕ) (L : List (BoundDirection × ℚ))
    (v : Updates) : Prop where
  b : v.b = u.b
  constraints : v.constraints = u.constraints
  fixedCost : v.fixedCost = u.fixedCost
  removedVariables : v.removedVariables = u.removedVariables
  constraintsRemoved : v.constraintsRemoved = u.constraintsRemoved
  other : ∀ k e, k ≠ j → v.variableBound G k e = u.variableBound G k e
  within : ∀ x, v.Within G j x ↔ u.Within G j x ∧ ∀ p ∈ L, p.1.Respects (some p.2) x
  isSome : ∀ k e, u.variableBound G k e ≠ none → v.variableBound G k e ≠ none

theorem BoundUpdated.within {u v : Updates} {j : ℕ} {d : BoundDirection} {new : ℚ}
    {change : BoundChange} (h : BoundUpdated G u j d new v change) (x : ℚ) :
    v.Within G j x ↔ u.Within G j x ∧ d.Respects (some new) x := by
  constructor
  · intro hx
    have h1 := (h.respects x).1 (hx d)
    refine ⟨fun e => ?_, h1.2⟩
    by_cases he : e = d
    · rw [he]; exact h1.1
    · rw [← h.other j e fun h' => he h'.2]
      exact hx e
  · rintro ⟨h1, h2⟩ e
    by_cases he : e = d
    · rw [he]; exact (h.respects x).2 ⟨he ▸ h1 d, h2⟩
    · rw [h.other j e fun h' => he h'.2]
      exact h1 e

theorem BoundUpdated.keepsSome {u v : Updates} {j : ℕ} {d : BoundDirection} {new : ℚ}
    {change : BoundChange} (h : BoundUpdated G u j d new v change) (k : ℕ) (e : BoundDirection)
    (hk : u.variableBound G k e ≠ none) : v.variableBound G k e ≠ none := by
  by_cases he : k = j ∧ e = d
  · rw [he.1, he.2]; exact h.isSome
  · rw [h.other k e he]; exact hk

/-- The state after all new bounds have been processed. -/
structure AfterBounds (G : GeneralForm) (s : Index) (j : ℕ) (L : List (BoundDirection × ℚ))
    (t : Index) : Prop where
  counts : t.Counts G
  merged : BoundsMerged G s.updates j L t.updates
  updates : t.updates = L.foldl (fun u p => (u.updateBound G j p.1 p.2).1) s.updates
  columns : t.counters.columns = s.counters.columns
  constraint : t.counters.constraint = s.counters.constraint
  bound : t.queues.bound = s.queues.bound
  slack : t.queues.slack = s.queues.slack
  substitution : ∀ k ∈ t.queues.substitution, k ∈ s.queues.substitution ∨
    k = j ∧ Pinned G t.updates j
  stored : ∀ k < G.constraintTypes.length, s.counters.constraint k ≠ 0 → ∀ e,
    AccurateAt G s k e → AccurateAt G t k e

theorem boundsLoop (hG : G.Consistent) {j : ℕ} (hj : j < G.vars.length)
    (L : List (BoundDirection × ℚ)) : ∀ (s : Index), s.Counts G →
    (∀ i ∈ rowsOf G s.counters j, s.counters.columns j ≠ 0) →
    ∃ t, L.foldlM (fun (s : Index) p =>
        let (u, change) := s.updates.updateBound G j p.1 p.2
        afterBoundChange G { s with updates := u } j p.1 change) s = .ok t ∧ AfterBounds G s j L t := by
  induction L with
  | nil =>
    intro s hs _
    exact ⟨s, rfl, hs, ⟨rfl, rfl, rfl, rfl, rfl, fun _ _ _ => rfl, by simp, fun _ _ h => h⟩, rfl, rfl, rfl,
      rfl, rfl, fun k hk => Or.inl hk, fun _ _ _ _ h => h⟩
  | cons p L ih =>
    intro s hs hj0
    have hb := updateBound_spec (G := G) s.updates j p.1 p.2 hs.disjoint
    obtain ⟨t1, e1, a1⟩ := afterBoundChange_spec hG hs hb hj hj0
    have hrows : rowsOf G t1.counters j = rowsOf G s.counters j := by
      unfold rowsOf; rw [a1.constraint]
    obtain ⟨t, e2, a2⟩ := ih t1 a1.counts (by rw [hrows, a1.columns]; exact hj0)
    have m := a2.merged
    rw [a1.updates] at m
    refine ⟨t, ?_, a2.counts, ⟨m.b.trans hb.b, m.constraints.trans hb.constraints,
      m.fixedCost.trans hb.fixedCost, m.removedVariables.trans hb.removedVariables,
      m.constraintsRemoved.trans hb.constraintsRemoved,
      fun k e hk => (m.other k e hk).trans (hb.other k e fun h => hk h.1), fun x => ?_,
      fun k e hk => m.isSome k e (hb.keepsSome k e hk)⟩, by rw [a2.updates, a1.updates]; rfl,
      a2.columns.trans a1.columns, a2.constraint.trans a1.constraint, a2.bound.trans a1.bound,
      a2.slack.trans a1.slack, fun k hk => ?_, fun k hk hk0 e ha => a2.stored k hk
        (by rw [a1.constraint]; exact hk0) e (afterBoundChange_accurate hG hs hb hj hj0 e1 hk hk0 ha)⟩
    · rw [List.foldlM_cons]
      simp only [bind, Except.bind]
      rw [e1]
      exact e2
    · rw [m.within, hb.within]
      simp only [List.mem_cons, forall_eq_or_imp]
      tauto
    · rcases a2.substitution k hk with hk | hk
      · rcases a1.substitution with h | ⟨h, h1, h2⟩
        · rw [h] at hk; exact Or.inl hk
        · rw [h, List.mem_cons] at hk
          rcases hk with rfl | hk
          · exact Or.inr ⟨rfl, (pinned_of_fixed h1).mono fun x hx => ((m.within x).1 hx).1⟩
          · exact Or.inl hk
      · exact Or.inr hk

/-- The bounds that a constraint with one variable stands for. -/
theorem boundsOfConstraint_iff {t : ConstraintType} {b c : ℚ} (hc : c ≠ 0) (x : ℚ) :
    (∀ p ∈ boundsOfConstraint t b c, p.1.Respects (some p.2) x) ↔ t.Holds b (c * x) := by
  rcases lt_or_gt_of_ne hc with hneg | hpos
  · have hn : ¬0 < c := not_lt.2 hneg.le
    have h1 : ∀ y, y / c ≤ x ↔ c * x ≤ y := fun y => by
      rw [div_le_iff_of_neg hneg, mul_comm]
    have h2 : ∀ y, x ≤ y / c ↔ y ≤ c * x := fun y => by
      rw [le_div_iff_of_neg hneg, mul_comm]
    cases t <;> simp only [boundsOfConstraint, hn, if_false, List.mem_cons,
      forall_eq_or_imp, BoundDirection.Respects, ConstraintType.Holds, h1, h2,
      List.not_mem_nil, false_imp_iff, implies_true, and_true]
    · exact ⟨fun h => le_antisymm h.1 h.2, fun h => ⟨h.le, h.ge⟩⟩
    · exact and_comm
  · have h1 : ∀ y, y / c ≤ x ↔ y ≤ c * x := fun y => by
      rw [div_le_iff₀ hpos, mul_comm]
    have h2 : ∀ y, x ≤ y / c ↔ c * x ≤ y := fun y => by
      rw [le_div_iff₀ hpos, mul_comm]
    cases t <;> simp only [boundsOfConstraint, hpos, if_true, List.mem_cons,
      forall_eq_or_imp, BoundDirection.Respects, ConstraintType.Holds, h1, h2,
      List.not_mem_nil, false_imp_iff, implies_true, and_true]
    · exact ⟨fun h => le_antisymm h.2 h.1, fun h => ⟨h.ge, h.le⟩⟩

/-! ### The rule -/

theorem Counts_of {s t : Index} (hs : s.Counts G) (hc : t.counters = s.counters)
    (ha : t.activityBounds = s.activityBounds) (hb : t.updates.bounds = s.updates.bounds)
    (hab : t.updates.activityBounds = s.updates.activityBounds)
    (hq1 : t.queues.substitution = s.queues.substitution) (hq2 : t.queues.bound = s.queues.bound)
    (hq3 : ∀ k ∈ t.queues.slack, k ∈ s.queues.slack ∨
      k < G.vars.length ∧ s.counters.columns k ≤ 1 ∧ costOf G k = 0)
    (hq4 : t.queues.activity = s.queues.activity) : t.Counts G := by
  have hm : ∀ i d, missing G t i d = missing G s i d := by
    intro i d
    unfold missing Updates.variableBound
    rw [hc, hb, hab]
  refine ⟨?_, ?_, ?_, ?_, ?_, ?_, ?_, ?_, fun k hk => ?_, ?_⟩
  · rw [hc]; exact hs.rowCount
  · rw [hc]; exact hs.colCount
  · intro i hi hi0 d
    rw [hm]
    rw [hc] at hi0 ⊢
    exact hs.activity i hi hi0 d
  · rw [hc, ha]; exact hs.cache
  · rw [hb, hab]; exact hs.disjoint
  · rw [hq1]; exact hs.substitutionQueue
  · rw [hq2, hc]; exact hs.boundQueue
  · rw [hq2, hc]; exact hs.allBounds
  · rw [hc]
    rcases hq3 k hk with h | h
    · exact hs.slackQueue k h
    · exact h
  · rw [hq4, hc]; exact hs.activityQueue

theorem Removal_of {s t : Index} (hs : s.Removal G) (hc : t.counters.columns = s.counters.columns)
    (hr : t.counters.constraint = s.counters.constraint)
    (hv : t.updates.removedVariables = s.updates.removedVariables)
    (hcr : t.updates.constraintsRemoved = s.updates.constraintsRemoved) : t.Removal G := by
  refine ⟨?_, ?_, ?_, ?_, ?_, ?_, ?_, ?_⟩
  · rw [hcr, hr]; exact hs.rowsRemoved
  · rw [hv, hc]; exact hs.varsRemoved
  · rw [hcr]; exact hs.rowsRange
  · rw [hv]; exact hs.varsRange
  · rw [hcr]; exact hs.rowsNodup
  · rw [hv]; exact hs.varsNodup
  · rw [hv]; exact hs.ordered
  · rw [hv]; exact hs.mentioned

/-- The row is removed, before its bounds are applied. -/
def boundRowGone (s : Index) (i j : ℕ) : Index :=
  removeConstraint { s with counters := { s.counters with
    columns := insertAt s.counters.columns j (s.counters.columns j - 1)
    constraint := insertAt s.counters.constraint i (s.counters.constraint i - 1) } } i

theorem feasibleValue_isSome {l r : Option ℚ} :
    feasibleValue l r ≠ none ↔ ∀ a ∈ l, ∀ b ∈ r, a ≤ b := by
  cases l with
  | none => cases r <;> simp [feasibleValue]
  | some l =>
    cases r with
    | none => simp [feasibleValue]
    | some r => simp [feasibleValue]

section

variable {s₀ s : Index} {i j : ℕ} {rest : List ℕ}

theorem boundRow (hG : G.Consistent) (hs : s₀.Counts G) (hi : i < G.constraintTypes.length)
    (h1 : s₀.counters.constraint i = 1) :
    ∃ j, varsOf G s₀.counters i = {j} ∧ activeRow G s₀.counters i = [(j, coef G i j)] := by
  obtain ⟨j, hj⟩ := Finset.card_eq_one.1 ((hs.rowCount i hi (by omega)).symm.trans h1)
  have ht := activeRow_tuples hG s₀.counters hi
  rw [hj] at ht
  refine ⟨j, hj, ?_⟩
  have hl := ht.length
  rw [Finset.card_singleton] at hl
  obtain ⟨p, hp⟩ := List.length_eq_one_iff.1 hl
  have := (ht.mem p).1 (by rw [hp]; simp)
  rw [Finset.mem_singleton] at this
  rw [hp]
  congr 1
  exact Prod.ext this.1 (by rw [this.2, this.1])

theorem boundRowGone_spec (hG : G.Consistent) (hs : s₀.Counts G) (hi : i < G.constraintTypes.length)
    (h1 : s₀.counters.constraint i = 1)
    (hv : varsOf G s₀.counters i = {j}) (hsub : rest ⊆ s₀.queues.bound)
    (hrest : ∀ k ≠ i, s₀.counters.constraint k = 1 → k ∈ s₀.queues.bound → k ∈ rest) :
    RowGone G s₀ (boundRowGone { s₀ with queues := { s₀.queues with bound := rest } } i j) i := by
  refine ⟨?_, ?_, rfl, rfl, rfl, rfl, rfl, rfl, hrest, hsub, fun k hk => Or.inl hk, rfl⟩
  · show insertAt _ _ (s₀.counters.constraint i - 1) = _
    rw [h1]
  · funext k
    rw [hv]
    show insertAt _ _ _ k = _
    by_cases hk : k = j
    · subst hk; simp [insertAt_same]
    · rw [insertAt_ne _ _ hk]; simp [hk]

/-- The result of the rule: the new bounds are processed, then it is checked that they do not cross, and
then that the variable is in a row. -/
theorem presolveBoundConstraint_eq (hG : G.Consistent) (hs : s₀.WF G)
    (hi : i < G.constraintTypes.length)
    (h1 : s₀.counters.constraint i = 1) (hsub : rest ⊆ s₀.queues.bound)
    (hrest : ∀ k ≠ i, s₀.counters.constraint k = 1 → k ∈ s₀.queues.bound → k ∈ rest) :
    ∃ j t, varsOf G s₀.counters i = {j} ∧
      AfterBounds G (boundRowGone { s₀ with queues := { s₀.queues with bound := rest } } i j) j
        (boundsOfConstraint (s₀.updates.constraintType G i) (s₀.updates.rhs G i) (coef G i j)) t ∧
      presolveBoundConstraint G { s₀ with queues := { s₀.queues with bound := rest } } i =
        match feasibleValue (t.updates.variableBound G j .lower) (t.updates.variableBound G j .upper) with
        | none => .error (.verdict .infeasible)
        | some _ => queueVariableByCounter G t j := by
  obtain ⟨j, hv, hrow⟩ := boundRow hG hs.toCounts hi h1
  have hjm : j ∈ varsOf G s₀.counters i := by rw [hv]; simp
  have hj := mem_varsOf.1 hjm
  have hgone := boundRowGone_spec hG hs.toCounts hi h1 hv hsub hrest
  have hcounts := hgone.counts hs.toCounts hG hi (by omega)
  have hj0 : ∀ k ∈ rowsOf G (boundRowGone { s₀ with queues := { s₀.queues with bound := rest } } i
      j).counters j, (boundRowGone { s₀ with queues := { s₀.queues with bound := rest } } i
      j).counters.columns j ≠ 0 := by
    intro k hk
    rw [hgone.rowsOf, Finset.mem_erase] at hk
    have := two_le_card hk.2 (mem_rowsOf.2 ⟨hi, hj.2.1, by omega⟩) hk.1
    rw [← hs.colCount j hj.1 hj.2.2] at this
    show insertAt _ _ _ j ≠ 0
    rw [insertAt_same]
    show s₀.counters.columns j - 1 ≠ 0
    omega
  obtain ⟨t, e, ha⟩ := boundsLoop hG hj.1
    (boundsOfConstraint (s₀.updates.constraintType G i) (s₀.updates.rhs G i) (coef G i j)) _ hcounts hj0
  refine ⟨j, t, hv, ha, ?_⟩
  unfold presolveBoundConstraint
  simp only [hrow, List.head?_cons, unwrap, bind, Except.bind]
  have e1 : ∀ s : Index, s.counters.columns j ≠ 0 → s.counters.constraint i ≠ 0 →
      (decrementColumn s j = .ok { s with counters := { s.counters with
        columns := insertAt s.counters.columns j (s.counters.columns j - 1) } } ∧
      decrementConstraint { s with counters := { s.counters with
        columns := insertAt s.counters.columns j (s.counters.columns j - 1) } } i =
        .ok { s with counters := { s.counters with
          columns := insertAt s.counters.columns j (s.counters.columns j - 1)
          constraint := insertAt s.counters.constraint i (s.counters.constraint i - 1) } }) := by
    intro s h2 h3
    unfold decrementColumn decrementConstraint
    rw [decrement_eq h2, decrement_eq h3]
    exact ⟨rfl, rfl⟩
  obtain ⟨d1, d2⟩ := e1 { s₀ with queues := { s₀.queues with bound := rest } } hj.2.2 (by
    show s₀.counters.constraint i ≠ 0; omega)
  rw [d1]
  simp only
  rw [d2]
  simp only
  unfold boundRowGone at e
  simp only at e
  have e' : ∀ r, List.foldlM (fun (s : Index) (p : BoundDirection × ℚ) =>
        afterBoundChange G { s with updates := (s.updates.updateBound G j p.1 p.2).1 } j p.1
          (s.updates.updateBound G j p.1 p.2).2)
      (removeConstraint { s₀ with
        queues := { s₀.queues with bound := rest }
        counters := { s₀.counters with
          columns := insertAt s₀.counters.columns j (s₀.counters.columns j - 1)
          constraint := insertAt s₀.counters.constraint i (s₀.counters.constraint i - 1) } } i)
      (boundsOfConstraint (s₀.updates.constraintType G i) (s₀.updates.rhs G i) (coef G i j)) = r →
      r = .ok t := by
    intro r hr
    rw [← hr]
    exact e
  split
  · rename_i heq
    have := e' _ heq
    cases this
  · rename_i heq
    have := e' _ heq
    cases this
    rfl

/-- The row is replaced by the bounds. -/
theorem bound_equivalent (hs : s₀.WF G) (hi : i < G.constraintTypes.length)
    (h1 : s₀.counters.constraint i = 1) (hv : varsOf G s₀.counters i = {j}) {v : Updates}
    (hm : BoundsMerged G
      { s₀.updates with constraintsRemoved := s₀.updates.constraintsRemoved ++ [i] } j
      (boundsOfConstraint (s₀.updates.constraintType G i) (s₀.updates.rhs G i) (coef G i j)) v) :
    Equivalent G s₀.updates v := by
  have hjm : j ∈ varsOf G s₀.counters i := by rw [hv]; simp
  have hj := mem_varsOf.1 hjm
  have hvalue : ∀ x, s₀.updates.value G i x = coef G i j * x j := by
    intro x
    rw [hs.value_eq, hv, Finset.sum_singleton]
  have hwithin : ∀ x, v.Within G j x ↔ s₀.updates.Within G j x ∧ ∀ p ∈ boundsOfConstraint
      (s₀.updates.constraintType G i) (s₀.updates.rhs G i) (coef G i j),
      p.1.Respects (some p.2) x := hm.within
  have htype : ∀ k, v.constraintType G k = s₀.updates.constraintType G k := by
    intro k; unfold Updates.constraintType; rw [hm.constraints]
  have hrhs : ∀ k, v.rhs G k = s₀.updates.rhs G k := by
    intro k; unfold Updates.rhs; rw [hm.b]
  have hrem : v.removedVariables = s₀.updates.removedVariables := hm.removedVariables
  have hlive := live_congr (G := G) hrem
  have hcr : ∀ k, k ∈ v.constraintsRemoved ↔ k ∈ s₀.updates.constraintsRemoved ∨ k = i := by
    intro k
    rw [hm.constraintsRemoved, List.mem_append, List.mem_singleton]
  have hother : ∀ k e, k ≠ j → v.variableBound G k e = s₀.updates.variableBound G k e := hm.other
  have hir : i ∉ s₀.updates.constraintsRemoved := (hs.row_active hi).2 (by omega)
  refine equivalent_of hrem.symm hm.fixedCost.symm fun x => ⟨fun hx => ⟨fun k hk hr => ?_,
    fun k hk d => ?_⟩, fun hx => ⟨fun k hk hr => ?_, fun k hk d => ?_⟩⟩
  · rw [htype, hrhs, value_congr hrem]
    exact hx.1 k hk fun h => hr ((hcr k).2 (Or.inl h))
  · by_cases hkj : k = j
    · subst hkj
      refine (hwithin (x k)).2 ⟨fun d => hx.2 k (hlive ▸ hk) d, ?_⟩ d
      rw [boundsOfConstraint_iff hj.2.1, ← hvalue]
      exact hx.1 i hi hir
    · rw [hother k d hkj]
      exact hx.2 k (hlive ▸ hk) d
  · by_cases hki : k = i
    · subst hki
      rw [hvalue, ← boundsOfConstraint_iff hj.2.1]
      have hjl : j ∈ v.live G := by rw [hlive, hs.mem_live]; exact ⟨hj.1, hj.2.2⟩
      exact ((hwithin (x j)).1 fun d => hx.2 j hjl d).2
    · have := hx.1 k hk fun h => ((hcr k).1 h).elim hr hki
      rw [htype, hrhs, value_congr hrem] at this
      exact this
  · by_cases hkj : k = j
    · subst hkj
      exact ((hwithin (x k)).1 fun d => hx.2 k (hlive ▸ hk) d).1 d
    · rw [← hother k d hkj]
      exact hx.2 k (hlive ▸ hk) d

/-- Replacing a constraint with one variable by bounds leaves an equivalent problem, or shows that there
is no solution; and if the variable is in no other row, it gets a best value. -/
theorem presolveBoundConstraint_correct (hG : G.Consistent) (hs : s₀.Fit G)
    (hi : i < G.constraintTypes.length)
    (h1 : s₀.counters.constraint i = 1) (hsub : rest ⊆ s₀.queues.bound)
    (hrest : ∀ k ≠ i, s₀.counters.constraint k = 1 → k ∈ s₀.queues.bound → k ∈ rest) :
    Correct G s₀ (fun _ => False)
      (presolveBoundConstraint G { s₀ with queues := { s₀.queues with bound := rest } } i) := by
  obtain ⟨j, t, hv, ha, heq⟩ := presolveBoundConstraint_eq hG hs.toWF hi h1 hsub hrest
  rw [heq]
  have hjm : j ∈ varsOf G s₀.counters i := by rw [hv]; simp
  have hj := mem_varsOf.1 hjm
  have hgone := boundRowGone_spec hG hs.toCounts hi h1 hv hsub hrest
  have hm : BoundsMerged G
      { s₀.updates with constraintsRemoved := s₀.updates.constraintsRemoved ++ [i] } j
      (boundsOfConstraint (s₀.updates.constraintType G i) (s₀.updates.rhs G i) (coef G i j))
      t.updates := ha.merged
  have hequiv := bound_equivalent hs.toWF hi h1 hv hm
  have hlive := live_congr (G := G) (u := t.updates) (v := s₀.updates) hm.removedVariables
  have hjl : j ∈ t.updates.live G := by rw [hlive, hs.mem_live]; exact ⟨hj.1, hj.2.2⟩
  have hcr : t.updates.constraintsRemoved = s₀.updates.constraintsRemoved ++ [i] :=
    hm.constraintsRemoved
  split
  · rename_i hcross
    intro x hx
    have hx' := (hequiv x).1.1 hx
    refine feasibleValue_isSome.2 (fun l hl r hr => ?_) hcross
    have a1 := hx'.bounds j hjl .lower
    have a2 := hx'.bounds j hjl .upper
    rw [hl] at a1
    rw [hr] at a2
    exact le_trans (α := ℚ) a1 a2
  · rename_i value hfeas
    have hcross : ∀ l ∈ t.updates.variableBound G j .lower,
        ∀ r ∈ t.updates.variableBound G j .upper, l ≤ r := by
      rw [← feasibleValue_isSome, hfeas]
      simp
    have hproper : Proper G t.updates := by
      refine ⟨fun k hk l hl r hr => ?_, fun k hk hkr r hr => ?_⟩
      · by_cases hkj : k = j
        · subst hkj
          exact hcross l hl r hr
        · rw [hm.other k _ hkj] at hl hr
          exact hs.proper.bounds k (hlive ▸ hk) l hl r hr
      · have e : t.updates.constraintType G k = s₀.updates.constraintType G k := by
          unfold Updates.constraintType; rw [hm.constraints]
        rw [e] at hr
        rw [hcr] at hkr
        exact hs.proper.ranges k hk (fun h => hkr (List.mem_append_left _ h)) r hr
    have hfixed : ∀ k ∈ t.queues.substitution, t.counters.columns k ≠ 0 →
        (t.updates.isVariableFixed G k).isSome := by
      intro k hk hk0
      have hcol : s₀.counters.columns k ≠ 0 := by
        rw [ha.columns, hgone.columns] at hk0
        intro h0
        apply hk0
        simp only [h0]
        split <;> rfl
      rcases ha.substitution k hk with hk | ⟨rfl, hp⟩
      · by_cases hkj : k = j
        · subst hkj
          refine fixed_of_pinned ((pinned_of_fixed (hs.fixed k hk hcol)).mono fun x hx => ?_) hcross
          exact ((hm.within x).1 hx).1
        · have := hs.fixed k hk hcol
          unfold Updates.isVariableFixed at this ⊢
          rw [hm.other k _ hkj, hm.other k _ hkj]
          exact this
      · exact fixed_of_pinned hp hcross
    rw [queueVariable_eq]
    by_cases hc0 : t.counters.columns j = 0
    · rw [if_pos hc0]
      have hcol1 : s₀.counters.columns j = 1 := by
        rw [ha.columns, hgone.columns] at hc0
        simp only [if_pos hjm] at hc0
        have := hj.2.2
        omega
      have hempty : ∀ k < G.constraintTypes.length, k ∉ t.updates.constraintsRemoved →
          coef G k j = 0 := by
        intro k hk hkr
        by_contra hc
        rw [hcr, List.mem_append, List.mem_singleton, not_or] at hkr
        have h2 : k ∈ rowsOf G s₀.counters j := mem_rowsOf.2 ⟨hk, hc, (hs.row_active hk).1 hkr.1⟩
        have h3 : i ∈ rowsOf G s₀.counters j := mem_rowsOf.2 ⟨hi, hj.2.1, by omega⟩
        have := two_le_card h2 h3 hkr.2
        rw [← hs.colCount j hj.1 hj.2.2] at this
        omega
      have hord : Ordered t.updates.removedVariables := by
        rw [hm.removedVariables]; exact hs.ordered
      have hnod : (t.updates.removedVariables.map (·.1)).Nodup := by
        rw [hm.removedVariables]; exact hs.varsNodup
      cases he : emptyValue G t.updates j with
      | error e =>
        obtain ⟨rfl, himp⟩ := emptyValue_error he hcross
        exact (hequiv.refines hlive.subset).verdict (unbounded_emptyColumn hjl hempty hord hnod himp)
      | ok w =>
        obtain ⟨hw, hbest⟩ := emptyValue_ok he hcross
        simp only [bind, Except.bind, pure, Except.pure]
        have hord' := ordered_solved hord j w
        have hrem : Index.Removal G { t with updates := solveVars G t.updates [(j, w)] } := by
          have h2 : RowGone G s₀ { boundRowGone { s₀ with queues := { s₀.queues with bound := rest } } i j
              with updates := solveVars G (boundRowGone { s₀ with
                queues := { s₀.queues with bound := rest } } i j).updates [(j, w)] } i :=
            ⟨hgone.constraint, hgone.columns, hgone.activity, hgone.cache, hgone.bounds,
              hgone.activityBounds, hgone.rowsGone, hgone.substitution, hgone.bound, hgone.boundSub,
              hgone.slack, hgone.activityQueue⟩
          refine Removal_of (h2.wf hs.toWF hG hi (by omega) (R := [(j, .solved w)]) rfl (by simp) ?_ ?_
            ?_).toRemoval ha.columns ha.constraint ?_ ha.merged.constraintsRemoved
          · intro k
            rw [hv]
            simp only [List.map_cons, List.map_nil, List.mem_singleton, Finset.mem_singleton]
            constructor
            · rintro rfl; exact ⟨rfl, hcol1⟩
            · exact fun h => h.1
          · exact ordered_solved hs.ordered j w
          · intro p hp k hk
            rw [List.mem_singleton] at hp
            subst hp
            exact hk.elim
          · show t.updates.removedVariables ++ _ = s₀.updates.removedVariables ++ _
            rw [hm.removedVariables]
        have hcounts : Index.Counts G { t with updates := solveVars G t.updates [(j, w)] } :=
          Counts_of ha.counts rfl rfl rfl rfl rfl rfl (fun k hk => Or.inl hk) rfl
        have hwf : Index.WF G { t with updates := solveVars G t.updates [(j, w)] } := ⟨hcounts, hrem⟩
        refine ⟨⟨hwf, ?_, fun k hk hk0 => hfixed k hk hk0⟩, (hequiv.refines hlive.subset).trans
          (refines_emptyColumn (by simp [solveVars]) hjl hempty hord' hwf.varsNodup hw hbest)⟩
        refine proper_of hproper (fun k hk => ?_) (fun k _ hkr => ⟨hkr, rfl⟩) fun _ _ _ => rfl
        rw [Updates.live_cons (u := t.updates) (j := j) (r := .solved w) rfl] at hk
        exact Finset.mem_of_mem_erase hk
    · rw [if_neg hc0]
      have hcj : t.counters.columns j = s₀.counters.columns j - 1 := by
        rw [ha.columns, hgone.columns]
        simp only [if_pos hjm]
      have hrem : t.Removal G := by
        refine Removal_of (hgone.wf hs.toWF hG hi (by omega) (R := []) (by
          show _ = s₀.updates.removedVariables ++ []
          rw [List.append_nil]; rfl) (by simp) ?_ hs.ordered (by simp)).toRemoval ha.columns
          ha.constraint ha.merged.removedVariables ha.merged.constraintsRemoved
        intro k
        rw [hv]
        simp only [List.map_nil, List.not_mem_nil, Finset.mem_singleton, false_iff, not_and]
        rintro rfl
        omega
      have hcounts : Index.Counts G { t with queues := { t.queues with slack :=
          (if t.counters.columns j = 1 ∧ costOf G j = 0 then [j] else []) ++ t.queues.slack } } := by
        refine Counts_of ha.counts rfl rfl rfl rfl rfl rfl (fun k hk => ?_) rfl
        rcases List.mem_append.1 hk with hk | hk
        · split at hk
          · rename_i h2
            rw [List.mem_singleton] at hk
            subst hk
            exact Or.inr ⟨hj.1, by omega, h2.2⟩
          · cases hk
        · exact Or.inl hk
      exact ⟨⟨⟨hcounts, Removal_of hrem rfl rfl rfl rfl⟩, hproper, hfixed⟩, (hequiv.refines hlive.subset)⟩

end

end Presolve

end Relp
