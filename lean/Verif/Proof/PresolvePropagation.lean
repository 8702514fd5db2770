import Verif.Proof.PresolveSlack

/-!
# Domain propagation
-/

namespace Relp

open Finset

theorem BoundDirection.flip_flip (d : BoundDirection) : d.flip.flip = d := by cases d <;> rfl

theorem BoundDirection.flip_times (d : BoundDirection) (c : ℚ) : d.flip.times c = (d.times c).flip := by
  unfold BoundDirection.times
  split <;> rfl

theorem BoundDirection.flip_ne (d : BoundDirection) : d.flip ≠ d := by cases d <;> simp [flip]

/-- Multiplication with a coefficient. -/
theorem BoundDirection.respects_times {d : BoundDirection} {c : ℚ} (hc : c ≠ 0) (b x : ℚ) :
    (d.times c).Respects (some b) x ↔ d.Respects (some (c * b)) (c * x) := by
  rcases lt_or_gt_of_ne hc with h | h
  · unfold BoundDirection.times
    rw [if_neg (not_lt.2 h.le)]
    cases d
    · exact (mul_le_mul_left_of_neg h).symm
    · exact (mul_le_mul_left_of_neg h).symm
  · unfold BoundDirection.times
    rw [if_pos h]
    cases d
    · exact (mul_le_mul_iff_of_pos_left h).symm
    · exact (mul_le_mul_iff_of_pos_left h).symm

theorem BoundDirection.respects_sum {d : BoundDirection} {S : Finset ℕ} {f g : ℕ → ℚ}
    (h : ∀ k ∈ S, d.Respects (some (f k)) (g k)) :
    d.Respects (some (∑ k ∈ S, f k)) (∑ k ∈ S, g k) := by
  cases d
  · exact Finset.sum_le_sum h
  · exact Finset.sum_le_sum h

theorem BoundDirection.respects_flip {d : BoundDirection} {a b : ℚ} :
    d.flip.Respects (some a) b ↔ d.Respects (some b) a := by
  cases d <;> exact Iff.rfl

theorem BoundDirection.respects_antisymm {d : BoundDirection} {a b : ℚ}
    (h1 : d.Respects (some a) b) (h2 : d.Respects (some b) a) : b = a := by
  cases d
  · exact le_antisymm h2 h1
  · exact le_antisymm h1 h2

theorem BoundDirection.respects_refl (d : BoundDirection) (a : ℚ) : d.Respects (some a) a := by
  cases d <;> exact le_refl (α := ℚ) a

theorem BoundDirection.respects_add {d : BoundDirection} {a b c : ℚ} :
    d.Respects (some (a + c)) (b + c) ↔ d.Respects (some a) b := by
  cases d
  · exact add_le_add_iff_right c
  · exact add_le_add_iff_right c

theorem BoundDirection.Respects.trans {d : BoundDirection} {a b c : ℚ}
    (h1 : d.Respects (some a) b) (h2 : d.Respects (some b) c) : d.Respects (some a) c := by
  cases d
  · exact le_trans (α := ℚ) h1 h2
  · exact le_trans (α := ℚ) h2 h1

namespace Presolve

variable {G : GeneralForm}

/-! ### The activity bound of a row -/

section

variable {s : Index} {i : ℕ} {d : BoundDirection}

theorem bound_of_count (hs : s.Counts G) (hi : i < G.constraintTypes.length)
    (hi0 : s.counters.constraint i ≠ 0) (h0 : s.counters.activity i d = 0) {k : ℕ}
    (hk : k ∈ varsOf G s.counters i) :
    ∃ b, s.updates.variableBound G k (d.times (coef G i k)) = some b := by
  cases hb : s.updates.variableBound G k (d.times (coef G i k)) with
  | some b => exact ⟨b, rfl⟩
  | none =>
    have h1 := hs.activity i hi hi0 d
    rw [h0] at h1
    have : k ∈ missing G s i d := Finset.mem_filter.2 ⟨hk, hb⟩
    rw [Finset.card_eq_zero.1 h1.symm] at this
    exact absurd this (Finset.notMem_empty _)

/-- The value of the row is on the right side of the activity bound. -/
theorem respects_activity (hs : s.WF G) (hi : i < G.constraintTypes.length)
    (hi0 : s.counters.constraint i ≠ 0) (h0 : s.counters.activity i d = 0) {x : ℕ → ℚ}
    (hx : s.updates.BoundsHold G x) :
    d.Respects (some (activityAt G s i d)) (s.updates.value G i x) := by
  rw [hs.value_eq]
  unfold activityAt
  refine BoundDirection.respects_sum fun k hk => ?_
  obtain ⟨b, hb⟩ := bound_of_count hs.toCounts hi hi0 h0 hk
  have hk' := mem_varsOf.1 hk
  have := hx k (hs.mem_live.2 ⟨hk'.1, hk'.2.2⟩) (d.times (coef G i k))
  rw [hb] at this ⊢
  exact (BoundDirection.respects_times hk'.2.1 b (x k)).1 this

/-- One variable can move away from its bound by as much as the others leave. -/
theorem respects_residual (hs : s.WF G) (hi : i < G.constraintTypes.length)
    (hi0 : s.counters.constraint i ≠ 0) (h0 : s.counters.activity i d = 0) {x : ℕ → ℚ}
    (hx : s.updates.BoundsHold G x) {j : ℕ} (hj : j ∈ varsOf G s.counters i) {b : ℚ}
    (hb : s.updates.variableBound G j (d.times (coef G i j)) = some b) :
    d.Respects (some (activityAt G s i d - coef G i j * b + coef G i j * x j))
      (s.updates.value G i x) := by
  rw [hs.value_eq]
  unfold activityAt
  rw [← Finset.add_sum_erase _ _ hj, ← Finset.add_sum_erase _ (fun j => coef G i j * x j) hj,
    hb]
  have : d.Respects
      (some (∑ k ∈ (varsOf G s.counters i).erase j,
        coef G i k * (s.updates.variableBound G k (d.times (coef G i k))).getD 0))
      (∑ k ∈ (varsOf G s.counters i).erase j, coef G i k * x k) := by
    refine BoundDirection.respects_sum fun k hk => ?_
    have hk := Finset.mem_of_mem_erase hk
    obtain ⟨b, hb⟩ := bound_of_count hs.toCounts hi hi0 h0 hk
    have hk' := mem_varsOf.1 hk
    have := hx k (hs.mem_live.2 ⟨hk'.1, hk'.2.2⟩) (d.times (coef G i k))
    rw [hb] at this ⊢
    exact (BoundDirection.respects_times hk'.2.1 b (x k)).1 this
  rw [← BoundDirection.respects_add (c := coef G i j * x j)] at this
  rw [add_comm (coef G i j * x j) (∑ k ∈ _, _)]
  convert this using 2
  simp only [Option.getD_some]
  ring

theorem mapM_ok {α β : Type} {f : α → Run β} {g : α → β} (l : List α) (h : ∀ a ∈ l, f a = .ok (g a)) :
    l.mapM f = .ok (l.map g) := by
  induction l with
  | nil => rfl
  | cons a l ih =>
    rw [List.mapM_cons, h a (by simp), ih fun b hb => h b (by simp [hb])]
    rfl

theorem computeActivityBound_eq (hG : G.Consistent) (hs : s.Counts G)
    (hi : i < G.constraintTypes.length)
    (hi0 : s.counters.constraint i ≠ 0) (h0 : s.counters.activity i d = 0) :
    computeActivityBound G s i d = .ok (activityAt G s i d) := by
  have ht := activeRow_tuples hG s.counters hi
  unfold computeActivityBound
  rw [mapM_ok (g := fun p => p.2 * (s.updates.variableBound G p.1 (d.times p.2)).getD 0)]
  · simp only [bind, Except.bind, pure, Except.pure]
    rw [ht.sum]
    rfl
  · intro p hp
    obtain ⟨h1, h2⟩ := (ht.mem p).1 hp
    obtain ⟨b, hb⟩ := bound_of_count hs hi hi0 h0 h1
    rw [h2, hb]
    rfl

/-- The state with the activity bound stored. -/
theorem activityBoundIfNeeded_eq (hG : G.Consistent) (hs : s.Counts G)
    (hi : i < G.constraintTypes.length)
    (hi0 : s.counters.constraint i ≠ 0) (h0 : s.counters.activity i d = 0)
    (ha : AccurateAt G s i d) :
    activityBoundIfNeeded G s i d = .ok ({ s with activityBounds :=
      (insertAt2 s.activityBounds i d (some (activityAt G s i d))) }, activityAt G s i d) := by
  unfold activityBoundIfNeeded
  cases h : s.activityBounds i d with
  | none =>
    simp only [computeActivityBound_eq hG hs hi hi0 h0, bind, Except.bind, pure, Except.pure]
  | some b =>
    have := ha b h
    subst this
    have hsame : insertAt2 s.activityBounds i d (some (activityAt G s i d)) = s.activityBounds := by
      funext a e
      unfold insertAt2
      split
      · rename_i h'
        rw [h'.1, h'.2, h]
      · rfl
    rw [hsame]
    rfl

/-- Storing the activity bound does not matter otherwise. -/
theorem fit_store (hs : s.Fit G) (h0 : s.counters.activity i d = 0) (b : ℚ) :
    ({ s with activityBounds := insertAt2 s.activityBounds i d (some b) } : Index).Fit G := by
  refine ⟨⟨⟨hs.rowCount, hs.colCount, hs.activity, fun k hk hk0 e he => ?_, hs.disjoint,
    hs.substitutionQueue, hs.boundQueue, hs.allBounds, hs.slackQueue, hs.activityQueue⟩,
    ⟨hs.rowsRemoved, hs.varsRemoved, hs.rowsRange, hs.varsRange, hs.rowsNodup, hs.varsNodup,
      hs.ordered, hs.mentioned⟩⟩, hs.proper, hs.fixed⟩
  by_cases h : k = i ∧ e = d
  · rw [h.1, h.2]; exact h0
  · refine hs.cache k hk hk0 e ?_
    show s.activityBounds k e ≠ none
    rw [← insertAt2_ne s.activityBounds (some b) h]
    exact he

end

/-! ### One new bound -/

/-- The same rows and variables remain, the bounds are at least as tight, and no solution is lost. -/
structure Narrower (G : GeneralForm) (s t : Index) : Prop where
  fit : t.Fit G
  equivalent : Equivalent G s.updates t.updates
  columns : t.counters.columns = s.counters.columns
  constraint : t.counters.constraint = s.counters.constraint
  removed : t.updates.removedVariables = s.updates.removedVariables
  holds : ∀ x, t.updates.RowsHold G x → t.updates.BoundsHold G x →
    s.updates.RowsHold G x ∧ s.updates.BoundsHold G x

theorem Narrower.refl {s : Index} (h : s.Fit G) : Narrower G s s :=
  ⟨h, Equivalent.refl _, rfl, rfl, rfl, fun _ h1 h2 => ⟨h1, h2⟩⟩

theorem Narrower.trans {s t r : Index} (h : Narrower G s t) (h' : Narrower G t r) : Narrower G s r :=
  ⟨h'.fit, h.equivalent.trans h'.equivalent, h'.columns.trans h.columns,
    h'.constraint.trans h.constraint, h'.removed.trans h.removed, fun x h1 h2 =>
      h.holds x (h'.holds x h1 h2).1 (h'.holds x h1 h2).2⟩

theorem Narrower.refines {s t : Index} (h : Narrower G s t) : Refines G s.updates t.updates :=
  h.equivalent.refines (live_congr h.removed).subset

theorem fixed_mono {u v : Updates} {k : ℕ} (h : (u.isVariableFixed G k).isSome)
    (hw : ∀ x, v.Within G k x → u.Within G k x)
    (hc : ∀ l ∈ v.variableBound G k .lower, ∀ r ∈ v.variableBound G k .upper, l ≤ r) :
    (v.isVariableFixed G k).isSome :=
  fixed_of_pinned ((pinned_of_fixed h).mono hw) hc

theorem BoundUpdated.constraintType {u v : Updates} {j : ℕ} {d : BoundDirection} {new : ℚ}
    {change : BoundChange} (h : BoundUpdated G u j d new v change) (k : ℕ) :
    v.constraintType G k = u.constraintType G k := by
  unfold Updates.constraintType; rw [h.constraints]

theorem BoundUpdated.rhs {u v : Updates} {j : ℕ} {d : BoundDirection} {new : ℚ}
    {change : BoundChange} (h : BoundUpdated G u j d new v change) (k : ℕ) :
    v.rhs G k = u.rhs G k := by
  unfold Updates.rhs; rw [h.b]

/-- Bounds do not cross if the new one is on the right side of the other one. -/
theorem BoundUpdated.proper {u v : Updates} {j : ℕ} {d : BoundDirection} {new : ℚ}
    {change : BoundChange} (h : BoundUpdated G u j d new v change) (hp : Proper G u)
    (hcross : ∀ b, u.variableBound G j d.flip = some b → d.flip.Respects (some b) new) :
    Proper G v := by
  have hlive := live_congr (G := G) h.removedVariables
  refine ⟨fun k hk l hl r hr => ?_, fun k hk hkr r hr => ?_⟩
  · rw [hlive] at hk
    by_cases hkj : k = j
    · subst hkj
      have hold := hp.bounds k hk
      have hval := h.value
      cases d with
      | lower =>
        rw [h.other k .upper (by simp)] at hr
        by_cases hc : change = .none
        · rw [if_pos hc] at hval
          rw [hval] at hl
          exact hold l hl r hr
        · rw [if_neg hc] at hval
          rw [hval] at hl
          cases hl
          exact hcross r hr
      | upper =>
        rw [h.other k .lower (by simp)] at hl
        by_cases hc : change = .none
        · rw [if_pos hc] at hval
          rw [hval] at hr
          exact hold l hl r hr
        · rw [if_neg hc] at hval
          rw [hval] at hr
          cases hr
          exact hcross l hl
    · rw [h.other k _ fun h' => hkj h'.1] at hl hr
      exact hp.bounds k hk l hl r hr
  · rw [h.constraintType] at hr
    rw [h.constraintsRemoved] at hkr
    exact hp.ranges k hk hkr r hr

/-- A new bound that all solutions respect. -/
theorem BoundUpdated.equivalent {u v : Updates} {j : ℕ} {d : BoundDirection} {new : ℚ}
    {change : BoundChange} (h : BoundUpdated G u j d new v change)
    (himp : ∀ x, u.RowsHold G x → u.BoundsHold G x → j ∈ u.live G → d.Respects (some new) (x j)) :
    Equivalent G u v := by
  refine equivalent_bounds h.removedVariables.symm h.fixedCost.symm (fun x => ?_) (fun k hk e y hy => ?_)
    (fun x h1 h2 k hk e => ?_)
  · unfold Updates.RowsHold
    rw [h.constraintsRemoved]
    simp only [h.constraintType, h.rhs, value_congr h.removedVariables]
  · by_cases hke : k = j ∧ e = d
    · rw [hke.1, hke.2] at hy ⊢
      exact ((h.respects y).1 hy).1
    · rw [h.other k e hke] at hy
      exact hy
  · by_cases hke : k = j ∧ e = d
    · rw [hke.1, hke.2]
      refine (h.respects _).2 ⟨h2 j (hke.1 ▸ hk) d, himp x h1 h2 (hke.1 ▸ hk)⟩
    · rw [h.other k e hke]
      exact h2 k hk e

theorem BoundUpdated.holds {u v : Updates} {j : ℕ} {d : BoundDirection} {new : ℚ}
    {change : BoundChange} (h : BoundUpdated G u j d new v change) (x : ℕ → ℚ)
    (h1 : v.RowsHold G x) (h2 : v.BoundsHold G x) : u.RowsHold G x ∧ u.BoundsHold G x := by
  constructor
  · unfold Updates.RowsHold at h1 ⊢
    rw [h.constraintsRemoved] at h1
    simp only [h.constraintType, h.rhs, value_congr h.removedVariables] at h1
    exact h1
  · intro k hk e
    have := h2 k (by rw [live_congr h.removedVariables]; exact hk) e
    by_cases hke : k = j ∧ e = d
    · rw [hke.1, hke.2] at this ⊢
      exact ((h.respects _).1 this).1
    · rw [h.other k e hke] at this
      exact this

theorem boundStep (hG : G.Consistent) {s : Index} (hs : s.Fit G) {v : Updates} {j : ℕ}
    {d : BoundDirection} {new : ℚ} {change : BoundChange}
    (hb : BoundUpdated G s.updates j d new v change) (hj : j < G.vars.length)
    (hj0 : s.counters.columns j ≠ 0)
    (himp : ∀ x, s.updates.RowsHold G x → s.updates.BoundsHold G x → d.Respects (some new) (x j))
    (hcross : ∀ b, s.updates.variableBound G j d.flip = some b → d.flip.Respects (some b) new) :
    ∃ t, afterBoundChange G { s with updates := v } j d change = .ok t ∧ Narrower G s t ∧
      t.updates = v := by
  obtain ⟨t, e, ha⟩ := afterBoundChange_spec hG hs.toCounts hb hj fun _ _ => hj0
  have hproper := hb.proper hs.proper hcross
  refine ⟨t, e, ⟨⟨⟨ha.counts, Removal_of hs.toRemoval ha.columns ha.constraint
    (by rw [ha.updates]; exact hb.removedVariables) (by rw [ha.updates]; exact hb.constraintsRemoved)⟩,
    by rw [ha.updates]; exact hproper, fun k hk hk0 => ?_⟩, ?_, ha.columns, ha.constraint,
    by rw [ha.updates]; exact hb.removedVariables, by rw [ha.updates]; exact hb.holds⟩,
    ha.updates⟩
  · rw [ha.columns] at hk0
    rw [ha.updates]
    have hold : k ∈ s.queues.substitution → (v.isVariableFixed G k).isSome := by
      intro hk
      have hkn := hs.substitutionQueue k hk
      refine fixed_mono (hs.fixed k hk hk0) (fun x hx => ?_) (hproper.bounds k ?_)
      · by_cases hkj : k = j
        · subst hkj
          exact ((hb.within x).1 hx).1
        · intro e
          rw [← hb.other k e fun h => hkj h.1]
          exact hx e
      · rw [live_congr hb.removedVariables, hs.mem_live]
        exact ⟨hkn, hk0⟩
    rcases ha.substitution with h | ⟨h, h1, _⟩
    · rw [h] at hk; exact hold hk
    · rw [h, List.mem_cons] at hk
      rcases hk with rfl | hk
      · exact h1
      · exact hold hk
  · rw [ha.updates]
    exact hb.equivalent fun x h1 h2 _ => himp x h1 h2

/-! ### The side of a row that bounds variables -/

/-- The right-hand side that limits the left-hand side in the other direction. -/
def ruleRhs (t : ConstraintType) (rhs : ℚ) (d : BoundDirection) : Option ℚ :=
  match t, d with
  | .equal, _ => some rhs
  | .range _, .lower => some rhs
  | .range r, .upper => some (rhs - r)
  | .less, .lower => some rhs
  | .less, .upper => none
  | .greater, .lower => none
  | .greater, .upper => some rhs

theorem variableRuleRhs_eq (s : Index) (i : ℕ) (d : BoundDirection) :
    variableRuleRhs G s i d = ruleRhs (s.updates.constraintType G i) (s.updates.rhs G i) d := by
  unfold variableRuleRhs ruleRhs
  cases s.updates.constraintType G i <;> cases d <;> rfl

theorem ruleRhs_respects {t : ConstraintType} {rhs ρ V : ℚ} {d : BoundDirection}
    (h : ruleRhs t rhs d = some ρ) (hV : t.Holds rhs V) : d.Respects (some V) ρ := by
  cases t <;> cases d <;> simp [ruleRhs] at h <;> subst h <;>
    simp only [ConstraintType.Holds, BoundDirection.Respects] at hV ⊢ <;> linarith

/-! ### What the activity bound says about a row -/

theorem constraintUpdate_spec {d : BoundDirection} {t : ConstraintType} {rhs L : ℚ}
    (hr : ∀ r, t = .range r → 0 ≤ r) :
    match constraintUpdate d t rhs L with
    | .error (.verdict r) => r = .infeasible ∧ ∀ V, d.Respects (some L) V → ¬t.Holds rhs V
    | .error (.abort a) => a = .unreachable ∧ d = .lower ∧ (∃ r, t = .range r) ∧ rhs = L
    | .error .outOfFuel => False
    | .ok none => ∀ ρ, ruleRhs t rhs d = some ρ → d.Respects (some L) ρ
    | .ok (some .remove) => ruleRhs t rhs d = none ∧ ∀ V, d.Respects (some L) V → t.Holds rhs V
    | .ok (some (.replace t' shift)) => (∀ r, t' ≠ .range r) ∧
        (∀ V, d.Respects (some L) V → (t.Holds rhs V ↔ t'.Holds (rhs + shift) V)) ∧
        ∀ ρ, ruleRhs t' (rhs + shift) d = some ρ → d.Respects (some L) ρ
    | .ok (some .setVariablesToBound) =>
        ∀ V, d.Respects (some L) V → (t.Holds rhs V ↔ V = L) := by
  cases d
  · cases t with
    | equal =>
      simp only [constraintUpdate]
      split_ifs with h1 h2
      · exact ⟨rfl, fun V hV h => by
          simp only [ConstraintType.Holds, BoundDirection.Respects] at hV h; linarith⟩
      · intro V hV
        simp only [ConstraintType.Holds, BoundDirection.Respects] at hV ⊢
        rw [h2]
      · intro ρ hρ
        simp only [ruleRhs, Option.some.injEq] at hρ
        simp only [BoundDirection.Respects]
        linarith
    | less =>
      simp only [constraintUpdate]
      split_ifs with h1 h2
      · exact ⟨rfl, fun V hV h => by
          simp only [ConstraintType.Holds, BoundDirection.Respects] at hV h; linarith⟩
      · intro V hV
        simp only [ConstraintType.Holds, BoundDirection.Respects] at hV ⊢
        constructor
        · intro h; linarith
        · intro h; linarith
      · intro ρ hρ
        simp only [ruleRhs, Option.some.injEq] at hρ
        simp only [BoundDirection.Respects]
        linarith
    | greater =>
      simp only [constraintUpdate]
      split_ifs with h1
      · exact ⟨by simp only [ruleRhs], fun V hV => by
          simp only [ConstraintType.Holds, BoundDirection.Respects] at hV ⊢; linarith⟩
      · intro ρ hρ
        simp [ruleRhs] at hρ
    | range r =>
      have hr := hr r rfl
      simp only [constraintUpdate]
      split_ifs with h1 h2 h3
      · exact ⟨rfl, fun V hV h => by
          simp only [ConstraintType.Holds, BoundDirection.Respects] at hV h; linarith [h.2]⟩
      · exact ⟨by trivial, by trivial, ⟨r, rfl⟩, h2⟩
      · intro ρ hρ
        simp only [ruleRhs, Option.some.injEq] at hρ
        simp only [BoundDirection.Respects]
        linarith
      · refine ⟨by simp, fun V hV => ?_, fun ρ hρ => ?_⟩
        · simp only [ConstraintType.Holds, BoundDirection.Respects, add_zero] at hV ⊢
          constructor
          · exact fun h => h.2
          · exact fun h => ⟨by linarith, h⟩
        · simp only [ruleRhs, Option.some.injEq] at hρ
          simp only [BoundDirection.Respects]
          linarith
  · cases t with
    | equal =>
      simp only [constraintUpdate]
      split_ifs with h1 h2
      · exact ⟨rfl, fun V hV h => by
          simp only [ConstraintType.Holds, BoundDirection.Respects] at hV h; linarith⟩
      · intro V hV
        simp only [ConstraintType.Holds, BoundDirection.Respects] at hV ⊢
        rw [h2]
      · intro ρ hρ
        simp only [ruleRhs, Option.some.injEq] at hρ
        simp only [BoundDirection.Respects]
        linarith
    | greater =>
      simp only [constraintUpdate]
      split_ifs with h1 h2
      · exact ⟨rfl, fun V hV h => by
          simp only [ConstraintType.Holds, BoundDirection.Respects] at hV h; linarith⟩
      · intro V hV
        simp only [ConstraintType.Holds, BoundDirection.Respects] at hV ⊢
        constructor
        · intro h; linarith
        · intro h; linarith
      · intro ρ hρ
        simp only [ruleRhs, Option.some.injEq] at hρ
        simp only [BoundDirection.Respects]
        linarith
    | less =>
      simp only [constraintUpdate]
      split_ifs with h1
      · exact ⟨by simp only [ruleRhs], fun V hV => by
          simp only [ConstraintType.Holds, BoundDirection.Respects] at hV ⊢; linarith⟩
      · intro ρ hρ
        simp [ruleRhs] at hρ
    | range r =>
      have hr := hr r rfl
      have hreplace : L ≤ rhs → rhs - r ≤ L → (∀ q, ConstraintType.greater ≠ .range q) ∧
          (∀ V, BoundDirection.upper.Respects (some L) V →
            ((ConstraintType.range r).Holds rhs V ↔ ConstraintType.greater.Holds (rhs + -r) V)) ∧
          ∀ ρ, ruleRhs .greater (rhs + -r) .upper = some ρ →
            BoundDirection.upper.Respects (some L) ρ := by
        intro h1 h2
        refine ⟨by simp, fun V hV => ?_, fun ρ hρ => ?_⟩
        · simp only [ConstraintType.Holds, BoundDirection.Respects] at hV ⊢
          constructor
          · exact fun h => by linarith [h.1]
          · exact fun h => ⟨by linarith, by linarith⟩
        · simp only [ruleRhs, Option.some.injEq] at hρ
          simp only [BoundDirection.Respects]
          linarith
      simp only [constraintUpdate]
      split_ifs with h1 h2 h3 h4
      · exact hreplace (by linarith) (by linarith)
      · exact ⟨rfl, fun V hV h => by
          simp only [ConstraintType.Holds, BoundDirection.Respects] at hV h; linarith [h.1]⟩
      · intro V hV
        simp only [ConstraintType.Holds, BoundDirection.Respects] at hV ⊢
        constructor
        · intro h; linarith [h.1]
        · intro h; exact ⟨by linarith, by linarith⟩
      · exact hreplace (by linarith) (by linarith)
      · intro ρ hρ
        simp only [ruleRhs, Option.some.injEq] at hρ
        simp only [BoundDirection.Respects]
        linarith

/-! ### Bounds from the residual activity -/

section

variable {s : Index} {i : ℕ} {d : BoundDirection} {ρ : ℚ}

theorem variablePart_spec (hG : G.Consistent) (hs : s.Fit G) (hi : i < G.constraintTypes.length)
    (hi0 : s.counters.constraint i ≠ 0) (h0 : s.counters.activity i d = 0)
    (hρ : ∀ x, s.updates.RowsHold G x → s.updates.BoundsHold G x →
      d.Respects (some (s.updates.value G i x)) ρ)
    (hL : d.Respects (some (activityAt G s i d)) ρ) (l : List (ℕ × ℚ)) :
    ∀ (t : Index) (c : Change), (l.map (·.1)).Nodup →
      (∀ p ∈ l, p.1 ∈ varsOf G s.counters i ∧ p.2 = coef G i p.1) → Narrower G s t →
      (∀ k ∈ varsOf G s.counters i, t.updates.variableBound G k (d.times (coef G i k)) =
        s.updates.variableBound G k (d.times (coef G i k))) →
      ∃ r c', l.foldlM (variableStep G ρ (activityAt G s i d) d) (t, c) = .ok (r, c') ∧
        Narrower G s r := by
  induction l with
  | nil => exact fun t c _ _ ht _ => ⟨t, c, rfl, ht⟩
  | cons p l ih =>
    intro t c hn hmem ht hsame
    obtain ⟨hp, hc⟩ := hmem p (by simp)
    have hp' := mem_varsOf.1 hp
    rw [List.map_cons, List.nodup_cons] at hn
    obtain ⟨b, hb⟩ := bound_of_count hs.toCounts hi hi0 h0 hp
    have hb' : t.updates.variableBound G p.1 (d.times p.2) = some b := by
      rw [hc, hsame p.1 hp, hb]
    have hc0 : p.2 ≠ 0 := hc ▸ hp'.2.1
    have hbu := updateActivityVariableBound_spec (G := G) t.updates p.1 (d.flip.times p.2)
      ((ρ - (activityAt G s i d - p.2 * b)) / p.2) ht.fit.disjoint
    have hnew : ∀ y, (d.flip.times p.2).Respects
        (some ((ρ - (activityAt G s i d - p.2 * b)) / p.2)) y ↔
        d.Respects (some (activityAt G s i d - p.2 * b + p.2 * y)) ρ := by
      intro y
      rw [BoundDirection.respects_times hc0, mul_div_cancel₀ _ hc0, BoundDirection.respects_flip,
        ← BoundDirection.respects_add (c := activityAt G s i d - p.2 * b)]
      rw [sub_add_cancel, add_comm]
    obtain ⟨r, e, hr, hru⟩ := boundStep hG ht.fit hbu hp'.1 (by rw [ht.columns]; exact hp'.2.2)
      (fun x h1 h2 => by
        obtain ⟨h3, h4⟩ := ht.holds x h1 h2
        rw [hnew, hc]
        exact (respects_residual hs.toWF hi hi0 h0 h4 hp hb).trans (hρ x h3 h4))
      (fun a ha => by
        rw [BoundDirection.flip_times, BoundDirection.flip_flip, hb'] at ha
        cases ha
        rw [BoundDirection.respects_flip, hnew, sub_add_cancel]
        exact hL)
    have hsame' : ∀ k ∈ varsOf G s.counters i, r.updates.variableBound G k (d.times (coef G i k)) =
        s.updates.variableBound G k (d.times (coef G i k)) := by
      intro k hk
      rw [hru, hbu.other, hsame k hk]
      rintro ⟨rfl, h⟩
      rw [BoundDirection.flip_times, hc] at h
      exact BoundDirection.flip_ne _ h.symm
    have hstep : ∃ c', variableStep G ρ (activityAt G s i d) d (t, c) p = .ok (r, c') := by
      unfold variableStep
      simp only [hb', unwrap, bind, Except.bind, e, pure, Except.pure]
      exact ⟨_, rfl⟩
    obtain ⟨c', hstep⟩ := hstep
    rw [List.foldlM_cons, hstep]
    exact ih r c' hn.2 (fun q hq => hmem q (by simp [hq])) (ht.trans hr) hsame'

theorem Correct.of_narrower {t : Index} (h : Narrower G s t) {A : Abort → Prop} {r : Run Index}
    (hr : Correct G t A r) : Correct G s A r := by
  match r, hr with
  | .ok _, hr => exact ⟨hr.1, h.refines.trans hr.2⟩
  | .error (.verdict _), hr => exact h.refines.verdict hr
  | .error (.abort _), hr => exact hr

/-! ### One bound is missing -/

theorem filterMap_sum (f : ℕ × ℚ → Option ℚ) (l : List (ℕ × ℚ)) :
    (l.filterMap fun p => (f p).map fun b => p.2 * b).sum = (l.map fun p => p.2 * (f p).getD 0).sum := by
  induction l with
  | nil => rfl
  | cons p l ih =>
    rw [List.filterMap_cons, List.map_cons, List.sum_cons, ← ih]
    cases f p with
    | none => simp
    | some b => simp

theorem createVariableBound_spec (hG : G.Consistent) (hs : s.Fit G) (hi : i < G.constraintTypes.length)
    (hi0 : s.counters.constraint i ≠ 0) (h1 : s.counters.activity i d = 1) :
    ∃ r c, createVariableBound G s i d = .ok (r, c) ∧ Narrower G s r := by
  have ht := activeRow_tuples hG s.counters hi
  unfold createVariableBound
  rw [variableRuleRhs_eq]
  cases hρ : ruleRhs (s.updates.constraintType G i) (s.updates.rhs G i) d with
  | none => exact ⟨s, _, rfl, Narrower.refl hs⟩
  | some ρ =>
    obtain ⟨j, hj⟩ := Finset.card_eq_one.1 ((hs.activity i hi hi0 d).symm.trans h1)
    have hjm : j ∈ missing G s i d := by rw [hj]; simp
    have hjv := (Finset.mem_filter.1 hjm).1
    have hjb : s.updates.variableBound G j (d.times (coef G i j)) = none := (Finset.mem_filter.1 hjm).2
    have hj' := mem_varsOf.1 hjv
    have hfind : (activeRow G s.counters i).find? (fun p =>
        (s.updates.variableBound G p.1 (d.times p.2)).isNone) = some (j, coef G i j) := by
      cases hf : (activeRow G s.counters i).find? (fun p =>
        (s.updates.variableBound G p.1 (d.times p.2)).isNone) with
      | none =>
        rw [List.find?_eq_none] at hf
        have := hf (j, coef G i j) ((ht.mem _).2 ⟨hjv, rfl⟩)
        rw [hjb] at this
        exact absurd rfl this
      | some p =>
        have h2 := List.find?_some hf
        obtain ⟨h3, h4⟩ := (ht.mem p).1 (List.mem_of_find?_eq_some hf)
        rw [h4] at h2
        have : p.1 ∈ missing G s i d :=
          Finset.mem_filter.2 ⟨h3, Option.isNone_iff_eq_none.1 h2⟩
        rw [hj, Finset.mem_singleton] at this
        exact congrArg some (Prod.ext this (by rw [h4, this]))
    have htotal : ((activeRow G s.counters i).filterMap fun p =>
        (s.updates.variableBound G p.1 (d.times p.2)).map fun bound => p.2 * bound).sum =
        activityAt G s i d := by
      rw [filterMap_sum, ht.sum]
      rfl
    have hbu := updateActivityVariableBound_spec (G := G) s.updates j (d.flip.times (coef G i j))
      ((ρ - activityAt G s i d) / coef G i j) hs.disjoint
    have hir : i ∉ s.updates.constraintsRemoved := (hs.row_active hi).2 hi0
    obtain ⟨r, e, hr, _⟩ := boundStep hG hs hbu hj'.1 hj'.2.2
      (fun x h2 h3 => by
        rw [BoundDirection.respects_times hj'.2.1, mul_div_cancel₀ _ hj'.2.1,
          BoundDirection.respects_flip, ← BoundDirection.respects_add (c := activityAt G s i d),
          sub_add_cancel]
        refine BoundDirection.Respects.trans ?_ (ruleRhs_respects hρ (h2 i hi hir))
        rw [hs.value_eq]
        unfold activityAt
        rw [← Finset.add_sum_erase _ _ hjv, ← Finset.add_sum_erase _ (fun j => coef G i j * x j) hjv,
          hjb, Option.getD_none, mul_zero, zero_add, add_comm, add_comm (coef G i j * x j),
          BoundDirection.respects_add]
        refine BoundDirection.respects_sum fun k hk => ?_
        rw [Finset.mem_erase] at hk
        have hk' := mem_varsOf.1 hk.2
        cases hb : s.updates.variableBound G k (d.times (coef G i k)) with
        | none =>
          have : k ∈ missing G s i d := Finset.mem_filter.2 ⟨hk.2, hb⟩
          rw [hj, Finset.mem_singleton] at this
          exact absurd this hk.1
        | some b =>
          have := h3 k (hs.mem_live.2 ⟨hk'.1, hk'.2.2⟩) (d.times (coef G i k))
          rw [hb] at this
          exact (BoundDirection.respects_times hk'.2.1 b (x k)).1 this)
      (fun a ha => by
        rw [BoundDirection.flip_times, BoundDirection.flip_flip, hjb] at ha
        cases ha)
    simp only [htotal, hfind, unwrap, bind, Except.bind, e, pure, Except.pure]
    exact ⟨r, _, rfl, hr⟩

/-! ### Changing and removing the row -/

/-- A row is replaced by one that is the same for values within bounds. -/
theorem replaceRow (hs : s.Fit G) (hi : i < G.constraintTypes.length)
    (hi0 : s.counters.constraint i ≠ 0) {t : ConstraintType} {shift : ℚ} (ht : ∀ r, t ≠ .range r)
    (h : ∀ x, s.updates.BoundsHold G x →
      ((s.updates.constraintType G i).Holds (s.updates.rhs G i) (s.updates.value G i x) ↔
        t.Holds (s.updates.rhs G i + shift) (s.updates.value G i x))) :
    Narrower G s { s with updates :=
      ({ s.updates with constraints := insertAt s.updates.constraints i (some t) }).changeB G i shift } := by
  let v : Updates :=
    ({ s.updates with constraints := insertAt s.updates.constraints i (some t) }).changeB G i shift
  have htype : v.constraintType G i = t := by
    show Option.getD (insertAt _ _ _ _) _ = t
    rw [insertAt_same]
    rfl
  have hrhs : v.rhs G i = s.updates.rhs G i + shift := by
    show Option.getD (insertAt _ _ _ _) _ = _
    rw [insertAt_same]
    rfl
  have htype' : ∀ k ≠ i, v.constraintType G k = s.updates.constraintType G k := by
    intro k hk
    show Option.getD (insertAt _ _ _ _) _ = _
    rw [insertAt_ne _ _ hk]
    rfl
  have hrhs' : ∀ k ≠ i, v.rhs G k = s.updates.rhs G k := by
    intro k hk
    show Option.getD (insertAt _ _ _ _) _ = _
    rw [insertAt_ne _ _ hk]
    rfl
  have hir : i ∉ s.updates.constraintsRemoved := (hs.row_active hi).2 hi0
  have hiff : ∀ x, s.updates.BoundsHold G x → (s.updates.RowsHold G x ↔ v.RowsHold G x) := by
    intro x hx
    constructor
    · intro hr k hk hkr
      by_cases hki : k = i
      · subst hki
        rw [htype, hrhs]
        exact (h x hx).1 (hr k hk hkr)
      · rw [htype' k hki, hrhs' k hki]
        exact hr k hk hkr
    · intro hr k hk hkr
      by_cases hki : k = i
      · subst hki
        have := hr k hk hkr
        rw [htype, hrhs] at this
        exact (h x hx).2 this
      · have := hr k hk hkr
        rw [htype' k hki, hrhs' k hki] at this
        exact this
  refine ⟨⟨⟨⟨hs.rowCount, hs.colCount, hs.activity, hs.cache, hs.disjoint,
    hs.substitutionQueue, hs.boundQueue, hs.allBounds, hs.slackQueue, hs.activityQueue⟩,
    ⟨hs.rowsRemoved, hs.varsRemoved, hs.rowsRange, hs.varsRange, hs.rowsNodup, hs.varsNodup,
      hs.ordered, hs.mentioned⟩⟩, ⟨hs.proper.bounds, fun k hk hkr r hr => ?_⟩, hs.fixed⟩,
      equivalent_of rfl rfl fun x => ⟨fun hx => ⟨(hiff x hx.2).1 hx.1, hx.2⟩,
        fun hx => ⟨(hiff x hx.2).2 hx.1, hx.2⟩⟩, rfl, rfl, rfl, fun x h1 h2 => ⟨(hiff x h2).2 h1, h2⟩⟩
  by_cases hki : k = i
  · subst hki
    have : v.constraintType G k = .range r := hr
    rw [htype] at this
    exact absurd this (ht r)
  · have : v.constraintType G k = .range r := hr
    rw [htype' k hki] at this
    exact hs.proper.ranges k hk hkr r this

/-- The state after removing a row. -/
def removedState (G : GeneralForm) (s : Index) (i : ℕ) (solved : List (ℕ × ℚ)) : Index :=
  removeConstraint (emptyResult G s i (fun _ => True) ((activeRow G s.counters i).map (·.1)) solved) i

/-- The variables that are in no row after removing a row. -/
def emptied (G : GeneralForm) (s : Index) (i : ℕ) : List ℕ :=
  ((activeRow G s.counters i).map (·.1)).filter fun k => True ∧ s.counters.columns k = 1

theorem removeConstraintValues_eq (hG : G.Consistent) (hs : s.Counts G)
    (hi : i < G.constraintTypes.length) (hi0 : s.counters.constraint i ≠ 0) :
    removeConstraintValues G s i = (do
      let solved ← emptyValues G s.updates (emptied G s i)
      pure (emptyResult G s i (fun _ => True) ((activeRow G s.counters i).map (·.1)) solved)) := by
  have ht := activeRow_tuples hG s.counters hi
  have hloop := emptyLoop (G := G) (fun _ => True) i ((activeRow G s.counters i).map (·.1)) s ht.nodup (by
    rw [List.length_map, ht.length]
    exact le_of_eq (hs.rowCount i hi hi0).symm) (by
    intro k hk
    rw [ht.mem_keys] at hk
    exact (mem_varsOf.1 hk).2.2)
  simp only [if_true] at hloop
  exact hloop

theorem removedState_rowGone (hG : G.Consistent) (hs : s.Counts G)
    (hi : i < G.constraintTypes.length) (hi0 : s.counters.constraint i ≠ 0)
    (solved : List (ℕ × ℚ)) : RowGone G s (removedState G s i solved) i := by
  have ht := activeRow_tuples hG s.counters hi
  refine ⟨?_, ?_, rfl, rfl, rfl, rfl, rfl, rfl, fun _ _ _ h => h, fun _ h => h, fun k hk => ?_, rfl⟩
  · show insertAt _ _ _ = _
    rw [List.length_map, ht.length, ← hs.rowCount i hi hi0, Nat.sub_self]
  · funext k
    show (if k ∈ _ then _ else _) = _
    simp only [ht.mem_keys]
  · replace hk : k ∈ (List.filter _ _).reverse ++ s.queues.slack := hk
    rw [List.mem_append, List.mem_reverse, List.mem_filter, ht.mem_keys] at hk
    rcases hk with ⟨h1, h2⟩ | hk
    · simp only [decide_eq_true_eq] at h2
      refine Or.inr ⟨(mem_varsOf.1 h1).1, ?_, h2.2.2⟩
      show (if k ∈ _ then _ else _) ≤ 1
      rw [if_pos (ht.mem_keys.2 h1), h2.2.1]
    · exact Or.inl hk

theorem mem_emptied (hG : G.Consistent) (hi : i < G.constraintTypes.length) {k : ℕ} :
    k ∈ emptied G s i ↔ k ∈ varsOf G s.counters i ∧ s.counters.columns k = 1 := by
  unfold emptied
  rw [List.mem_filter, (activeRow_tuples hG s.counters hi).mem_keys]
  simp

theorem removedState_wf (hG : G.Consistent) (hs : s.WF G) (hi : i < G.constraintTypes.length)
    (hi0 : s.counters.constraint i ≠ 0) {solved : List (ℕ × ℚ)}
    (hsol : emptyValues G s.updates (emptied G s i) = .ok solved) : (removedState G s i solved).WF G := by
  have ht := activeRow_tuples hG s.counters hi
  obtain ⟨hkeys, _⟩ := emptyValues_ok hsol
  have hmapkeys : (solved.map fun p => (p.1, RemovedVariable.solved p.2)).map (·.1) =
      emptied G s i := by
    rw [← hkeys, List.map_map]
    rfl
  refine (removedState_rowGone hG hs.toCounts hi hi0 solved).wf hs hG hi hi0
    (R := solved.map fun p => (p.1, RemovedVariable.solved p.2)) rfl ?_ ?_ ?_ ?_
  · rw [hmapkeys]
    exact ht.nodup.filter _
  · intro k
    rw [hmapkeys, mem_emptied hG hi]
  · exact hs.ordered.append_solved solved
  · intro p hp k hk
    obtain ⟨q, _, rfl⟩ := List.mem_map.1 hp
    exact hk.elim

/-- A row that holds for all values within bounds is removed. -/
theorem removeRow_correct (hG : G.Consistent) (hs : s.Fit G) (hi : i < G.constraintTypes.length)
    (hi0 : s.counters.constraint i ≠ 0)
    (h : ∀ x, s.updates.BoundsHold G x →
      (s.updates.constraintType G i).Holds (s.updates.rhs G i) (s.updates.value G i x)) :
    Correct G s (fun _ => False) (do
      let s ← removeConstraintValues G s i
      pure (removeConstraint s i)) := by
  have ht := activeRow_tuples hG s.counters hi
  rw [removeConstraintValues_eq hG hs.toCounts hi hi0]
  let u : Updates := { s.updates with constraintsRemoved := s.updates.constraintsRemoved ++ [i] }
  have hequiv : Equivalent G s.updates u := equivalent_removeRows [i] rfl (by
    intro k hk _ _ x hx
    rw [List.mem_singleton] at hk
    rw [hk]
    exact h x hx)
  have hlive : ∀ k ∈ emptied G s i, k ∈ s.updates.live G := by
    intro k hk
    have hk' := mem_varsOf.1 ((mem_emptied hG hi).1 hk).1
    exact hs.mem_live.2 ⟨hk'.1, hk'.2.2⟩
  obtain ⟨hok, herr⟩ := emptyValues_refines (G := G) (u := u)
    (E := emptied G s i) hs.ordered hs.varsNodup (ht.nodup.filter _) hlive
    (fun k hk => emptied_coef hs.toWF hi hi0 ((mem_emptied hG hi).1 hk).1 ((mem_emptied hG hi).1 hk).2)
    (fun k hk l hl r hr => hs.proper.bounds k (hlive k hk) l hl r hr)
  have hsame : emptyValues G u (emptied G s i) = emptyValues G s.updates (emptied G s i) := rfl
  rw [hsame] at hok herr
  cases he : emptyValues G s.updates (emptied G s i) with
  | error e =>
    obtain ⟨rfl, hv⟩ := herr e he
    exact (hequiv.refines (fun _ h => h)).verdict hv
  | ok solved =>
    simp only [bind, Except.bind, pure, Except.pure]
    have hwf := removedState_wf hG hs.toWF hi hi0 he
    have hrow := removedState_rowGone hG hs.toCounts hi hi0 solved
    have hcols : ∀ k, (removedState G s i solved).counters.columns k ≠ 0 →
        s.counters.columns k ≠ 0 := by
      intro k hk h0
      apply hk
      rw [hrow.columns]
      simp only [h0]
      split <;> rfl
    refine ⟨⟨hwf, proper_of hs.proper (fun k hk => ?_) (fun l hl hlr => ⟨?_, rfl⟩)
      fun _ _ _ => rfl, fun k hk hk0 => hs.fixed k hk (hcols k hk0)⟩, ?_⟩
    · have hk := (hwf.mem_live).1 hk
      exact hs.mem_live.2 ⟨hk.1, hcols k hk.2⟩
    · exact fun h => hlr (List.mem_append_left _ h)
    · exact (hequiv.refines (fun _ h => h)).trans (hok solved he)

end

end Presolve

end Relp
