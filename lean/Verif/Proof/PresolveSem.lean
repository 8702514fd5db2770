import Verif.Proof.PresolveBasics
import Mathlib.Tactic.FieldSimp

/-!
# What changes during presolving mean for the solutions
-/

namespace Relp

open Finset

theorem Objective.AsGood.refl (o : Objective) (a : ℚ) : o.AsGood a a := by
  cases o <;> exact le_refl a

theorem Objective.AsGood.trans {o : Objective} {a b c : ℚ} (h : o.AsGood a b) (h' : o.AsGood b c) :
    o.AsGood a c := by
  cases o
  · exact le_trans (α := ℚ) h' h
  · exact le_trans (α := ℚ) h h'

theorem Objective.AsGood.add_left {o : Objective} {a b : ℚ} (h : o.AsGood a b) (c : ℚ) :
    o.AsGood (c + a) (c + b) := by
  cases o
  · exact add_le_add_right (α := ℚ) h c
  · exact add_le_add_right (α := ℚ) h c

theorem RemovedVariable.valueAt_congr {x y : ℕ → ℚ} {r : RemovedVariable}
    (h : ∀ k, r.Mentions k → x k = y k) : r.valueAt x = r.valueAt y := by
  cases r with
  | solved v => rfl
  | functionOfOthers c l =>
    have : l.map (fun p => p.2 * x p.1) = l.map fun p => p.2 * y p.1 := by
      apply List.map_congr_left
      intro p hp
      rw [h p.1 (List.mem_map_of_mem hp)]
    simp only [RemovedVariable.valueAt, this]

namespace Presolve

variable {G : GeneralForm}

/-! ### Relations between problems -/

theorem Equivalent.refl (u : Updates) : Equivalent G u u := fun _ => ⟨Iff.rfl, fun _ => rfl⟩

theorem Equivalent.symm {u v : Updates} (h : Equivalent G u v) : Equivalent G v u :=
  fun x => ⟨(h x).1.symm, fun hx => ((h x).2 ((h x).1.2 hx)).symm⟩

theorem Equivalent.trans {u v w : Updates} (h : Equivalent G u v) (h' : Equivalent G v w) :
    Equivalent G u w :=
  fun x => ⟨(h x).1.trans (h' x).1, fun hx => ((h x).2 hx).trans ((h' x).2 ((h x).1.1 hx))⟩

theorem Equivalent.refines {u v : Updates} (h : Equivalent G u v) (hl : v.live G ⊆ u.live G) :
    Refines G u v :=
  ⟨hl, fun x hx => ⟨(h x).1.2 hx, (h x).2 ((h x).1.2 hx)⟩,
    fun x hx => ⟨x, (h x).1.1 hx, by rw [(h x).2 hx]; exact Objective.AsGood.refl _ _, fun _ _ => rfl⟩⟩

theorem Refines.refl (u : Updates) : Refines G u u := (Equivalent.refl u).refines (fun _ h => h)

theorem Refines.trans {u v w : Updates} (h : Refines G u v) (h' : Refines G v w) : Refines G u w := by
  refine ⟨h'.live.trans h.live, fun x hx => ?_, fun x hx => ?_⟩
  · obtain ⟨h1, h2⟩ := h'.sound x hx
    obtain ⟨h3, h4⟩ := h.sound x h1
    exact ⟨h3, h4.trans h2⟩
  · obtain ⟨y, h1, h2, h5⟩ := h.complete x hx
    obtain ⟨z, h3, h4, h6⟩ := h'.complete y h1
    exact ⟨z, h3, h4.trans h2, fun j hj => (h6 j hj).trans (h5 j (h'.live hj))⟩

theorem Refines.verdict {u v : Updates} (h : Refines G u v) {r : LinearProgramType}
    (hr : VerdictCorrect G v r) : VerdictCorrect G u r := by
  cases r with
  | finiteOptimum _ => exact hr
  | infeasible =>
    intro x hx
    obtain ⟨y, hy, _⟩ := h.complete x hx
    exact hr y hy
  | unbounded =>
    rintro ⟨x, hx⟩ M
    obtain ⟨y, hy, _⟩ := h.complete x hx
    obtain ⟨z, hz, hM⟩ := hr ⟨y, hy⟩ M
    obtain ⟨h1, h2⟩ := h.sound z hz
    exact ⟨z, h1, by rw [h2]; exact hM⟩

/-! ### Changes that leave the variables -/

/-- The remaining constraints hold. -/
def Updates.RowsHold (G : GeneralForm) (u : Updates) (x : ℕ → ℚ) : Prop :=
  ∀ i < G.constraintTypes.length, i ∉ u.constraintsRemoved →
    (u.constraintType G i).Holds (u.rhs G i) (u.value G i x)

/-- The bounds of the remaining variables hold. -/
def Updates.BoundsHold (G : GeneralForm) (u : Updates) (x : ℕ → ℚ) : Prop :=
  ∀ j ∈ u.live G, ∀ d : BoundDirection, d.Respects (u.variableBound G j d) (x j)

theorem live_congr {u v : Updates} (h : u.removedVariables = v.removedVariables) :
    u.live G = v.live G := by
  unfold Updates.live
  rw [h]

theorem value_congr {u v : Updates} (h : u.removedVariables = v.removedVariables) (i : ℕ) (x : ℕ → ℚ) :
    u.value G i x = v.value G i x := by
  unfold Updates.value
  rw [live_congr h]

theorem equivalent_of {u v : Updates} (hr : u.removedVariables = v.removedVariables)
    (hc : u.fixedCost = v.fixedCost)
    (h : ∀ x, (u.RowsHold G x ∧ u.BoundsHold G x) ↔ (v.RowsHold G x ∧ v.BoundsHold G x)) :
    Equivalent G u v := by
  intro x
  refine ⟨⟨fun hx => ?_, fun hx => ?_⟩, fun _ => ?_⟩
  · have := (h x).1 ⟨hx.rows, hx.bounds⟩
    exact ⟨this.1, this.2, hr ▸ hx.removed⟩
  · have := (h x).2 ⟨hx.rows, hx.bounds⟩
    exact ⟨this.1, this.2, hr ▸ hx.removed⟩
  · unfold Updates.cost
    rw [hc, live_congr hr]

/-- Constraints are removed that hold for all values within bounds. -/
theorem equivalent_removeRows {u v : Updates} (L : List ℕ)
    (hv : v = { u with constraintsRemoved := u.constraintsRemoved ++ L })
    (h : ∀ i ∈ L, i < G.constraintTypes.length → i ∉ u.constraintsRemoved → ∀ x, u.BoundsHold G x →
      (u.constraintType G i).Holds (u.rhs G i) (u.value G i x)) : Equivalent G u v := by
  subst hv
  refine equivalent_of rfl rfl fun x => ⟨fun hx => ⟨fun i hi hr => ?_, hx.2⟩,
    fun hx => ⟨fun i hi hr => ?_, hx.2⟩⟩
  · exact hx.1 i hi fun h' => hr (List.mem_append_left _ h')
  · by_cases hL : i ∈ L
    · exact h i hL hi hr x hx.2
    · exact hx.1 i hi fun h' => (List.mem_append.1 h').elim hr hL

/-- Bounds are replaced by tighter ones that hold for all solutions. -/
theorem equivalent_bounds {u v : Updates} (hr : u.removedVariables = v.removedVariables)
    (hc : u.fixedCost = v.fixedCost) (hrows : ∀ x, u.RowsHold G x ↔ v.RowsHold G x)
    (h1 : ∀ j ∈ u.live G, ∀ d x, BoundDirection.Respects d (v.variableBound G j d) x →
      BoundDirection.Respects d (u.variableBound G j d) x)
    (h2 : ∀ x, u.RowsHold G x → u.BoundsHold G x → ∀ j ∈ u.live G, ∀ d,
      BoundDirection.Respects d (v.variableBound G j d) (x j)) : Equivalent G u v := by
  refine equivalent_of hr hc fun x => ⟨fun hx => ⟨(hrows x).1 hx.1, fun j hj d => ?_⟩,
    fun hx => ⟨(hrows x).2 hx.1, fun j hj d => ?_⟩⟩
  · exact h2 x hx.1 hx.2 j (live_congr hr ▸ hj) d
  · exact h1 j hj d _ (hx.2 j (live_congr hr ▸ hj) d)

/-! ### Removal of variables -/

/-- Values for the remaining variables determine values for the removed ones. -/
theorem exists_extension (l : List (ℕ × RemovedVariable)) (ho : Ordered l)
    (hn : (l.map (·.1)).Nodup) (x : ℕ → ℚ) :
    ∃ y, (∀ j ∉ l.map (·.1), y j = x j) ∧ ∀ p ∈ l, y p.1 = p.2.valueAt y := by
  induction l generalizing x with
  | nil => exact ⟨x, fun _ _ => rfl, by simp⟩
  | cons p l ih =>
    obtain ⟨h1, h2⟩ := ho
    rw [List.pairwise_cons] at h2
    rw [List.map_cons, List.nodup_cons] at hn
    have ih := ih ⟨fun q hq => h1 q (List.mem_cons_of_mem _ hq), h2.2⟩ hn.2
    by_cases hs : ∃ v, p.2 = .solved v
    · obtain ⟨v, hv⟩ := hs
      obtain ⟨y, hy1, hy2⟩ := ih (Function.update x p.1 v)
      refine ⟨y, fun j hj => ?_, fun q hq => ?_⟩
      · rw [List.map_cons, List.mem_cons, not_or] at hj
        rw [hy1 j hj.2, Function.update_of_ne hj.1]
      · rcases List.mem_cons.1 hq with rfl | hq'
        · rw [hy1 _ hn.1, Function.update_self, hv]
          rfl
        · exact hy2 q hq'
    obtain ⟨y, hy1, hy2⟩ := ih x
    refine ⟨Function.update y p.1 (p.2.valueAt y), fun j hj => ?_, fun q hq => ?_⟩
    · rw [List.map_cons, List.mem_cons, not_or] at hj
      rw [Function.update_of_ne hj.1]
      exact hy1 j hj.2
    · have key : ∀ r : RemovedVariable, ¬r.Mentions p.1 →
          r.valueAt (Function.update y p.1 (p.2.valueAt y)) = r.valueAt y := by
        intro r hr
        apply RemovedVariable.valueAt_congr
        intro k hk
        rw [Function.update_of_ne]
        rintro rfl
        exact hr hk
      rcases List.mem_cons.1 hq with rfl | hq'
      · rw [Function.update_self, key _ (h1 q List.mem_cons_self)]
      · have hne : q.1 ≠ p.1 := by
          intro h
          exact hn.1 (h ▸ List.mem_map_of_mem hq')
        rw [Function.update_of_ne hne, key _ fun h => hs (h2.1 q hq' h)]
        exact hy2 q hq'

theorem value_erase {u v : Updates} {j : ℕ} {r : RemovedVariable}
    (hv : v.removedVariables = u.removedVariables ++ [(j, r)]) (hj : j ∈ u.live G) (i : ℕ) (x : ℕ → ℚ) :
    u.value G i x = coef G i j * x j + v.value G i x := by
  unfold Updates.value
  rw [Updates.live_cons hv]
  exact (Finset.add_sum_erase _ (fun k => coef G i k * x k) hj).symm

theorem costSum_erase {u v : Updates} {j : ℕ} {r : RemovedVariable}
    (hv : v.removedVariables = u.removedVariables ++ [(j, r)]) (hj : j ∈ u.live G) (x : ℕ → ℚ) :
    ∑ k ∈ u.live G, costOf G k * x k = costOf G j * x j + ∑ k ∈ v.live G, costOf G k * x k := by
  rw [Updates.live_cons hv]
  exact (Finset.add_sum_erase _ (fun k => costOf G k * x k) hj).symm

theorem value_congr_live {u : Updates} {x y : ℕ → ℚ} (h : ∀ j ∈ u.live G, x j = y j) (i : ℕ) :
    u.value G i x = u.value G i y :=
  Finset.sum_congr rfl fun j hj => by rw [h j hj]

theorem cost_congr_live {u : Updates} {x y : ℕ → ℚ} (h : ∀ j ∈ u.live G, x j = y j) :
    u.cost G x = u.cost G y := by
  unfold Updates.cost
  congr 1
  exact Finset.sum_congr rfl fun j hj => by rw [h j hj]

/-- A variable with equal bounds is removed. -/
theorem equivalent_fixed {u v : Updates} {j : ℕ} {value : ℚ}
    (hv : v.removedVariables = u.removedVariables ++ [(j, .solved value)]) (hj : j ∈ u.live G)
    (hl : u.variableBound G j .lower = some value) (hu : u.variableBound G j .upper = some value)
    (hrem : v.constraintsRemoved = u.constraintsRemoved)
    (htype : ∀ i < G.constraintTypes.length, i ∉ u.constraintsRemoved →
      v.constraintType G i = u.constraintType G i)
    (hrhs : ∀ i < G.constraintTypes.length, i ∉ u.constraintsRemoved →
      v.rhs G i = u.rhs G i - coef G i j * value)
    (hbound : ∀ k ∈ v.live G, ∀ d, v.variableBound G k d = u.variableBound G k d)
    (hcost : v.fixedCost = u.fixedCost + costOf G j * value) : Equivalent G u v := by
  have hsub : ∀ k ∈ v.live G, k ∈ u.live G := by
    intro k hk
    rw [Updates.live_cons hv] at hk
    exact Finset.mem_of_mem_erase hk
  have hshift : ∀ x : ℕ → ℚ, x j = value → ∀ i < G.constraintTypes.length, i ∉ u.constraintsRemoved →
      ((u.constraintType G i).Holds (u.rhs G i) (u.value G i x) ↔
        (v.constraintType G i).Holds (v.rhs G i) (v.value G i x)) := by
    intro x hx i hi hr
    rw [htype i hi hr, hrhs i hi hr, value_erase hv hj i x, hx]
    cases u.constraintType G i <;> simp only [ConstraintType.Holds]
    · constructor <;> intro h <;> linarith
    · constructor <;> intro h <;> constructor <;> linarith [h.1, h.2]
    · constructor <;> intro h <;> linarith
    · constructor <;> intro h <;> linarith
  intro x
  refine ⟨⟨fun hx => ?_, fun hx => ?_⟩, fun hx => ?_⟩
  · have h1 := hx.bounds j hj .lower
    have h2 := hx.bounds j hj .upper
    rw [hl] at h1
    rw [hu] at h2
    have hxj : x j = value := le_antisymm h2 h1
    refine ⟨fun i hi hr => (hshift x hxj i hi (hrem ▸ hr)).1 (hx.rows i hi (hrem ▸ hr)),
      fun k hk d => ?_, fun p hp => ?_⟩
    · rw [hbound k hk d]
      exact hx.bounds k (hsub k hk) d
    · rw [hv, List.mem_append, List.mem_singleton] at hp
      rcases hp with hp | rfl
      · exact hx.removed p hp
      · exact hxj
  · have hxj : x j = value := hx.removed (j, .solved value) (by rw [hv]; simp)
    refine ⟨fun i hi hr => (hshift x hxj i hi hr).2 (hx.rows i hi (hrem ▸ hr)),
      fun k hk d => ?_, fun p hp => ?_⟩
    · by_cases hkj : k = j
      · subst hkj
        cases d
        · rw [hl, hxj]; exact le_refl value
        · rw [hu, hxj]; exact le_refl value
      · have hk' : k ∈ v.live G := by
          rw [Updates.live_cons hv]
          exact Finset.mem_erase.2 ⟨hkj, hk⟩
        rw [← hbound k hk' d]
        exact hx.bounds k hk' d
    · exact hx.removed p (by rw [hv]; exact List.mem_append_left _ hp)
  · have h1 := hx.bounds j hj .lower
    have h2 := hx.bounds j hj .upper
    rw [hl] at h1
    rw [hu] at h2
    have hxj : x j = value := le_antisymm h2 h1
    unfold Updates.cost
    rw [hcost, costSum_erase hv hj, hxj]
    ring

/-- Values of a variable within its bounds. -/
def Updates.Within (G : GeneralForm) (u : Updates) (j : ℕ) (y : ℚ) : Prop :=
  ∀ d : BoundDirection, d.Respects (u.variableBound G j d) y

/-- A variable that is in no remaining constraint gets a best value. -/
theorem refines_emptyColumn {u v : Updates} {j : ℕ} {value : ℚ}
    (hv : v = { u with removedVariables := u.removedVariables ++ [(j, .solved value)]
                       fixedCost := u.fixedCost + costOf G j * value }) (hj : j ∈ u.live G)
    (hempty : ∀ i < G.constraintTypes.length, i ∉ u.constraintsRemoved → coef G i j = 0)
    (ho : Ordered v.removedVariables) (hn : (v.removedVariables.map (·.1)).Nodup)
    (hw : u.Within G j value)
    (hbest : ∀ y, u.Within G j y → G.objective.AsGood (costOf G j * value) (costOf G j * y)) :
    Refines G u v := by
  have hv' : v.removedVariables = u.removedVariables ++ [(j, .solved value)] := by rw [hv]
  have hrem : v.constraintsRemoved = u.constraintsRemoved := by rw [hv]
  have htype : ∀ i, v.constraintType G i = u.constraintType G i := by rw [hv]; exact fun _ => rfl
  have hrhs : ∀ i, v.rhs G i = u.rhs G i := by rw [hv]; exact fun _ => rfl
  have hbound : ∀ k d, v.variableBound G k d = u.variableBound G k d := by
    rw [hv]; exact fun _ _ => rfl
  have hcost : v.fixedCost = u.fixedCost + costOf G j * value := by rw [hv]
  have hvalue : ∀ i < G.constraintTypes.length, i ∉ u.constraintsRemoved → ∀ x,
      u.value G i x = v.value G i x := by
    intro i hi hr x
    rw [value_erase hv' hj, hempty i hi hr, zero_mul, zero_add]
  have hsub : ∀ k ∈ v.live G, k ∈ u.live G := by
    intro k hk
    rw [Updates.live_cons hv'] at hk
    exact Finset.mem_of_mem_erase hk
  refine ⟨hsub, fun x hx => ?_, fun x hx => ?_⟩
  · have hxj : x j = value := hx.removed (j, .solved value) (by rw [hv']; simp)
    refine ⟨⟨fun i hi hr => ?_, fun k hk d => ?_, fun p hp => ?_⟩, ?_⟩
    · have := hx.rows i hi (hrem ▸ hr)
      rw [htype, hrhs, ← hvalue i hi hr] at this
      exact this
    · by_cases hkj : k = j
      · subst hkj
        rw [hxj]
        exact hw d
      · have hk' : k ∈ v.live G := by
          rw [Updates.live_cons hv']
          exact Finset.mem_erase.2 ⟨hkj, hk⟩
        rw [← hbound k d]
        exact hx.bounds k hk' d
    · exact hx.removed p (by rw [hv']; exact List.mem_append_left _ hp)
    · unfold Updates.cost
      rw [hcost, costSum_erase hv' hj, hxj]
      ring
  · obtain ⟨y, hy1, hy2⟩ := exists_extension v.removedVariables ho hn x
    have hlive : ∀ k ∈ v.live G, y k = x k := by
      intro k hk
      exact hy1 k (Updates.mem_live.1 hk).2
    refine ⟨y, ⟨fun i hi hr => ?_, fun k hk d => ?_, hy2⟩, ?_, hlive⟩
    · rw [htype, hrhs, value_congr_live hlive, ← hvalue i hi (hrem ▸ hr)]
      exact hx.rows i hi (hrem ▸ hr)
    · rw [hbound, hlive k hk]
      exact hx.bounds k (hsub k hk) d
    · rw [cost_congr_live hlive]
      unfold Updates.cost
      rw [hcost, costSum_erase hv' hj]
      have := hbest (x j) (fun d => hx.bounds j hj d)
      have := this.add_left (G.fixedCost + u.fixedCost + ∑ k ∈ v.live G, costOf G k * x k)
      convert this using 1 <;> ring

/-- A variable in no remaining constraint can be improved without bound. -/
theorem unbounded_emptyColumn {u : Updates} {j : ℕ} (hj : j ∈ u.live G)
    (hempty : ∀ i < G.constraintTypes.length, i ∉ u.constraintsRemoved → coef G i j = 0)
    (ho : Ordered u.removedVariables) (hn : (u.removedVariables.map (·.1)).Nodup)
    (himp : ∀ M, ∃ y, u.Within G j y ∧ G.objective.AsGood (costOf G j * y) M) :
    VerdictCorrect G u .unbounded := by
  rintro ⟨x, hx⟩ M
  obtain ⟨value, hw, hM⟩ := himp (M - (u.cost G x - costOf G j * x j))
  obtain ⟨y, hy1, hy2⟩ := exists_extension u.removedVariables ho hn (Function.update x j value)
  have hlive : ∀ k ∈ u.live G, y k = Function.update x j value k := by
    intro k hk
    exact hy1 k (Updates.mem_live.1 hk).2
  have hne : ∀ k ∈ (u.live G).erase j, Function.update x j value k = x k := by
    intro k hk
    rw [Function.update_of_ne (Finset.mem_erase.1 hk).1]
  refine ⟨y, ⟨fun i hi hr => ?_, fun k hk d => ?_, hy2⟩, ?_⟩
  · have : u.value G i y = u.value G i x := by
      rw [value_congr_live hlive]
      unfold Updates.value
      rw [← Finset.add_sum_erase _ _ hj, ← Finset.add_sum_erase _ (fun k => coef G i k * x k) hj,
        hempty i hi hr, zero_mul, zero_mul, zero_add, zero_add]
      exact Finset.sum_congr rfl fun k hk => by rw [hne k hk]
    rw [this]
    exact hx.rows i hi hr
  · rw [hlive k hk]
    by_cases hkj : k = j
    · subst hkj
      rw [Function.update_self]
      exact hw d
    · rw [Function.update_of_ne hkj]
      exact hx.bounds k hk d
  · rw [cost_congr_live hlive]
    have e1 : u.cost G (Function.update x j value)
        = (u.cost G x - costOf G j * x j) + costOf G j * value := by
      unfold Updates.cost
      rw [← Finset.add_sum_erase _ _ hj, ← Finset.add_sum_erase _ (fun k => costOf G k * x k) hj,
        Function.update_self, Finset.sum_congr rfl fun k hk => by rw [hne k hk]]
      ring
    rw [e1]
    have := hM.add_left (u.cost G x - costOf G j * x j)
    convert this using 1
    ring

/-- A variable `j` without costs, that is only in constraint `i`, is removed, and constraint `i` with it
or replaced. For points with removed variables as recorded, the row and the bounds of the variable hold if
the replacement does; and for values of the others for which the row and the bounds of the variable can be
met, the replacement holds. -/
theorem refines_slack {u v : Updates} {i j : ℕ} {r : RemovedVariable}
    (hv : v.removedVariables = u.removedVariables ++ [(j, r)]) (hj : j ∈ u.live G)
    (hcostj : costOf G j = 0)
    (honly : ∀ k < G.constraintTypes.length, k ∉ u.constraintsRemoved → k ≠ i → coef G k j = 0)
    (ho : Ordered v.removedVariables) (hn : (v.removedVariables.map (·.1)).Nodup)
    (hremain : ∀ k < G.constraintTypes.length, k ≠ i →
      (k ∈ v.constraintsRemoved ↔ k ∈ u.constraintsRemoved))
    (htype : ∀ k < G.constraintTypes.length, k ≠ i → v.constraintType G k = u.constraintType G k)
    (hrhs : ∀ k < G.constraintTypes.length, k ≠ i → v.rhs G k = u.rhs G k)
    (hbound : ∀ k ∈ v.live G, ∀ d, v.variableBound G k d = u.variableBound G k d)
    (hcost : v.fixedCost = u.fixedCost)
    (hi : i < G.constraintTypes.length) (hir : i ∉ u.constraintsRemoved)
    (hsound : ∀ x : ℕ → ℚ, x j = r.valueAt x →
      (i ∉ v.constraintsRemoved → (v.constraintType G i).Holds (v.rhs G i) (v.value G i x)) →
      (u.constraintType G i).Holds (u.rhs G i) (coef G i j * x j + v.value G i x) ∧ u.Within G j (x j))
    (hcomplete : ∀ x : ℕ → ℚ, u.Within G j (x j) →
      (u.constraintType G i).Holds (u.rhs G i) (coef G i j * x j + v.value G i x) →
      i ∉ v.constraintsRemoved → (v.constraintType G i).Holds (v.rhs G i) (v.value G i x)) :
    Refines G u v := by
  have hsub : ∀ k ∈ v.live G, k ∈ u.live G := by
    intro k hk
    rw [Updates.live_cons hv] at hk
    exact Finset.mem_of_mem_erase hk
  have hvalue : ∀ k < G.constraintTypes.length, k ∉ u.constraintsRemoved → k ≠ i → ∀ x,
      u.value G k x = v.value G k x := by
    intro k hk hr hne x
    rw [value_erase hv hj, honly k hk hr hne, zero_mul, zero_add]
  refine ⟨hsub, fun x hx => ?_, fun x hx => ?_⟩
  · have hxj : x j = r.valueAt x := hx.removed (j, r) (by rw [hv]; simp)
    obtain ⟨h1, h2⟩ := hsound x hxj fun h => hx.rows i hi h
    refine ⟨⟨fun k hk hr => ?_, fun k hk d => ?_, fun p hp => ?_⟩, ?_⟩
    · by_cases hki : k = i
      · subst hki
        rw [value_erase hv hj]
        exact h1
      · have := hx.rows k hk fun h => hr ((hremain k hk hki).1 h)
        rw [htype k hk hki, hrhs k hk hki, ← hvalue k hk hr hki] at this
        exact this
    · by_cases hkj : k = j
      · subst hkj
        exact h2 d
      · have hk' : k ∈ v.live G := by
          rw [Updates.live_cons hv]
          exact Finset.mem_erase.2 ⟨hkj, hk⟩
        rw [← hbound k hk' d]
        exact hx.bounds k hk' d
    · exact hx.removed p (by rw [hv]; exact List.mem_append_left _ hp)
    · unfold Updates.cost
      rw [hcost, costSum_erase hv hj, hcostj, zero_mul, zero_add]
  · obtain ⟨y, hy1, hy2⟩ := exists_extension v.removedVariables ho hn x
    have hlive : ∀ k ∈ v.live G, y k = x k := by
      intro k hk
      exact hy1 k (Updates.mem_live.1 hk).2
    refine ⟨y, ⟨fun k hk hr => ?_, fun k hk d => ?_, hy2⟩, ?_, hlive⟩
    · rw [value_congr_live hlive]
      by_cases hki : k = i
      · subst hki
        refine hcomplete x (fun d => hx.bounds j hj d) ?_ hr
        rw [← value_erase hv hj]
        exact hx.rows k hk hir
      · have hr' : k ∉ u.constraintsRemoved := fun h => hr ((hremain k hk hki).2 h)
        rw [htype k hk hki, hrhs k hk hki, ← hvalue k hk hr' hki]
        exact hx.rows k hk hr'
    · rw [hbound k hk, hlive k hk]
      exact hx.bounds k (hsub k hk) d
    · rw [cost_congr_live hlive]
      unfold Updates.cost
      rw [hcost, costSum_erase hv hj, hcostj, zero_mul, zero_add]
      exact Objective.AsGood.refl _ _

/-- The order in which variables are removed does not matter. -/
theorem equivalent_perm {u v : Updates} {L : List (ℕ × RemovedVariable)}
    (hv : v = { u with removedVariables := L }) (hp : u.removedVariables.Perm L) : Equivalent G u v := by
  have hmem : ∀ p, p ∈ v.removedVariables ↔ p ∈ u.removedVariables := by
    intro p
    rw [hv]
    exact hp.mem_iff.symm
  have hlive : v.live G = u.live G := by
    ext k
    rw [Updates.mem_live, Updates.mem_live, hv]
    show _ ∧ k ∉ L.map (·.1) ↔ _
    rw [(hp.map (·.1)).mem_iff]
  have hvalue : ∀ i x, v.value G i x = u.value G i x := by
    intro i x
    unfold Updates.value
    rw [hlive]
  intro x
  refine ⟨⟨fun hx => ⟨fun i hi hr => ?_, fun j hj d => ?_, fun p hp => hx.removed p ((hmem p).1 hp)⟩,
    fun hx => ⟨fun i hi hr => ?_, fun j hj d => ?_, fun p hp => hx.removed p ((hmem p).2 hp)⟩⟩,
    fun hx => ?_⟩
  · rw [hvalue]
    subst hv
    exact hx.rows i hi hr
  · rw [hlive] at hj
    subst hv
    exact hx.bounds j hj d
  · have := hx.rows i hi (by subst hv; exact hr)
    rw [hvalue] at this
    subst hv
    exact this
  · rw [← hlive] at hj
    have := hx.bounds j hj d
    subst hv
    exact this
  · unfold Updates.cost
    rw [hlive, hv]

theorem refines_perm {u v : Updates} {L : List (ℕ × RemovedVariable)}
    (hv : v = { u with removedVariables := L }) (hp : u.removedVariables.Perm L) : Refines G u v := by
  refine (equivalent_perm hv hp).refines fun k hk => ?_
  rw [Updates.mem_live] at hk ⊢
  rw [hv] at hk
  exact ⟨hk.1, fun h => hk.2 ((hp.map (·.1)).mem_iff.1 h)⟩

end Presolve

end Relp
