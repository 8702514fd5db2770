import Verif.Proof.PresolveRun

/-!
# Derived bounds that are discarded

The problem with the derived bounds of most variables left out is followed through the steps: if each step
that drops a constraint relies on bounds that are not left out, no information is lost.
-/

namespace Relp

open Finset

namespace Presolve

variable {G : GeneralForm} {F : ℕ → Bool}

/-! ### Leaving out derived bounds -/

/-- The problem with only the derived bounds of the given variables. -/
def Updates.only (F : ℕ → Bool) (u : Updates) : Updates :=
  { u with activityBounds := fun j d => if F j then u.activityBounds j d else none }

theorem only_bound_of {u : Updates} {j : ℕ} {d : BoundDirection}
    (h : F j = true ∨ u.activityBounds j d = none) :
    (u.only F).variableBound G j d = u.variableBound G j d := by
  unfold Updates.variableBound Updates.only
  cases hF : F j
  · rw [hF] at h
    have h' := h.resolve_left (by simp)
    simp [h', hF]
  · simp [hF]

/-- The bounds that are left are at most as tight. -/
theorem only_weaker {u : Updates} {j : ℕ} {d : BoundDirection}
    (hs : Separated G j d (u.bounds j d) (u.activityBounds j d)) {y : ℚ}
    (h : d.Respects (u.variableBound G j d) y) : d.Respects ((u.only F).variableBound G j d) y := by
  cases hF : F j
  · cases ha : u.activityBounds j d with
    | none => rwa [only_bound_of (Or.inr ha)]
    | some a =>
      have hb : u.bounds j d = none := by
        rcases hs.1 with h | h
        · exact h
        · rw [ha] at h; cases h
      have e : (u.only F).variableBound G j d = originalBound G j d := by
        unfold Updates.variableBound Updates.only
        simp [hF, hb]
      have e' : u.variableBound G j d = some a := by
        unfold Updates.variableBound
        simp [ha]
      rw [e]
      rw [e'] at h
      cases ho : originalBound G j d with
      | none => trivial
      | some b => exact (hs.2 a ha b ho).trans h
  · rwa [only_bound_of (Or.inl hF)]

/-- A solution without the derived bounds left out afterwards is one without those left out before, and if
it meets those left out before, it meets those left out afterwards. -/
structure Backs (G : GeneralForm) (F : ℕ → Bool) (u v : Updates) : Prop where
  sat : ∀ x, (v.only F).Sat G x → (u.only F).Sat G x
  follow : ∀ x, u.Sat G x → (v.only F).Sat G x → v.Sat G x

theorem Backs.refl (u : Updates) : Backs G F u u := ⟨fun _ h => h, fun _ h _ => h⟩

theorem Backs.trans {u v w : Updates} (h : Backs G F u v) (h' : Backs G F v w) : Backs G F u w :=
  ⟨fun x hx => h.sat x (h'.sat x hx), fun x hx hw => h'.follow x (h.follow x hx (h'.sat x hw)) hw⟩

/-- The other bounds follow. -/
def Follow (G : GeneralForm) (F : ℕ → Bool) (u : Updates) : Prop := ∀ x, (u.only F).Sat G x → u.Sat G x

theorem Follow.step {u v : Updates} (h : Follow G F u) (h' : Backs G F u v) : Follow G F v :=
  fun x hx => h'.follow x (h x (h'.sat x hx)) hx

/-- Bounds do not change. -/
theorem follow_of {u v : Updates} (hl : v.live G ⊆ u.live G)
    (hb : ∀ k ∈ v.live G, ∀ d, v.variableBound G k d = u.variableBound G k d) (x : ℕ → ℚ)
    (hu : u.Sat G x) (hv : (v.only F).Sat G x) : v.Sat G x :=
  ⟨hv.rows, fun k hk d => by rw [hb k hk d]; exact hu.bounds k (hl hk) d, hv.removed⟩

/-- Bounds do not change, and variables are removed whose derived bounds are taken into account. -/
theorem backs_of_sound {u v : Updates} (hb : v.bounds = u.bounds)
    (ha : v.activityBounds = u.activityBounds) (hl : v.live G ⊆ u.live G)
    (hd : ∀ j d, Separated G j d (u.bounds j d) (u.activityBounds j d))
    (h : ∀ x, (v.only fun k => F k || decide (k ∉ v.live G)).Sat G x →
      (u.only fun k => F k || decide (k ∉ v.live G)).Sat G x) : Backs G F u v := by
  refine ⟨fun x hx => ?_, follow_of hl fun k _ d => by unfold Updates.variableBound; rw [hb, ha]⟩
  have h1 := h x ⟨hx.rows, fun k hk d => ?_, hx.removed⟩
  · refine ⟨h1.rows, fun k hk d => ?_, h1.removed⟩
    have h2 := h1.bounds k hk d
    cases hF : F k
    · have e : (u.only F).variableBound G k d =
          ((u.only fun k => F k || decide (k ∉ v.live G)).only F).variableBound G k d := by
        unfold Updates.variableBound Updates.only
        simp [hF]
      rw [e]
      refine only_weaker ?_ h2
      have h3 := hd k d
      show Separated G k d (u.bounds k d) (if _ then _ else _)
      split
      · exact h3
      · exact ⟨Or.inr rfl, by simp⟩
    · rwa [only_bound_of (Or.inl (by simp [hF]))] at h2 ⊢
  · have h2 := hx.bounds k hk d
    have e : (v.only fun k => F k || decide (k ∉ v.live G)).variableBound G k d =
        (v.only F).variableBound G k d := by
      have hk' : k ∈ v.live G := hk
      unfold Updates.variableBound Updates.only
      simp [hk']
    rw [e]
    exact h2

/-- Constraints are removed that hold within the bounds that are not left out. -/
theorem backs_removeRows {u v : Updates} (L : List ℕ)
    (hv : v = { u with constraintsRemoved := u.constraintsRemoved ++ L })
    (h : ∀ i ∈ L, i < G.constraintTypes.length → i ∉ u.constraintsRemoved → ∀ x,
      (u.only F).BoundsHold G x →
        (u.constraintType G i).Holds (u.rhs G i) (u.value G i x)) : Backs G F u v := by
  subst hv
  refine ⟨fun x hx => ?_, follow_of (fun _ h => h) fun _ _ _ => rfl⟩
  exact ((equivalent_removeRows (G := G) (u := u.only F)
    (v := Updates.only F { u with constraintsRemoved := u.constraintsRemoved ++ L }) L rfl h) x).1.2 hx

theorem backs_perm {u v : Updates} {L : List (ℕ × RemovedVariable)}
    (hv : v = { u with removedVariables := L }) (hp : u.removedVariables.Perm L) : Backs G F u v := by
  refine ⟨fun x hx => ?_, fun x hx _ => ((equivalent_perm hv hp) x).1.1 hx⟩
  subst hv
  exact ((equivalent_perm (G := G) (u := u.only F) (v := Updates.only F { u with removedVariables := L })
    rfl hp) x).1.2 hx

theorem live_solveVars {u : Updates} {solved : List (ℕ × ℚ)} {k : ℕ} :
    k ∈ (solveVars G u solved).live G ↔ k ∈ u.live G ∧ k ∉ solved.map (·.1) := by
  rw [Updates.mem_live, Updates.mem_live]
  show _ ∧ k ∉ (u.removedVariables ++ _).map (·.1) ↔ _
  rw [List.map_append, List.mem_append, List.map_map, not_or]
  exact and_assoc.symm

/-- Variables that are in no constraint get a best value. -/
theorem backs_solveVars (solved : List (ℕ × ℚ)) {u : Updates} (ho : Ordered u.removedVariables)
    (hn : (u.removedVariables.map (·.1)).Nodup) (hs : (solved.map (·.1)).Nodup)
    (hl : ∀ p ∈ solved, p.1 ∈ u.live G)
    (he : ∀ p ∈ solved, ∀ i < G.constraintTypes.length, i ∉ u.constraintsRemoved → coef G i p.1 = 0)
    (hb : ∀ p ∈ solved, u.Within G p.1 p.2 ∧
      ∀ y, u.Within G p.1 y → G.objective.AsGood (costOf G p.1 * p.2) (costOf G p.1 * y))
    (hd : ∀ j d, Separated G j d (u.bounds j d) (u.activityBounds j d)) :
    Backs G F u (solveVars G u solved) := by
  refine backs_of_sound rfl rfl (fun k hk => (live_solveVars.1 hk).1) hd fun x hx => ?_
  refine ((refines_solveVars (G := G) solved
    (u := u.only fun k => F k || decide (k ∉ (solveVars G u solved).live G))
    ho hn hs hl he fun p hp => ?_).sound x hx).1
  have hw : ∀ y, (u.only fun k => F k || decide (k ∉ (solveVars G u solved).live G)).Within G p.1 y ↔
      u.Within G p.1 y := by
    intro y
    unfold Updates.Within
    have : p.1 ∉ (solveVars G u solved).live G := fun h =>
      (live_solveVars.1 h).2 (List.mem_map_of_mem hp)
    simp only [only_bound_of (G := G) (u := u)
      (F := fun k => F k || decide (k ∉ (solveVars G u solved).live G)) (j := p.1)
      (Or.inl (by simp [this]))]
  simp only [hw]
  exact hb p hp

/-! ### Fixed variables -/

theorem presolveFixedVariable_backs (hG : G.Consistent) {s t : Index} (hs : s.Fit G) {j : ℕ}
    (hf : (s.updates.isVariableFixed G j).isSome) (hj : j < G.vars.length)
    (hj0 : s.counters.columns j ≠ 0) (h : presolveFixedVariable G s j = .ok t) :
    Backs G F s.updates t.updates := by
  obtain ⟨value, hf⟩ := Option.isSome_iff_exists.1 hf
  have ht := activeColumn_tuples hG s.counters j
  obtain ⟨he, hrow⟩ := fixed_equivalent hG hs.toWF hf hj hj0
  rw [presolveFixedVariable_eq hG hs.toCounts hf hj hj0] at h
  split at h
  swap
  · cases h
  rename_i hall
  cases h
  let v : Updates := { substituted G s j value with
    removedVariables := s.updates.removedVariables ++ [(j, .solved value)] }
  have hb := isVariableFixed_iff.1 hf
  have hlive : j ∈ s.updates.live G := hs.mem_live.2 ⟨hj, hj0⟩
  have hv : v.removedVariables = s.updates.removedVariables ++ [(j, .solved value)] := rfl
  have hjv : j ∉ v.live G := by
    rw [Updates.live_cons hv]
    exact Finset.notMem_erase _ _
  refine Backs.trans (v := v) (backs_of_sound rfl rfl ?_ hs.disjoint fun x hx => ?_) (backs_removeRows
    (((activeColumn G s.counters j).map (·.1)).filter fun i => s.counters.constraint i = 1) rfl
      fun i hi _ _ x _ => ?_)
  · rw [Updates.live_cons hv]
    exact Finset.erase_subset _ _
  · refine ((equivalent_fixed (G := G) (value := value)
      (u := s.updates.only fun k => F k || decide (k ∉ v.live G))
      (v := v.only fun k => F k || decide (k ∉ v.live G)) hv hlive ?_ ?_ rfl (fun _ _ _ => rfl)
      (fun i hi hir => ?_) (fun _ _ _ => rfl) rfl) x).1.2 hx
    · rw [only_bound_of (Or.inl (by simp [hjv]))]
      exact hb.1
    · rw [only_bound_of (Or.inl (by simp [hjv]))]
      exact hb.2
    · show Option.getD (if _ then _ else _) _ = _
      split
      · rfl
      · rename_i hm
        have : coef G i j = 0 := by
          by_contra hc
          exact hm (mem_rowsOf.2 ⟨hi, hc, (hs.row_active hi).1 hir⟩)
        rw [this, zero_mul, sub_zero]
        rfl
  · rw [List.mem_filter, ht.mem_keys] at hi
    have h1 : s.counters.constraint i = 1 := by simpa using hi.2
    exact ((hrow i hi.1 h1).2 x).2 (hall i hi.1 h1)

/-! ### Certain bounds -/

/-- Bounds that are not left out stay at least as tight, and nothing else changes. -/
structure Tightened (G : GeneralForm) (F : ℕ → Bool) (u v : Updates) : Prop where
  b : v.b = u.b
  constraints : v.constraints = u.constraints
  removedVariables : v.removedVariables = u.removedVariables
  constraintsRemoved : v.constraintsRemoved = u.constraintsRemoved
  bound : ∀ k d y, BoundDirection.Respects d ((v.only F).variableBound G k d) y →
    BoundDirection.Respects d ((u.only F).variableBound G k d) y

theorem Tightened.refl (u : Updates) : Tightened G F u u :=
  ⟨rfl, rfl, rfl, rfl, fun _ _ _ h => h⟩

theorem Tightened.trans {u v w : Updates} (h : Tightened G F u v) (h' : Tightened G F v w) :
    Tightened G F u w :=
  ⟨h'.b.trans h.b, h'.constraints.trans h.constraints, h'.removedVariables.trans h.removedVariables,
    h'.constraintsRemoved.trans h.constraintsRemoved, fun k d y hy => h.bound k d y (h'.bound k d y hy)⟩

theorem Tightened.sat {u v : Updates} (h : Tightened G F u v) {x : ℕ → ℚ} (hx : (v.only F).Sat G x) :
    (u.only F).Sat G x := by
  have hlive := live_congr (G := G) h.removedVariables
  refine ⟨fun i hi hir => ?_, fun k hk d => ?_, fun p hp => ?_⟩
  · have := hx.rows i hi (by
      show i ∉ v.constraintsRemoved
      rw [h.constraintsRemoved]; exact hir)
    have e1 : (v.only F).constraintType G i = (u.only F).constraintType G i := by
      show Option.getD (v.constraints i) _ = Option.getD (u.constraints i) _
      rw [h.constraints]
    have e2 : (v.only F).rhs G i = (u.only F).rhs G i := by
      show Option.getD (v.b i) _ = Option.getD (u.b i) _
      rw [h.b]
    have e3 : (v.only F).value G i x = (u.only F).value G i x :=
      value_congr (u := v.only F) (v := u.only F) h.removedVariables i x
    rw [e1, e2, e3] at this
    exact this
  · refine h.bound k d _ (hx.bounds k ?_ d)
    show k ∈ v.live G
    rw [hlive]
    exact hk
  · exact hx.removed p (by
      show p ∈ v.removedVariables
      rw [h.removedVariables]; exact hp)

theorem tighter_respects {d : BoundDirection} {new existing y : ℚ} (ht : tighter d new existing = true)
    (h : d.Respects (some new) y) : d.Respects (some existing) y := by
  cases d <;> simp only [tighter, decide_eq_true_eq] at ht <;>
    simp only [BoundDirection.Respects] at h ⊢ <;> linarith

section

variable (u : Updates) (j : ℕ) (d : BoundDirection) (new : ℚ)

theorem updateBound_other {k : ℕ} {e : BoundDirection} (hne : ¬(k = j ∧ e = d)) :
    (u.updateBound G j d new).1.bounds k e = u.bounds k e ∧
      (u.updateBound G j d new).1.activityBounds k e = u.activityBounds k e := by
  unfold Updates.updateBound
  simp only []
  split
  · split <;> simp only [insertAt2_ne _ _ hne, and_self]
  · split
    · split <;> simp only [insertAt2_ne _ _ hne, and_self]
    · split
      · split <;> simp only [insertAt2_ne _ _ hne, and_self]
      · simp only [insertAt2_ne _ _ hne, and_self]

theorem only_congr {u v : Updates} {k : ℕ} {e : BoundDirection} (hb : v.bounds k e = u.bounds k e)
    (ha : v.activityBounds k e = u.activityBounds k e) :
    (v.only F).variableBound G k e = (u.only F).variableBound G k e := by
  unfold Updates.variableBound Updates.only
  simp only [hb, ha]

/-- A certain bound is stored as such. -/
theorem updateBound_only (hs : ∀ k e, Separated G k e (u.bounds k e) (u.activityBounds k e)) :
    Tightened G F u (u.updateBound G j d new).1 ∧
      ∀ y, d.Respects (((u.updateBound G j d new).1.only F).variableBound G j d) y →
        d.Respects (some new) y := by
  have hbd := updateBound_spec (G := G) u j d new hs
  have key : ∀ y, d.Respects (((u.updateBound G j d new).1.only F).variableBound G j d) y →
      d.Respects ((u.only F).variableBound G j d) y ∧ d.Respects (some new) y := by
    intro y hy
    have hw := hbd.respects y
    have hsame : (u.updateBound G j d new).1.activityBounds j d = none := by
      unfold Updates.updateBound
      simp only []
      split
      · rename_i b hb
        have : u.activityBounds j d = none := by
          rcases (hs j d).1 with h | h
          · rw [hb] at h; cases h
          · exact h
        split <;> exact this
      · split
        · split <;> exact insertAt2_same _ _ _ _
        · rename_i ha
          split
          · split <;> exact ha
          · exact ha
    rw [only_bound_of (Or.inr hsame)] at hy
    exact ⟨only_weaker (hs j d) (hw.1 hy).1, (hw.1 hy).2⟩
  refine ⟨⟨hbd.b, hbd.constraints, hbd.removedVariables, hbd.constraintsRemoved, fun k e y hy => ?_⟩,
    fun y hy => (key y hy).2⟩
  by_cases h : k = j ∧ e = d
  · obtain ⟨rfl, rfl⟩ := h
    exact (key y hy).1
  · have h' := updateBound_other (G := G) u j d new h
    rwa [only_congr h'.1 h'.2] at hy

/-- A derived bound. -/
theorem updateActivityVariableBound_only
    (hs : ∀ k e, Separated G k e (u.bounds k e) (u.activityBounds k e)) :
    Tightened G F u (u.updateActivityVariableBound G j d new).1 := by
  have hbd := updateActivityVariableBound_spec (G := G) u j d new hs
  refine ⟨hbd.b, hbd.constraints, hbd.removedVariables, hbd.constraintsRemoved, fun k e y hy => ?_⟩
  revert hy
  unfold Updates.updateActivityVariableBound
  split
  · rename_i a ha
    split
    · rename_i ht
      by_cases h : k = j ∧ e = d
      · obtain ⟨rfl, rfl⟩ := h
        unfold Updates.variableBound Updates.only
        cases hF : F k
        · simp [hF]
        · simp only [hF, insertAt2_same, ha, if_true, Option.some_or]
          exact tighter_respects ht
      · unfold Updates.variableBound Updates.only
        simp only [insertAt2_ne _ _ h]
        exact id
    · exact id
  · rename_i ha
    split
    · rename_i b hb
      split
      · rename_i ht
        by_cases h : k = j ∧ e = d
        · obtain ⟨rfl, rfl⟩ := h
          unfold Updates.variableBound Updates.only
          simp only [ha, ite_self, Option.none_or, insertAt2_same, hb, Option.some_or]
          exact tighter_respects ht
        · unfold Updates.variableBound Updates.only
          simp only [insertAt2_ne _ _ h]
          exact id
      · exact id
    · rename_i hb
      split
      · rename_i o ho
        split
        · rename_i ht
          by_cases h : k = j ∧ e = d
          · obtain ⟨rfl, rfl⟩ := h
            unfold Updates.variableBound Updates.only
            cases hF : F k
            · simp [hF]
            · simp only [hF, insertAt2_same, ha, hb, ho, if_true, Option.some_or, Option.none_or]
              exact tighter_respects ht
          · unfold Updates.variableBound Updates.only
            simp only [insertAt2_ne _ _ h]
            exact id
        · exact id
      · rename_i ho
        by_cases h : k = j ∧ e = d
        · obtain ⟨rfl, rfl⟩ := h
          unfold Updates.variableBound Updates.only
          simp only [ha, hb, ho, ite_self, Option.none_or]
          exact fun _ => trivial
        · unfold Updates.variableBound Updates.only
          simp only [insertAt2_ne _ _ h]
          exact id

end

/-! ### Constraints with one variable -/

theorem foldBounds_only (j : ℕ) (L : List (BoundDirection × ℚ)) : ∀ u : Updates,
    (∀ k e, Separated G k e (u.bounds k e) (u.activityBounds k e)) →
    Tightened G F u (L.foldl (fun u p => (u.updateBound G j p.1 p.2).1) u) ∧
      ∀ p ∈ L, ∀ y, ((L.foldl (fun u p => (u.updateBound G j p.1 p.2).1) u).only F).Within G j y →
        p.1.Respects (some p.2) y := by
  induction L with
  | nil => exact fun u _ => ⟨Tightened.refl u, by simp⟩
  | cons q L ih =>
    intro u hs
    obtain ⟨h1, h2⟩ := updateBound_only (F := F) u j q.1 q.2 hs
    obtain ⟨h3, h4⟩ := ih _ (updateBound_spec (G := G) u j q.1 q.2 hs).disjoint
    refine ⟨h1.trans h3, fun p hp y hy => ?_⟩
    rcases List.mem_cons.1 hp with rfl | hp
    · exact h2 y (h3.bound j p.1 y (hy p.1))
    · exact h4 p hp y hy

section

variable {s₀ s t : Index} {i j : ℕ} {rest : List ℕ}

theorem presolveBoundConstraint_backs (hG : G.Consistent) (hs : s₀.Fit G)
    (hi : i < G.constraintTypes.length)
    (h1 : s₀.counters.constraint i = 1) (hsub : rest ⊆ s₀.queues.bound)
    (hrest : ∀ k ≠ i, s₀.counters.constraint k = 1 → k ∈ s₀.queues.bound → k ∈ rest)
    (h : presolveBoundConstraint G { s₀ with queues := { s₀.queues with bound := rest } } i = .ok t) :
    Backs G F s₀.updates t.updates := by
  obtain ⟨j, r, hv, ha, heq⟩ := presolveBoundConstraint_eq hG hs.toWF hi h1 hsub hrest
  rw [heq] at h
  have hjm : j ∈ varsOf G s₀.counters i := by rw [hv]; simp
  have hj := mem_varsOf.1 hjm
  have hgone := boundRowGone_spec hG hs.toCounts hi h1 hv hsub hrest
  let w : Updates := { s₀.updates with constraintsRemoved := s₀.updates.constraintsRemoved ++ [i] }
  have hm : BoundsMerged G w j
      (boundsOfConstraint (s₀.updates.constraintType G i) (s₀.updates.rhs G i) (coef G i j))
      r.updates := ha.merged
  have hequiv := bound_equivalent hs.toWF hi h1 hv hm
  have hlive := live_congr (G := G) (u := r.updates) (v := s₀.updates) hm.removedVariables
  have hjl : j ∈ r.updates.live G := by rw [hlive, hs.mem_live]; exact ⟨hj.1, hj.2.2⟩
  have hcr : r.updates.constraintsRemoved = s₀.updates.constraintsRemoved ++ [i] :=
    hm.constraintsRemoved
  have hir : i ∉ s₀.updates.constraintsRemoved := (hs.row_active hi).2 (by omega)
  have hback : Backs G F s₀.updates r.updates := by
    refine ⟨fun x hx => ?_, fun x hx _ => (hequiv x).1.1 hx⟩
    obtain ⟨h2, h3⟩ := foldBounds_only (F := F) j
      (boundsOfConstraint (s₀.updates.constraintType G i) (s₀.updates.rhs G i) (coef G i j)) w hs.disjoint
    have hu : r.updates = (boundsOfConstraint (s₀.updates.constraintType G i) (s₀.updates.rhs G i)
      (coef G i j)).foldl (fun u p => (u.updateBound G j p.1 p.2).1) w := ha.updates
    rw [← hu] at h2 h3
    have h4 := h2.sat hx
    refine ⟨fun k hk hkr => ?_, h4.bounds, h4.removed⟩
    by_cases hki : k = i
    · subst hki
      have hvalue : (s₀.updates.only F).value G k x = coef G k j * x j := by
        have : (s₀.updates.only F).value G k x = s₀.updates.value G k x := rfl
        rw [this, hs.value_eq, hv, Finset.sum_singleton]
      rw [hvalue]
      exact (boundsOfConstraint_iff hj.2.1 (x j)).1 fun p hp => h3 p hp (x j) fun d => hx.bounds j hjl d
    · refine h4.rows k hk fun h => ?_
      have h' : k ∈ s₀.updates.constraintsRemoved ++ [i] := h
      rw [List.mem_append, List.mem_singleton] at h'
      exact h'.elim hkr hki
  split at h
  · cases h
  · rename_i value hfeas
    have hcross : ∀ l ∈ r.updates.variableBound G j .lower,
        ∀ q ∈ r.updates.variableBound G j .upper, l ≤ q := by
      rw [← feasibleValue_isSome, hfeas]
      simp
    rw [queueVariable_eq] at h
    by_cases hc0 : r.counters.columns j = 0
    · rw [if_pos hc0] at h
      have hcol1 : s₀.counters.columns j = 1 := by
        rw [ha.columns, hgone.columns] at hc0
        simp only [if_pos hjm] at hc0
        have := hj.2.2
        omega
      have hempty : ∀ k < G.constraintTypes.length, k ∉ r.updates.constraintsRemoved →
          coef G k j = 0 := by
        rw [hcr]
        exact emptied_coef hs.toWF hi (by omega) hjm hcol1
      have hord : Ordered r.updates.removedVariables := by
        rw [hm.removedVariables]; exact hs.ordered
      have hnod : (r.updates.removedVariables.map (·.1)).Nodup := by
        rw [hm.removedVariables]; exact hs.varsNodup
      cases he : emptyValue G r.updates j with
      | error e => rw [he] at h; cases h
      | ok w =>
        rw [he] at h
        cases h
        refine hback.trans (backs_solveVars [(j, w)] hord hnod (by simp) ?_ ?_ ?_ ha.counts.disjoint)
        · intro p hp; rw [List.mem_singleton] at hp; subst hp; exact hjl
        · intro p hp; rw [List.mem_singleton] at hp; subst hp; exact hempty
        · intro p hp; rw [List.mem_singleton] at hp; subst hp; exact emptyValue_ok he hcross
    · rw [if_neg hc0] at h
      cases h
      exact hback

/-! ### Slack variables -/

theorem presolveSlack_both_backs (hG : G.Fresh) (hs : s.Fit G) (hj : j < G.vars.length)
    (h1 : s.counters.columns j = 1) (hr : rowsOf G s.counters j = {i}) (hcost : costOf G j = 0)
    (hl : s.updates.variableBound G j .lower = none)
    (hu : s.updates.variableBound G j .upper = none) (h : presolveSlack G s j = .ok t) :
    Backs G F s.updates t.updates := by
  have him : i ∈ rowsOf G s.counters j := by rw [hr]; simp
  have hi := mem_rowsOf.1 him
  have hir : i ∉ s.updates.constraintsRemoved := (hs.row_active hi.1).2 hi.2.2
  have ht := activeRow_tuples hG.toConsistent s.counters hi.1
  have hcase : slackCase (s.updates.constraintType G i) (s.updates.variableBound G j .lower)
      (s.updates.variableBound G j .upper) (coef G i j) = none := by
    rw [hl, hu]
    unfold slackCase
    split <;> rfl
  rw [presolveSlack_both hG.toConsistent hs.toCounts hj h1 hr hcase] at h
  have hmemE : ∀ k, k ∈ slackEmptied G s i j ↔
      k ∈ varsOf G s.counters i ∧ k ≠ j ∧ s.counters.columns k = 1 := by
    intro k
    unfold slackEmptied
    rw [List.mem_filter, ht.mem_keys]
    simp
  have hcons : (slackGone G s i j).removedVariables =
      s.updates.removedVariables ++ [(j, removedVariableSolution G s i j (coef G i j))] := rfl
  have hlive : ∀ k ∈ slackEmptied G s i j, k ∈ (slackGone G s i j).live G := by
    intro k hk
    rw [hmemE] at hk
    have hk' := mem_varsOf.1 hk.1
    rw [Updates.live_cons hcons, Finset.mem_erase, hs.mem_live]
    exact ⟨hk.2.1, hk'.1, hk'.2.2⟩
  have hjg : j ∉ (slackGone G s i j).live G := by
    rw [Updates.live_cons hcons]
    exact Finset.notMem_erase _ _
  have hgone : Backs G F s.updates (slackGone G s i j) := by
    refine backs_of_sound rfl rfl ?_ hs.disjoint fun x hx => ?_
    · rw [Updates.live_cons hcons]
      exact Finset.erase_subset _ _
    · let F' : ℕ → Bool := fun k => F k || decide (k ∉ (slackGone G s i j).live G)
      refine ((refines_slack (G := G) (i := i) (j := j) (u := s.updates.only F')
        (v := (slackGone G s i j).only F') rfl (hs.mem_live.2 ⟨hj, by omega⟩) hcost
        (fun k hk hkr hki => slack_only hs.toWF hr hk hkr hki) (slackGone_ordered hG hs.toWF hi.1)
        (slackGone_nodup hs.toWF hj h1) (fun k hk hki => ?_) (fun _ _ _ => rfl) (fun _ _ _ => rfl)
        (fun _ _ _ => rfl) rfl hi.1 hir (fun x hx _ => ?_) (fun x _ _ h => ?_)).sound x hx).1
      · show k ∈ s.updates.constraintsRemoved ++ _ ↔ k ∈ s.updates.constraintsRemoved
        rw [List.mem_append, List.mem_singleton]
        exact ⟨fun h => h.resolve_right hki, Or.inl⟩
      · constructor
        · show (s.updates.constraintType G i).Holds (s.updates.rhs G i)
            (coef G i j * x j + (slackGone G s i j).value G i x)
          rw [solution_valueAt hG hs.toWF hi.1, ← value_slack hs.toWF (v := slackGone G s i j) rfl] at hx
          have : coef G i j * x j + (slackGone G s i j).value G i x = s.updates.rhs G i := by
            rw [hx, mul_div_cancel₀ _ hi.2.1]
            ring
          rw [this]
          cases ht : s.updates.constraintType G i with
          | equal => rfl
          | less => exact le_refl _
          | greater => exact le_refl _
          | range r =>
            have := hs.proper.ranges i hi.1 hir r ht
            exact ⟨by linarith, le_refl _⟩
        · intro d
          rw [only_bound_of (Or.inl (by simp [F', hjg]))]
          cases d
          · rw [hl]; trivial
          · rw [hu]; trivial
      · exact absurd (List.mem_append_right _ (List.mem_singleton.2 rfl)) h
  cases he : emptyValues G s.updates (slackEmptied G s i j) with
  | error e => rw [he] at h; cases h
  | ok solved =>
    rw [he] at h
    cases h
    obtain ⟨hkeys, hvals⟩ := emptyValues_ok he
    have hmem : ∀ p ∈ solved, p.1 ∈ slackEmptied G s i j := fun p hp =>
      hkeys ▸ List.mem_map_of_mem hp
    refine (hgone.trans (backs_solveVars solved (slackGone_ordered hG hs.toWF hi.1)
      (slackGone_nodup hs.toWF hj h1) (by rw [hkeys]; exact ht.nodup.filter _)
      (fun p hp => hlive _ (hmem p hp))
      (fun p hp => emptied_coef hs.toWF hi.1 hi.2.2 ((hmemE _).1 (hmem p hp)).1
        ((hmemE _).1 (hmem p hp)).2.2)
      (fun p hp => emptyValue_ok (hvals p hp) fun l hl r hr => ?_) hs.disjoint)).trans (backs_perm
        (L := (slackBothState G s i j solved).updates.removedVariables) rfl ?_)
    · have hk' := mem_varsOf.1 ((hmemE _).1 (hmem p hp)).1
      exact hs.proper.bounds p.1 (hs.mem_live.2 ⟨hk'.1, hk'.2.2⟩) l hl r hr
    · show List.Perm ((_ ++ _) ++ _) ((_ ++ _) ++ _)
      rw [List.append_assoc, List.append_assoc]
      exact (List.perm_append_comm).append_left _

theorem presolveSlack_column_backs (hG : G.Fresh) (hs : s.Fit G) (hj : j < G.vars.length)
    (h1 : s.counters.columns j = 1) (hr : rowsOf G s.counters j = {i}) (hcost : costOf G j = 0)
    (h2 : 2 ≤ s.counters.constraint i) {newType : ConstraintType} {bound : ℚ}
    (hcase : slackCase (s.updates.constraintType G i) (s.updates.variableBound G j .lower)
      (s.updates.variableBound G j .upper) (coef G i j) = some (newType, bound))
    (hgood : SlackGood (s.updates.constraintType G i) (s.updates.variableBound G j .lower)
      (s.updates.variableBound G j .upper) (coef G i j)) (h : presolveSlack G s j = .ok t) :
    Backs G F s.updates t.updates := by
  obtain ⟨t', ht, hgone, hu⟩ := presolveSlack_column hG.toConsistent hs.toCounts hj h1 hr h2 hcase
  rw [ht] at h
  cases h
  have hc := presolveSlack_column_correct hG hs hj h1 hr hcost h2 hcase hgood
  rw [ht] at hc
  have hwf := hc.1.toWF
  have him : i ∈ rowsOf G s.counters j := by rw [hr]; simp
  have hi := mem_rowsOf.1 him
  have hir : i ∉ s.updates.constraintsRemoved := (hs.row_active hi.1).2 hi.2.2
  have hj0 : s.counters.columns j ≠ 0 := by omega
  have hjl : j ∈ s.updates.live G := hs.mem_live.2 ⟨hj, hj0⟩
  have hremoved : t.updates.removedVariables =
      s.updates.removedVariables ++ [(j, slackRemoved G s i j bound)] := by rw [hu]; rfl
  have hjg : j ∉ t.updates.live G := by
    rw [Updates.live_cons hremoved]
    exact Finset.notMem_erase _ _
  have hbounds := hs.proper.bounds j hjl
  have hranges := hs.proper.ranges i hi.1 hir
  have hb : t.updates.bounds = s.updates.bounds := by rw [hu]; rfl
  have hab : t.updates.activityBounds = s.updates.activityBounds := by rw [hu]; rfl
  refine backs_of_sound hb hab ?_ hs.disjoint fun x hx => ?_
  · rw [Updates.live_cons hremoved]
    exact Finset.erase_subset _ _
  let F' : ℕ → Bool := fun k => F k || decide (k ∉ t.updates.live G)
  have htype : ∀ k, (t.updates.only F').constraintType G k = t.updates.constraintType G k := fun _ => rfl
  have hrhs : ∀ k, (t.updates.only F').rhs G k = t.updates.rhs G k := fun _ => rfl
  have hvalue : ∀ k x, (t.updates.only F').value G k x = t.updates.value G k x := fun _ _ => rfl
  have hrow : ∀ x : ℕ → ℚ, x j = (slackRemoved G s i j bound).valueAt x →
      (t.updates.constraintType G i).Holds (t.updates.rhs G i) (t.updates.value G i x) →
      (s.updates.constraintType G i).Holds (s.updates.rhs G i)
        (coef G i j * x j + t.updates.value G i x) ∧ s.updates.Within G j (x j) := by
    intro x hx hrow
    rw [value_slack hs.toWF hremoved] at hrow ⊢
    rw [slackRemoved_valueAt hG hs.toWF hi.1] at hx
    rw [hu, slackColumn_rhs, slackColumn_type] at hrow
    obtain ⟨h3, h4, h5⟩ := slackCase_sound hi.2.1 hcase hgood hbounds hranges hrow hx
    refine ⟨h3, fun d => ?_⟩
    cases d
    · exact h4
    · exact h5
  have hw : ∀ y, (s.updates.only F').Within G j y ↔ s.updates.Within G j y := by
    intro y
    unfold Updates.Within
    simp only [only_bound_of (G := G) (u := s.updates) (F := F') (j := j) (Or.inl (by simp [F', hjg]))]
  have hir' : i ∉ t.updates.constraintsRemoved := by rw [hu]; exact hir
  refine ((refines_slack (G := G) (i := i) (j := j) (r := slackRemoved G s i j bound)
    (u := s.updates.only F') (v := t.updates.only F') hremoved hjl hcost
    (fun k hk hkr hki => slack_only hs.toWF hr hk hkr hki) hwf.ordered hwf.varsNodup
    (fun k hk hki => ?_) (fun k hk hki => ?_) (fun k hk hki => ?_) (fun k _ d => ?_) ?_ hi.1 hir
    (fun x hx hr => ?_) (fun x hx hr hir' => ?_)).sound x hx).1
  · show k ∈ t.updates.constraintsRemoved ↔ _
    rw [hu]; rfl
  · show t.updates.constraintType G k = _
    rw [hu]; exact slackColumn_type_ne _ _ hki
  · show t.updates.rhs G k = _
    rw [hu]; exact slackColumn_rhs_ne _ _ hki
  · exact only_congr (by rw [hb]) (by rw [hab])
  · show t.updates.fixedCost = _
    rw [hu]; rfl
  · rw [hw]
    exact hrow x hx (hr hir')
  · rw [hw] at hx
    show (t.updates.constraintType G i).Holds (t.updates.rhs G i) (t.updates.value G i x)
    rw [hu, slackColumn_rhs, slackColumn_type, ← hu]
    exact slackCase_complete hi.2.1 hcase hgood (hx .lower) (hx .upper) hr

theorem presolveSlack_backs (hG : G.Fresh) (hs : s.Fit G) (hb : s.queues.bound = [])
    (hj : j < G.vars.length) (h1 : s.counters.columns j = 1) (hcost : costOf G j = 0)
    (hgood : ∀ i ∈ rowsOf G s.counters j, SlackGood (s.updates.constraintType G i)
      (s.updates.variableBound G j .lower) (s.updates.variableBound G j .upper) (coef G i j))
    (h : presolveSlack G s j = .ok t) : Backs G F s.updates t.updates := by
  obtain ⟨i, hr, _⟩ := slackRow hG.toConsistent hs.toCounts hj h1
  have him : i ∈ rowsOf G s.counters j := by rw [hr]; simp
  have hi := mem_rowsOf.1 him
  have hgood := hgood i him
  have h2 : 2 ≤ s.counters.constraint i := by
    have h3 := hi.2.2
    have h4 : s.counters.constraint i ≠ 1 := by
      intro h
      have := hs.allBounds i hi.1 h
      rw [hb] at this
      cases this
    omega
  cases hcase : slackCase (s.updates.constraintType G i) (s.updates.variableBound G j .lower)
      (s.updates.variableBound G j .upper) (coef G i j) with
  | some p =>
    exact presolveSlack_column_backs hG hs hj h1 hr hcost h2 (newType := p.1) (bound := p.2)
      hcase hgood h
  | none =>
    have : s.updates.variableBound G j .lower = none ∧ s.updates.variableBound G j .upper = none := by
      revert hcase hgood
      generalize s.updates.constraintType G i = t
      generalize s.updates.variableBound G j .lower = l
      generalize s.updates.variableBound G j .upper = u
      unfold slackCase SlackGood
      intro h1 h2
      split at h2 <;> rename_i hc <;> simp only [hc, if_true, if_false] at h1 <;>
        cases t <;> cases l <;> cases u <;> simp at h1 h2 ⊢
    exact presolveSlack_both_backs hG hs hj h1 hr hcost this.1 this.2 h

end

/-! ### Propagation -/

section

theorem foldlM_updates {α : Type} {f : Index → α → Run Index}
    (hf : ∀ s a t, f s a = .ok t → t.updates = s.updates) (l : List α) :
    ∀ {s t : Index}, l.foldlM f s = .ok t → t.updates = s.updates := by
  induction l with
  | nil => intro s t h; cases h; rfl
  | cons a l ih =>
    intro s t h
    rw [List.foldlM_cons] at h
    cases h1 : f s a with
    | error e => rw [h1] at h; cases h
    | ok r =>
      rw [h1] at h
      exact (ih h).trans (hf s a r h1)

theorem updateActivityCounters_updates {s t : Index} {j : ℕ} {d : BoundDirection}
    (h : updateActivityCounters G s j d = .ok t) : t.updates = s.updates := by
  refine foldlM_updates (fun s p t h => ?_) _ h
  unfold updateActivityCounter at h
  simp only [bind, Except.bind] at h
  split at h
  · cases h
  · split at h
    · cases h; rfl
    · cases h; rfl

theorem updateActivityBounds_updates (s : Index) (j : ℕ) (d : BoundDirection) (q : ℚ) :
    (updateActivityBounds G s j d q).updates = s.updates := by
  unfold updateActivityBounds
  generalize activeColumn G s.counters j = l
  induction l generalizing s with
  | nil => rfl
  | cons a l ih =>
    rw [List.foldl_cons, ih]
    unfold updateActivityBound
    split
    · simp only []
      split <;> rfl
    · rfl

theorem afterBoundChange_updates {s t : Index} {j : ℕ} {d : BoundDirection} {c : BoundChange}
    (h : afterBoundChange G s j d c = .ok t) : t.updates = s.updates := by
  unfold afterBoundChange at h
  have hq : ∀ s : Index, (if (s.updates.isVariableFixed G j).isSome ∧ 0 < s.counters.columns j then
      { s with queues := { s.queues with substitution := j :: s.queues.substitution } }
    else s).updates = s.updates := by
    intro s
    split <;> rfl
  cases c with
  | none => cases h; rfl
  | newBound => exact (updateActivityCounters_updates h).trans (hq s)
  | boundShift q =>
    cases h
    exact (updateActivityBounds_updates _ _ _ _).trans (hq s)

variable {s t : Index} {i : ℕ} {d : BoundDirection}

theorem variablePart_tightened {rhs bound : ℚ} (l : List (ℕ × ℚ)) : ∀ {s t : Index} {c c' : Change},
    (∀ k e, Separated G k e (s.updates.bounds k e) (s.updates.activityBounds k e)) →
    l.foldlM (variableStep G rhs bound d) (s, c) = .ok (t, c') → Tightened G F s.updates t.updates := by
  induction l with
  | nil => intro s t c c' _ h; cases h; exact Tightened.refl _
  | cons p l ih =>
    intro s t c c' hs h
    rw [List.foldlM_cons] at h
    cases h1 : variableStep G rhs bound d (s, c) p with
    | error e => rw [h1] at h; cases h
    | ok q =>
      obtain ⟨r, c''⟩ := q
      rw [h1] at h
      unfold variableStep at h1
      simp only [bind, Except.bind] at h1
      split at h1
      · cases h1
      · rename_i value _
        split at h1
        · cases h1
        · rename_i r' hr'
          cases h1
          have hu := afterBoundChange_updates hr'
          simp only [] at hu
          have h2 := updateActivityVariableBound_only (F := F) s.updates p.1 (d.flip.times p.2)
            ((rhs - (bound - p.2 * value)) / p.2) hs
          have h3 := (updateActivityVariableBound_spec (G := G) s.updates p.1 (d.flip.times p.2)
            ((rhs - (bound - p.2 * value)) / p.2) hs).disjoint
          rw [← hu] at h2 h3
          exact h2.trans (ih h3 h)

theorem createVariableBound_backs (hG : G.Consistent) (hs : s.Fit G) (hi : i < G.constraintTypes.length)
    (hi0 : s.counters.constraint i ≠ 0) (h1 : s.counters.activity i d = 1) {c : Change}
    (h : createVariableBound G s i d = .ok (t, c)) : Backs G F s.updates t.updates := by
  obtain ⟨r, c', e, hr⟩ := createVariableBound_spec hG hs hi hi0 h1
  rw [e] at h
  cases h
  refine ⟨fun x hx => ?_, fun x hx _ => (hr.equivalent x).1.1 hx⟩
  have : Tightened G F s.updates t.updates := by
    unfold createVariableBound at e
    split at e
    · cases e; exact Tightened.refl _
    · simp only [bind, Except.bind] at e
      split at e
      · cases e
      · split at e
        · cases e
        · rename_i r' hr'
          cases e
          have hu := afterBoundChange_updates hr'
          simp only [] at hu
          rw [hu]
          exact updateActivityVariableBound_only _ _ _ _ hs.disjoint
  exact this.sat hx

/-- The value of the row is on the right side of the activity bound, if the bounds used for it hold. -/
theorem respects_activity_only (hs : s.WF G) (hi : i < G.constraintTypes.length)
    (hi0 : s.counters.constraint i ≠ 0) (h0 : s.counters.activity i d = 0) {x : ℕ → ℚ}
    (hF : ∀ j ∈ varsOf G s.counters i,
      F j = true ∨ s.updates.activityBounds j (d.times (coef G i j)) = none)
    (hx : (s.updates.only F).BoundsHold G x) :
    d.Respects (some (activityAt G s i d)) (s.updates.value G i x) := by
  rw [hs.value_eq]
  unfold activityAt
  refine BoundDirection.respects_sum fun k hk => ?_
  obtain ⟨b, hb⟩ := bound_of_count hs.toCounts hi hi0 h0 hk
  have hk' := mem_varsOf.1 hk
  have := hx k (hs.mem_live.2 ⟨hk'.1, hk'.2.2⟩) (d.times (coef G i k))
  rw [only_bound_of (hF k hk), hb] at this
  rw [hb]
  exact (BoundDirection.respects_times hk'.2.1 b (x k)).1 this

theorem removeRow_backs (hG : G.Consistent) (hs : s.Fit G) (hi : i < G.constraintTypes.length)
    (hi0 : s.counters.constraint i ≠ 0)
    (hrow : ∀ x, (s.updates.only F).BoundsHold G x →
      (s.updates.constraintType G i).Holds (s.updates.rhs G i) (s.updates.value G i x))
    (h : removeConstraintValues G s i = .ok t) :
    Backs G F s.updates (removeConstraint t i).updates := by
  have ht := activeRow_tuples hG s.counters hi
  rw [removeConstraintValues_eq hG hs.toCounts hi hi0] at h
  let u : Updates := { s.updates with constraintsRemoved := s.updates.constraintsRemoved ++ [i] }
  have hu : Backs G F s.updates u := backs_removeRows [i] rfl (by
    intro k hk _ _ x hx
    rw [List.mem_singleton] at hk
    rw [hk]
    exact hrow x hx)
  have hlive : ∀ k ∈ emptied G s i, k ∈ s.updates.live G := by
    intro k hk
    have hk' := mem_varsOf.1 ((mem_emptied hG hi).1 hk).1
    exact hs.mem_live.2 ⟨hk'.1, hk'.2.2⟩
  cases he : emptyValues G s.updates (emptied G s i) with
  | error e => rw [he] at h; cases h
  | ok solved =>
    rw [he] at h
    cases h
    obtain ⟨hkeys, hvals⟩ := emptyValues_ok he
    have hmem : ∀ p ∈ solved, p.1 ∈ emptied G s i := fun p hp => hkeys ▸ List.mem_map_of_mem hp
    exact hu.trans (backs_solveVars solved hs.ordered hs.varsNodup
      (by rw [hkeys]; exact ht.nodup.filter _) (fun p hp => hlive _ (hmem p hp))
      (fun p hp => emptied_coef hs.toWF hi hi0 ((mem_emptied hG hi).1 (hmem p hp)).1
        ((mem_emptied hG hi).1 (hmem p hp)).2)
      (fun p hp => emptyValue_ok (hvals p hp) fun l hl r hr =>
        hs.proper.bounds _ (hlive _ (hmem p hp)) l hl r hr) hs.disjoint)

/-- All variables of a row get the value of one of their bounds; these bounds are certain. -/
theorem setFold_only (l : List (ℕ × ℚ)) : ∀ {t r : Index} {new new' : List (ℕ × BoundDirection)},
    (l.map (·.1)).Nodup →
    (∀ k e, Separated G k e (t.updates.bounds k e) (t.updates.activityBounds k e)) →
    l.foldlM (setVariableToBound G d) (t, new) = .ok (r, new') →
    (r.updates.b = t.updates.b ∧ r.updates.constraints = t.updates.constraints ∧
      r.updates.removedVariables = t.updates.removedVariables ∧
      r.updates.constraintsRemoved = t.updates.constraintsRemoved) ∧
    (∀ k ∉ l.map (·.1), ∀ e, r.updates.bounds k e = t.updates.bounds k e ∧
      r.updates.activityBounds k e = t.updates.activityBounds k e) ∧
    ∀ p ∈ l, ∃ b, t.updates.variableBound G p.1 (d.times p.2) = some b ∧
      ∀ y, (r.updates.only F).Within G p.1 y → y = b := by
  induction l with
  | nil =>
    intro t r new new' _ _ h
    cases h
    exact ⟨⟨rfl, rfl, rfl, rfl⟩, fun _ _ _ => ⟨rfl, rfl⟩, by simp⟩
  | cons p l ih =>
    intro t r new new' hn hs h
    rw [List.map_cons, List.nodup_cons] at hn
    rw [List.foldlM_cons] at h
    cases hb : t.updates.variableBound G p.1 (d.times p.2) with
    | none =>
      have : setVariableToBound G d (t, new) p = .error (.abort .unwrapNone) := by
        unfold setVariableToBound
        simp only [hb, unwrap, bind, Except.bind]
      rw [this] at h
      cases h
    | some b =>
      let u : Updates := match t.updates.activityBounds p.1 (d.times p.2) with
        | some value =>
          { t.updates with
            activityBounds := insertAt2 t.updates.activityBounds p.1 (d.times p.2) none
            bounds := insertAt2 t.updates.bounds p.1 (d.times p.2) (some value) }
        | none => t.updates
      have hstep : setVariableToBound G d (t, new) p = .ok
          ({ t with
            updates := (u.updateBound G p.1 (d.times p.2).flip b).1
            queues := { t.queues with substitution := p.1 :: t.queues.substitution } },
          if (u.updateBound G p.1 (d.times p.2).flip b).2 = .newBound then
            new ++ [(p.1, (d.times p.2).flip)] else new) := by
        unfold setVariableToBound
        simp only [hb, unwrap, bind, Except.bind, pure, Except.pure]
        rfl
      rw [hstep] at h
      have hu : (u.b = t.updates.b ∧ u.constraints = t.updates.constraints ∧
          u.removedVariables = t.updates.removedVariables ∧
          u.constraintsRemoved = t.updates.constraintsRemoved) ∧
          (∀ k e, Separated G k e (u.bounds k e) (u.activityBounds k e)) ∧
          (∀ k ≠ p.1, ∀ e, u.bounds k e = t.updates.bounds k e ∧
            u.activityBounds k e = t.updates.activityBounds k e) ∧
          (u.only F).variableBound G p.1 (d.times p.2) = some b := by
        cases hact : t.updates.activityBounds p.1 (d.times p.2) with
        | none =>
          have e : u = t.updates := by simp only [u, hact]
          rw [e]
          refine ⟨⟨rfl, rfl, rfl, rfl⟩, hs, fun _ _ _ => ⟨rfl, rfl⟩, ?_⟩
          rw [only_bound_of (Or.inr hact), hb]
        | some value =>
          have e : u = { t.updates with
              activityBounds := insertAt2 t.updates.activityBounds p.1 (d.times p.2) none
              bounds := insertAt2 t.updates.bounds p.1 (d.times p.2) (some value) } := by
            simp only [u, hact]
          rw [e]
          refine ⟨⟨rfl, rfl, rfl, rfl⟩, fun k e => ?_, fun k hk e => ?_, ?_⟩
          · by_cases h : k = p.1 ∧ e = d.times p.2
            · obtain ⟨rfl, rfl⟩ := h
              exact ⟨Or.inr (insertAt2_same _ _ _ _), by simp only [insertAt2_same]; simp⟩
            · simp only [insertAt2_ne _ _ h]
              exact hs k e
          · simp only [insertAt2_ne _ _ fun h : k = p.1 ∧ e = d.times p.2 => hk h.1, and_self]
          · have hv : value = b := by
              unfold Updates.variableBound at hb
              rw [hact] at hb
              simpa using hb
            unfold Updates.variableBound Updates.only
            simp only [insertAt2_same, ite_self, hv]
            rfl
      obtain ⟨⟨u1, u2, u3, u4⟩, u5, u6, u7⟩ := hu
      have hbu := updateBound_spec (G := G) u p.1 (d.times p.2).flip b u5
      obtain ⟨htight, hnew⟩ := updateBound_only (F := F) u p.1 (d.times p.2).flip b u5
      obtain ⟨⟨h1, h2, h3, h4⟩, h5, h6⟩ := ih hn.2 hbu.disjoint h
      refine ⟨⟨h1.trans (hbu.b.trans u1), h2.trans (hbu.constraints.trans u2),
        h3.trans (hbu.removedVariables.trans u3), h4.trans (hbu.constraintsRemoved.trans u4)⟩,
        fun k hk e => ?_, fun q hq => ?_⟩
      · rw [List.map_cons, List.mem_cons, not_or] at hk
        have a1 := h5 k hk.2 e
        have a2 := updateBound_other (G := G) u p.1 (d.times p.2).flip b (k := k) (e := e)
          fun h => hk.1 h.1
        have a3 := u6 k hk.1 e
        exact ⟨a1.1.trans (a2.1.trans a3.1), a1.2.trans (a2.2.trans a3.2)⟩
      · rcases List.mem_cons.1 hq with rfl | hq
        · refine ⟨b, hb, fun y hy => ?_⟩
          have hsame : ∀ e, (r.updates.only F).variableBound G q.1 e =
              ((u.updateBound G q.1 (d.times q.2).flip b).1.only F).variableBound G q.1 e := by
            intro e
            have := h5 q.1 hn.1 e
            exact only_congr this.1 this.2
          have hw : ∀ e, BoundDirection.Respects e
              (((u.updateBound G q.1 (d.times q.2).flip b).1.only F).variableBound G q.1 e) y := by
            intro e
            rw [← hsame]
            exact hy e
          have a1 := htight.bound q.1 (d.times q.2) y (hw _)
          rw [u7] at a1
          have a2 := hnew y (hw _)
          rw [BoundDirection.respects_flip] at a2
          exact BoundDirection.respects_antisymm a1 a2
        · obtain ⟨b', hb', hy⟩ := h6 q hq
          refine ⟨b', ?_, hy⟩
          have hne : q.1 ≠ p.1 := fun h => hn.1 (h ▸ List.mem_map_of_mem hq)
          rw [← hb']
          show _ = (u.updateBound G p.1 (d.times p.2).flip b).1.variableBound G q.1 (d.times q.2)
          rw [hbu.other _ _ fun h => hne h.1]
          have := u6 q.1 hne (d.times q.2)
          unfold Updates.variableBound
          rw [this.1, this.2]


theorem setVariables_backs (hG : G.Consistent) (hs : s.Fit G) (hi : i < G.constraintTypes.length)
    (hi0 : s.counters.constraint i ≠ 0) (h0 : s.counters.activity i d = 0)
    (htight : ∀ V, d.Respects (some (activityAt G s i d)) V →
      ((s.updates.constraintType G i).Holds (s.updates.rhs G i) V ↔ V = activityAt G s i d))
    {r : Index} {new : List (ℕ × BoundDirection)}
    (e1 : (activeRow G s.counters i).foldlM (setVariableToBound G d) (s, []) = .ok (r, new))
    (e2 : new.foldlM (fun s p => updateActivityCounters G s p.1 p.2) r = .ok t)
    (hn : Narrower G s t) :
    Backs G F s.updates t.updates ∧ ∀ x, (t.updates.only F).BoundsHold G x →
      (t.updates.constraintType G i).Holds (t.updates.rhs G i) (t.updates.value G i x) := by
  have htu := activeRow_tuples hG s.counters hi
  have hu : t.updates = r.updates := foldlM_updates (fun _ _ _ h => updateActivityCounters_updates h) _ e2
  obtain ⟨⟨f1, f2, f3, f4⟩, f5, f6⟩ := setFold_only (F := F) _ htu.nodup hs.disjoint e1
  rw [← hu] at f1 f2 f3 f4 f5 f6
  have hlive := live_congr (G := G) f3
  have hset : ∀ k ∈ varsOf G s.counters i, ∃ b,
      s.updates.variableBound G k (d.times (coef G i k)) = some b ∧
        ∀ y, (t.updates.only F).Within G k y → y = b := by
    intro k hk
    exact f6 (k, coef G i k) ((htu.mem _).2 ⟨hk, rfl⟩)
  have hsat : ∀ x, (t.updates.only F).Sat G x → (s.updates.only F).Sat G x := by
    intro x hx
    have hcongr : (s.updates.only F).RowsHold G x := by
      intro k hk hkr
      have := hx.rows k hk (by show k ∉ t.updates.constraintsRemoved; rw [f4]; exact hkr)
      have g1 : (t.updates.only F).constraintType G k = (s.updates.only F).constraintType G k := by
        show Option.getD (t.updates.constraints k) _ = Option.getD (s.updates.constraints k) _
        rw [f2]
      have g2 : (t.updates.only F).rhs G k = (s.updates.only F).rhs G k := by
        show Option.getD (t.updates.b k) _ = Option.getD (s.updates.b k) _
        rw [f1]
      have g3 : (t.updates.only F).value G k x = (s.updates.only F).value G k x :=
        value_congr (u := t.updates.only F) (v := s.updates.only F) f3 k x
      rw [g1, g2, g3] at this
      exact this
    refine ⟨hcongr, fun k hk e => ?_, fun p hp => hx.removed p (by
      show p ∈ t.updates.removedVariables
      rw [f3]; exact hp)⟩
    have hkl : k ∈ t.updates.live G := by rw [hlive]; exact hk
    have hk' : k ∈ s.updates.live G := hk
    by_cases hj : k ∈ varsOf G s.counters i
    · obtain ⟨b, hb, hy⟩ := hset k hj
      have hxk := hy (x k) fun e => hx.bounds k hkl e
      refine only_weaker (hs.disjoint k e) ?_
      rw [hxk]
      cases hc : s.updates.variableBound G k e with
      | none => trivial
      | some c =>
        rcases BoundDirection.eq_or_flip (d.times (coef G i k)) e with h | h
        · rw [h, hb] at hc
          cases hc
          exact BoundDirection.respects_refl _ _
        · have hbd := hs.proper.bounds k hk'
          rw [h] at hc ⊢
          revert hb hc
          cases d.times (coef G i k) with
          | lower => exact fun hb hc => hbd b hb c hc
          | upper => exact fun hb hc => hbd c hc b hb
    · have := f5 k (fun h => hj (htu.mem_keys.1 h)) e
      rw [← only_congr (F := F) this.1 this.2]
      exact hx.bounds k hkl e
  refine ⟨⟨hsat, fun x hx _ => (hn.equivalent x).1.1 hx⟩, fun x hx => ?_⟩
  have e1 : t.updates.constraintType G i = s.updates.constraintType G i := by
    show Option.getD (t.updates.constraints i) _ = Option.getD (s.updates.constraints i) _
    rw [f2]
  have e2 : t.updates.rhs G i = s.updates.rhs G i := by
    show Option.getD (t.updates.b i) _ = Option.getD (s.updates.b i) _
    rw [f1]
  rw [e1, e2, value_congr f3]
  have hval : s.updates.value G i x = activityAt G s i d := by
    rw [hs.value_eq]
    unfold activityAt
    refine Finset.sum_congr rfl fun k hk => ?_
    have hk' := mem_varsOf.1 hk
    obtain ⟨b, hb, hy⟩ := hset k hk
    have hkl : k ∈ t.updates.live G := by
      rw [hlive]
      exact hs.mem_live.2 ⟨hk'.1, hk'.2.2⟩
    rw [hb, hy (x k) fun e => hx k hkl e]
    rfl
  rw [hval]
  exact (htight _ (BoundDirection.respects_refl _ _)).2 rfl

theorem dispensable_remove {t : ConstraintType} {rhs L : ℚ}
    (h : constraintUpdate d t rhs L = .ok (some .remove)) : Dispensable d t rhs L := by
  cases d <;> cases t <;> simp only [constraintUpdate] at h <;> split_ifs at h <;>
    first | (cases h; done) | assumption

theorem dispensable_replace {t t' : ConstraintType} {rhs L shift : ℚ}
    (h : constraintUpdate d t rhs L = .ok (some (.replace t' shift))) : Dispensable d t rhs L := by
  cases d <;> cases t <;> simp only [constraintUpdate] at h <;> split_ifs at h with h1 h2 h3 h4
  all_goals try (cases h; done)
  · exact not_lt.1 h3
  · exact Or.inl h1.symm
  · refine Or.inr ⟨lt_of_le_of_ne (not_lt.1 h3) fun e => h4 e.symm, h2⟩

theorem replaceRow_backs (hs : s.Fit G) (hi : i < G.constraintTypes.length)
    (hi0 : s.counters.constraint i ≠ 0) {t : ConstraintType} {shift : ℚ}
    (h : ∀ x, (s.updates.only F).BoundsHold G x →
      ((s.updates.constraintType G i).Holds (s.updates.rhs G i) (s.updates.value G i x) ↔
        t.Holds (s.updates.rhs G i + shift) (s.updates.value G i x))) :
    Backs G F s.updates
      (({ s.updates with constraints := insertAt s.updates.constraints i (some t) }).changeB G i
        shift) := by
  let v : Updates :=
    ({ s.updates with constraints := insertAt s.updates.constraints i (some t) }).changeB G i shift
  have htype : v.constraintType G i = t := by
    show Option.getD (insertAt _ _ _ _) _ = t
    rw [insertAt_same]
    rfl
  have hrhs : v.rhs G i = s.updates.rhs G i + shift := by
    show Option.getD (insertAt _ _ _ _) _ = _
    rw [insertAt_same]
    rfl
  have htype' : ∀ k ≠ i, v.constraintType G k = s.updates.constraintType G k := by
    intro k hk
    show Option.getD (insertAt _ _ _ _) _ = _
    rw [insertAt_ne _ _ hk]
    rfl
  have hrhs' : ∀ k ≠ i, v.rhs G k = s.updates.rhs G k := by
    intro k hk
    show Option.getD (insertAt _ _ _ _) _ = _
    rw [insertAt_ne _ _ hk]
    rfl
  have hir : i ∉ s.updates.constraintsRemoved := (hs.row_active hi).2 hi0
  refine ⟨fun x hx => ⟨fun k hk hkr => ?_, hx.bounds, hx.removed⟩, follow_of (fun _ h => h) fun _ _ _ => rfl⟩
  have h1 : (v.constraintType G k).Holds (v.rhs G k) (s.updates.value G k x) := hx.rows k hk hkr
  show (s.updates.constraintType G k).Holds (s.updates.rhs G k) (s.updates.value G k x)
  by_cases hki : k = i
  · subst hki
    rw [htype, hrhs] at h1
    exact (h x hx.bounds).2 h1
  · rwa [htype' k hki, hrhs' k hki] at h1

theorem presolveDomainPropagation_backs (hG : G.Consistent) (hs : s.Fit G)
    (hi : i < G.constraintTypes.length) (hi0 : s.counters.constraint i ≠ 0)
    (h1 : s.counters.activity i d ≤ 1) (ha : s.counters.activity i d = 0 → AccurateAt G s i d)
    (hF : s.counters.activity i d = 0 →
      Dispensable d (s.updates.constraintType G i) (s.updates.rhs G i) (activityAt G s i d) →
        ∀ j ∈ varsOf G s.counters i,
          F j = true ∨ s.updates.activityBounds j (d.times (coef G i j)) = none)
    {c : Change} (h : presolveDomainPropagation G s i d = .ok (t, c)) :
    Backs G F s.updates t.updates := by
  unfold presolveDomainPropagation at h
  have hcases : s.counters.activity i d = 0 ∨ s.counters.activity i d = 1 := by omega
  rcases hcases with h0 | h1
  swap
  · rw [h1] at h
    exact createVariableBound_backs hG hs hi hi0 h1 h
  · rw [h0] at h
    simp only [] at h
    unfold forEntireConstraint at h
    rw [activityBoundIfNeeded_eq hG hs.toCounts hi hi0 h0 (ha h0)] at h
    let s₁ : Index := { s with activityBounds :=
      (insertAt2 s.activityBounds i d (some (activityAt G s i d))) }
    have hs₁ : s₁.Fit G := fit_store hs h0 _
    have hir : i ∉ s.updates.constraintsRemoved := (hs.row_active hi).2 hi0
    have hspec := constraintUpdate_spec (d := d) (t := s.updates.constraintType G i)
      (rhs := s.updates.rhs G i) (L := activityAt G s i d) (hs.proper.ranges i hi hir)
    have hrespects : ∀ x, s.updates.BoundsHold G x →
        d.Respects (some (activityAt G s i d)) (s.updates.value G i x) :=
      fun x hx => respects_activity hs.toWF hi hi0 h0 hx
    have honly : Dispensable d (s.updates.constraintType G i) (s.updates.rhs G i) (activityAt G s i d) →
        ∀ x, (s.updates.only F).BoundsHold G x →
          d.Respects (some (activityAt G s i d)) (s.updates.value G i x) :=
      fun hd x hx => respects_activity_only hs.toWF hi hi0 h0 (hF h0 hd) hx
    simp only [bind, Except.bind] at h
    unfold constraintPart at h
    simp only [bind, Except.bind] at h
    cases hu : constraintUpdate d (s.updates.constraintType G i) (s.updates.rhs G i)
      (activityAt G s i d) with
    | error e =>
      rw [hu] at h
      cases h
    | ok c =>
      rw [hu] at h hspec
      match c, hspec, hu with
      | none, hh, _ =>
        simp only [pure, Except.pure, if_true, variableRuleRhs_eq] at h
        cases hρ : ruleRhs (s.updates.constraintType G i) (s.updates.rhs G i) d with
        | none =>
          rw [hρ] at h
          simp only [Bool.false_eq_true, if_false] at h
          cases h
          exact Backs.refl _
        | some ρ =>
          obtain ⟨r, c, e, hr⟩ := variablePart_spec hG hs₁ hi hi0 h0 (ρ := ρ)
            (fun x h1 _ => ruleRhs_respects hρ (h1 i hi hir)) (hh ρ hρ) (activeRow G s.counters i)
            s₁ .none (activeRow_tuples hG s.counters hi).nodup
            (fun p hp => ((activeRow_tuples hG s.counters hi).mem p).1 hp) (Narrower.refl hs₁)
            (fun _ _ => rfl)
          have e' : variablePart G s₁ i ρ (activityAt G s i d) d .none = .ok (r, c) := e
          simp only [s₁] at e'
          rw [hρ] at h
          simp only [] at h
          rw [e'] at h
          simp only [Bool.false_eq_true, if_false] at h
          cases h
          have htt : Tightened G F s₁.updates t.updates := variablePart_tightened _ hs.disjoint e
          exact ⟨fun x hx => htt.sat hx, fun x hx _ => (hr.equivalent x).1.1 hx⟩
      | some .remove, hh, hu =>
        simp only [pure, Except.pure, if_true, variableRuleRhs_eq, hh.1] at h
        cases hrem : removeConstraintValues G s₁ i with
        | error e => rw [hrem] at h; cases h
        | ok r =>
          rw [hrem] at h
          cases h
          exact removeRow_backs (s := s₁) hG hs₁ hi hi0
            (fun x hx => hh.2 _ (honly (dispensable_remove hu) x hx)) hrem
      | some (.replace t' shift), hh, hu =>
        simp only [pure, Except.pure, if_true] at h
        have hn := replaceRow (G := G) hs₁ hi hi0 (t := t') (shift := shift) hh.1
          (fun x hx => hh.2.1 _ (hrespects x hx))
        have hback := replaceRow_backs (G := G) (F := F) hs hi hi0 (t := t') (shift := shift)
          (fun x hx => hh.2.1 _ (honly (dispensable_replace hu) x hx))
        let s₂ : Index := { s₁ with updates :=
          (({ s₁.updates with constraints := insertAt s₁.updates.constraints i (some t') }).changeB G i
            shift) }
        have htype : s₂.updates.constraintType G i = t' := by
          show Option.getD (insertAt _ _ _ _) _ = t'
          rw [insertAt_same]
          rfl
        have hrhs : s₂.updates.rhs G i = s.updates.rhs G i + shift := by
          show Option.getD (insertAt _ _ _ _) _ = _
          rw [insertAt_same]
          rfl
        have hq : variableRuleRhs G s₂ i d = ruleRhs t' (s.updates.rhs G i + shift) d := by
          rw [variableRuleRhs_eq, htype, hrhs]
        cases hρ : ruleRhs t' (s.updates.rhs G i + shift) d with
        | none =>
          rw [hρ] at hq
          simp only [s₂, s₁] at hq
          simp only [hq, Bool.false_eq_true, if_false] at h
          cases h
          exact hback
        | some ρ =>
          obtain ⟨r, c, e, hr⟩ := variablePart_spec hG (s := s₂) hn.fit hi hi0 h0 (ρ := ρ)
            (fun x h1 _ => by
              refine ruleRhs_respects hρ ?_
              have := h1 i hi hir
              rw [htype, hrhs] at this
              exact this) (hh.2.2 ρ hρ) (activeRow G s.counters i)
            s₂ .meaningful (activeRow_tuples hG s.counters hi).nodup
            (fun p hp => ((activeRow_tuples hG s.counters hi).mem p).1 hp) (Narrower.refl hn.fit)
            (fun _ _ => rfl)
          have e' : variablePart G s₂ i ρ (activityAt G s i d) d .meaningful = .ok (r, c) := e
          rw [hρ] at hq
          simp only [s₂, s₁] at hq e'
          simp only [hq, e', Bool.false_eq_true, if_false] at h
          cases h
          have htt : Tightened G F s₂.updates t.updates := variablePart_tightened _ hn.fit.disjoint e
          exact hback.trans ⟨fun x hx => htt.sat hx, fun x hx _ => (hr.equivalent x).1.1 hx⟩
      | some .setVariablesToBound, hh, _ =>
        obtain ⟨r, new, q, e1, e2, hn, _⟩ := setVariables hG hs₁ hi hi0 h0 hh
        obtain ⟨hb1, hb2⟩ := setVariables_backs (F := F) hG hs₁ hi hi0 h0 hh e1 e2 hn
        replace h : (Except.bind (Except.bind
          ((activeRow G s₁.counters i).foldlM (setVariableToBound G d) (s₁, [])) _) _) =
            (Except.ok (t, _) : Run (Index × Change)) := h
        rw [e1] at h
        simp only [Except.bind] at h
        rw [e2] at h
        simp only [pure, Except.pure, Bool.false_eq_true, if_false, if_true] at h
        cases hrem : removeConstraintValues G q i with
        | error e => rw [hrem] at h; cases h
        | ok r' =>
          rw [hrem] at h
          cases h
          exact hb1.trans (removeRow_backs hG hn.fit hi (by rw [hn.constraint]; exact hi0) hb2 hrem)

end

end Presolve

end Relp
