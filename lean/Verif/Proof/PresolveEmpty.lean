import Verif.Proof.PresolveSem
import Verif.Proof.PresolveLoops

/-!
# Variables that are in no row any more
-/

namespace Relp

open Finset

namespace Presolve

variable {G : GeneralForm}

theorem emptyValue_ok {u : Updates} {j : ℕ} {v : ℚ} (h : emptyValue G u j = .ok v)
    (hc : ∀ l ∈ u.variableBound G j .lower, ∀ r ∈ u.variableBound G j .upper, l ≤ r) :
    u.Within G j v ∧
      ∀ y, u.Within G j y → G.objective.AsGood (costOf G j * v) (costOf G j * y) := by
  unfold emptyValue at h
  split at h
  · rename_i h0
    constructor
    · intro d
      unfold feasibleValue at h
      generalize hl : u.variableBound G j .lower = l at h hc
      generalize hu : u.variableBound G j .upper = r at h hc
      cases l with
      | none =>
        cases r with
        | none => cases d <;> simp [hl, hu, BoundDirection.Respects]
        | some r =>
          cases h
          cases d <;> simp [hl, hu, BoundDirection.Respects]
      | some l =>
        cases r with
        | none =>
          cases h
          cases d <;> simp [hl, hu, BoundDirection.Respects]
        | some r =>
          have hlr : l ≤ r := hc l rfl r rfl
          simp only [hlr, if_true] at h
          cases h
          cases d
          · rw [hl]; exact hlr
          · rw [hu]; exact le_refl _
    · intro y _
      rw [h0, zero_mul, zero_mul]
      exact Objective.AsGood.refl _ _
  · rename_i h0
    unfold optimizeIndependentColumn at h
    rw [if_neg h0] at h
    have hlow : u.variableBound G j .lower = some v → u.Within G j v := by
      intro e d
      cases d
      · rw [e]; exact le_refl v
      · cases hr : u.variableBound G j .upper with
        | none => trivial
        | some r => exact hc v e r hr
    have hupp : u.variableBound G j .upper = some v → u.Within G j v := by
      intro e d
      cases d
      · cases hr : u.variableBound G j .lower with
        | none => trivial
        | some r => exact hc r hr v e
      · rw [e]; exact le_refl v
    split at h
    · rename_i value heq
      cases h
      split at heq
      · rename_i hcase
        refine ⟨hlow heq, fun y hy => ?_⟩
        have := hy .lower
        rw [heq] at this
        change v ≤ y at this
        rcases hcase with ⟨h1, h2⟩ | ⟨h1, h2⟩ <;> rw [h1]
        · show costOf G j * v ≤ costOf G j * y
          nlinarith
        · show costOf G j * y ≤ costOf G j * v
          nlinarith
      · rename_i hcase
        refine ⟨hupp heq, fun y hy => ?_⟩
        have := hy .upper
        rw [heq] at this
        change y ≤ v at this
        push Not at hcase
        cases ho : G.objective with
        | minimize =>
          have := hcase.1 ho
          show costOf G j * v ≤ costOf G j * y
          nlinarith
        | maximize =>
          have := hcase.2 ho
          show costOf G j * y ≤ costOf G j * v
          nlinarith
    · cases h

/-- Values as good as one wants. -/
theorem emptyValue_error {u : Updates} {j : ℕ} {e : Halt} (h : emptyValue G u j = .error e)
    (hc : ∀ l ∈ u.variableBound G j .lower, ∀ r ∈ u.variableBound G j .upper, l ≤ r) :
    e = .verdict .unbounded ∧
      ∀ M, ∃ y, u.Within G j y ∧ G.objective.AsGood (costOf G j * y) M := by
  unfold emptyValue at h
  split at h
  · exfalso
    unfold feasibleValue at h
    generalize hl : u.variableBound G j .lower = l at h hc
    generalize hu : u.variableBound G j .upper = r at h hc
    cases l with
    | none => cases r <;> cases h
    | some l =>
      cases r with
      | none => cases h
      | some r =>
        simp only [hc l rfl r rfl, if_true] at h
        cases h
  · rename_i h0
    unfold optimizeIndependentColumn at h
    rw [if_neg h0] at h
    split at h
    · cases h
    · rename_i heq
      cases h
      refine ⟨rfl, fun M => ?_⟩
      have hM : costOf G j * (M / costOf G j) = M := mul_div_cancel₀ _ h0
      split at heq
      · rename_i hcase
        obtain ⟨y, hy1, hy2⟩ : ∃ y : ℚ, y ≤ M / costOf G j ∧
            ∀ r ∈ u.variableBound G j .upper, y ≤ r := by
          cases hr : u.variableBound G j .upper with
          | none => exact ⟨_, le_refl _, by simp⟩
          | some r => exact ⟨min (M / costOf G j) r, min_le_left _ _, by simp⟩
        refine ⟨y, fun d => ?_, ?_⟩
        · cases d
          · rw [heq]; trivial
          · cases hr : u.variableBound G j .upper with
            | none => trivial
            | some r => exact hy2 r hr
        · rcases hcase with ⟨h1, h2⟩ | ⟨h1, h2⟩ <;> rw [h1]
          · show costOf G j * y ≤ M
            nlinarith
          · show M ≤ costOf G j * y
            nlinarith
      · rename_i hcase
        push Not at hcase
        obtain ⟨y, hy1, hy2⟩ : ∃ y : ℚ, M / costOf G j ≤ y ∧
            ∀ r ∈ u.variableBound G j .lower, r ≤ y := by
          cases hr : u.variableBound G j .lower with
          | none => exact ⟨_, le_refl _, by simp⟩
          | some r => exact ⟨max (M / costOf G j) r, le_max_left _ _, by simp⟩
        refine ⟨y, fun d => ?_, ?_⟩
        · cases d
          · cases hr : u.variableBound G j .lower with
            | none => trivial
            | some r => exact hy2 r hr
          · rw [heq]; trivial
        · cases ho : G.objective with
          | minimize =>
            have h1 : costOf G j < 0 := lt_of_le_of_ne (hcase.1 ho) h0
            show costOf G j * y ≤ M
            nlinarith
          | maximize =>
            have h1 : 0 < costOf G j := lt_of_le_of_ne (hcase.2 ho) (Ne.symm h0)
            show M ≤ costOf G j * y
            nlinarith

theorem emptyValues_ok {u : Updates} {E : List ℕ} {solved : List (ℕ × ℚ)}
    (h : emptyValues G u E = .ok solved) :
    solved.map (·.1) = E ∧ ∀ p ∈ solved, emptyValue G u p.1 = .ok p.2 := by
  induction E generalizing solved with
  | nil => cases h; exact ⟨rfl, by simp⟩
  | cons j E ih =>
    rw [← List.singleton_append, emptyValues_append] at h
    unfold emptyValues at h ih
    simp only [List.mapM_cons, List.mapM_nil, bind, Except.bind, pure, Except.pure] at h
    cases hv : emptyValue G u j with
    | error e => rw [hv] at h; cases h
    | ok v =>
      rw [hv] at h
      simp only at h
      cases hE : E.mapM (m := Run) fun j => do
          let v ← emptyValue G u j
          pure (j, v) with
      | error e =>
        simp only [bind, Except.bind, pure, Except.pure] at hE
        rw [hE] at h; cases h
      | ok r =>
        obtain ⟨h1, h2⟩ := ih hE
        simp only [bind, Except.bind, pure, Except.pure] at hE
        rw [hE] at h
        cases h
        refine ⟨by simp [h1], fun p hp => ?_⟩
        rcases List.mem_cons.1 hp with rfl | hp
        · exact hv
        · exact h2 p hp

theorem emptyValues_error {u : Updates} {E : List ℕ} {e : Halt}
    (h : emptyValues G u E = .error e) : ∃ j ∈ E, emptyValue G u j = .error e := by
  induction E with
  | nil => cases h
  | cons j E ih =>
    rw [← List.singleton_append, emptyValues_append] at h
    unfold emptyValues at h ih
    simp only [List.mapM_cons, List.mapM_nil, bind, Except.bind, pure, Except.pure] at h
    cases hv : emptyValue G u j with
    | error e' =>
      rw [hv] at h
      cases h
      exact ⟨j, List.mem_cons_self, hv⟩
    | ok v =>
      rw [hv] at h
      simp only at h
      cases hE : E.mapM (m := Run) fun j => do
          let v ← emptyValue G u j
          pure (j, v) with
      | error e' =>
        have := ih
        rw [hE] at this
        simp only [bind, Except.bind, pure, Except.pure] at hE
        rw [hE] at h
        cases h
        obtain ⟨k, hk, h'⟩ := this rfl
        exact ⟨k, List.mem_cons_of_mem _ hk, h'⟩
      | ok r =>
        simp only [bind, Except.bind, pure, Except.pure] at hE
        rw [hE] at h
        cases h

theorem Ordered.append_solved {l : List (ℕ × RemovedVariable)} (h : Ordered l)
    (solved : List (ℕ × ℚ)) : Ordered (l ++ solved.map fun p => (p.1, .solved p.2)) := by
  refine ⟨fun p hp => ?_, ?_⟩
  · rcases List.mem_append.1 hp with hp | hp
    · exact h.1 p hp
    · obtain ⟨q, _, rfl⟩ := List.mem_map.1 hp
      exact id
  · rw [List.pairwise_append]
    refine ⟨h.2, ?_, ?_⟩
    · rw [List.pairwise_map]
      exact List.pairwise_of_forall fun _ _ h => h.elim
    · intro p _ q hq
      obtain ⟨q, _, rfl⟩ := List.mem_map.1 hq
      exact fun h => h.elim

theorem refines_solveVars (solved : List (ℕ × ℚ)) : ∀ {u : Updates}, Ordered u.removedVariables →
    (u.removedVariables.map (·.1)).Nodup → (solved.map (·.1)).Nodup →
    (∀ p ∈ solved, p.1 ∈ u.live G) →
    (∀ p ∈ solved, ∀ i < G.constraintTypes.length, i ∉ u.constraintsRemoved → coef G i p.1 = 0) →
    (∀ p ∈ solved, u.Within G p.1 p.2 ∧
      ∀ y, u.Within G p.1 y → G.objective.AsGood (costOf G p.1 * p.2) (costOf G p.1 * y)) →
    Refines G u (solveVars G u solved) := by
  induction solved with
  | nil =>
    intro u _ _ _ _ _ _
    have : solveVars G u [] = u := by simp [solveVars]
    rw [this]
    exact Refines.refl u
  | cons p solved ih =>
    intro u ho hn hs hl he hb
    rw [List.map_cons, List.nodup_cons] at hs
    have hp := List.mem_cons_self (a := p) (l := solved)
    have hnr := (Updates.mem_live.1 (hl p hp)).2
    have e : solveVars G u (p :: solved) = solveVars G (solveVars G u [p]) solved := by
      simp [solveVars, add_assoc]
    have ho' : Ordered (solveVars G u [p]).removedVariables := ho.append_solved [p]
    have hn' : ((solveVars G u [p]).removedVariables.map (·.1)).Nodup := by
      simp only [solveVars, List.map_append, List.map_cons, List.map_nil]
      rw [List.nodup_append]
      refine ⟨hn, by simp, ?_⟩
      intro a ha b hb
      rw [List.mem_singleton] at hb
      rintro rfl
      exact hnr (hb ▸ ha)
    rw [e]
    refine Refines.trans (refines_emptyColumn (j := p.1) (value := p.2) ?_ (hl p hp) (he p hp) ho' hn'
      (hb p hp).1 (hb p hp).2) (ih ho' hn' hs.2 ?_ ?_ ?_)
    · simp [solveVars]
    · intro q hq
      have := Updates.mem_live.1 (hl q (List.mem_cons_of_mem _ hq))
      rw [Updates.mem_live]
      refine ⟨this.1, ?_⟩
      simp only [solveVars, List.map_append, List.map_cons, List.map_nil, List.mem_append,
        List.mem_singleton, not_or]
      refine ⟨this.2, ?_⟩
      intro h
      exact hs.1 (h ▸ List.mem_map_of_mem hq)
    · intro q hq
      exact he q (List.mem_cons_of_mem _ hq)
    · intro q hq
      exact hb q (List.mem_cons_of_mem _ hq)

/-- What it means to solve variables that are in no row any more. -/
theorem emptyValues_refines {u : Updates} {E : List ℕ} (ho : Ordered u.removedVariables)
    (hn : (u.removedVariables.map (·.1)).Nodup) (hE : E.Nodup) (hl : ∀ j ∈ E, j ∈ u.live G)
    (he : ∀ j ∈ E, ∀ i < G.constraintTypes.length, i ∉ u.constraintsRemoved → coef G i j = 0)
    (hp : ∀ j ∈ E, ∀ l ∈ u.variableBound G j .lower, ∀ r ∈ u.variableBound G j .upper, l ≤ r) :
    (∀ solved, emptyValues G u E = .ok solved → Refines G u (solveVars G u solved)) ∧
      ∀ e, emptyValues G u E = .error e → e = .verdict .unbounded ∧ VerdictCorrect G u .unbounded := by
  refine ⟨fun solved h => ?_, fun e h => ?_⟩
  · obtain ⟨h1, h2⟩ := emptyValues_ok h
    have hm : ∀ p ∈ solved, p.1 ∈ E := fun p hp => h1 ▸ List.mem_map_of_mem hp
    exact refines_solveVars solved ho hn (h1 ▸ hE) (fun p hp => hl _ (hm p hp))
      (fun p hp => he _ (hm p hp)) fun p hp' => emptyValue_ok (h2 p hp') (hp _ (hm p hp'))
  · obtain ⟨j, hj, h'⟩ := emptyValues_error h
    obtain ⟨h1, h2⟩ := emptyValue_error h' (hp j hj)
    exact ⟨h1, unbounded_emptyColumn (hl j hj) (he j hj) ho hn h2⟩

end Presolve

end Relp
