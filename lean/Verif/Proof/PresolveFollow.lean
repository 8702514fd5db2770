import Verif.Proof.PresolveDiscard
import Verif.Proof.PresolveWhole

/-!
# Presolving without relying on what is discarded

If no constraint is given up because of a derived bound that is discarded in the end, the derived bounds
that are discarded follow from what is kept.
-/

namespace Relp

namespace Presolve

variable {G : GeneralForm} {F : ℕ → Bool} {s t : Index}

theorem bind_pure {α β : Type} {r : Run α} {f : α → β} {b : β}
    (h : (do let a ← r; pure (f a)) = (.ok b : Run β)) : ∃ a, r = .ok a ∧ f a = b := by
  cases r with
  | error e => cases h
  | ok a => cases h; exact ⟨a, rfl, rfl⟩

/-- A step that does not rely on derived bounds that are left out. -/
theorem presolveStep_backs (hG : G.Fresh) (hs : s.Fit G) (hsafe : SafeStep G s) (hF : KeptStep G F s)
    {c : Change} (h : presolveStep G s = .ok (t, c)) : Backs G F s.updates t.updates := by
  have hG' := hG.toConsistent
  let s₁ : Index := { s with queues := { s.queues with substitution := s.queues.substitution.tail } }
  have hs₁ : s₁.Fit G := fit_queues hs (List.tail_subset _) (fun _ h => h) (fun _ h _ => h)
    (fun _ h => h) (fun _ h => h)
  unfold presolveStep at h
  unfold SafeStep nextRule at hsafe
  unfold KeptStep nextRule at hF
  simp only [] at h
  cases hv : s.queues.substitution.head?.filter fun j => 0 < s.counters.columns j with
  | some j =>
    simp only [hv] at h
    rw [Option.filter_eq_some_iff] at hv
    have hj : j ∈ s.queues.substitution := List.mem_of_mem_head? hv.1
    have hj0 : s.counters.columns j ≠ 0 := by
      have := hv.2
      simp only [decide_eq_true_eq] at this
      omega
    obtain ⟨r, hr, e⟩ := bind_pure h
    cases e
    exact presolveFixedVariable_backs (s := s₁) hG' hs₁ (hs.fixed j hj hj0) (hs.substitutionQueue j hj) hj0 hr
  | none =>
    simp only [hv] at hsafe hF h
    have hf : s.queues.bound.find? (fun i => s.counters.constraint i ≠ 0) =
        (s.queues.bound.dropWhile fun i => s.counters.constraint i = 0).head? := by
      rw [dropWhile_find]
      simp
    cases hb : s.queues.bound.dropWhile fun i => s.counters.constraint i = 0 with
    | cons i rest =>
      simp only [hb] at h
      have hsuf : i :: rest <:+ s.queues.bound := hb ▸ List.dropWhile_suffix _
      have hi : i ∈ s.queues.bound := hsuf.subset (by simp)
      have hi0 : s.counters.constraint i ≠ 0 := by
        have h := dropWhile_head hb
        simpa using h
      have h1 := hs.boundQueue i hi
      obtain ⟨r, hr, e⟩ := bind_pure h
      cases e
      refine presolveBoundConstraint_backs (s₀ := s₁) hG' hs₁ h1.1 ?_
        (fun k hk => hsuf.subset (by simp [hk])) ?_ hr
      · show s.counters.constraint i = 1
        omega
      · intro k hk h h'
        have : k ∈ s.queues.bound.dropWhile fun i => decide (s.counters.constraint i = 0) :=
          mem_dropWhile h' (by
            have : s.counters.constraint k = 1 := h
            simp [this])
        rw [hb, List.mem_cons] at this
        exact this.resolve_left hk
    | nil =>
      rw [hb] at hf
      simp only [hf, List.head?_nil] at hsafe hF
      simp only [hb] at h
      have hnone : ∀ i ∈ s.queues.bound, s.counters.constraint i = 0 := by
        intro i hi
        by_contra h
        have := mem_dropWhile (p := fun i => decide (s.counters.constraint i = 0)) hi (by simp [h])
        rw [hb] at this
        cases this
      let s₂ : Index := { s₁ with queues := { s₁.queues with bound := [] } }
      have hs₂ : s₂.Fit G := fit_queues hs₁ (fun _ h => h) (by simp)
        (fun i hi h => by
          have h1 := hnone i hi
          have h2 : s.counters.constraint i = 1 := h
          omega)
        (fun _ h => h) (fun _ h => h)
      have hf : s.queues.slack.find? (fun j => s.counters.columns j ≠ 0) =
          (s.queues.slack.dropWhile fun j => s.counters.columns j = 0).head? := by
        rw [dropWhile_find]
        simp
      cases hl : s.queues.slack.dropWhile fun j => s.counters.columns j = 0 with
      | cons j rest =>
        rw [hl] at hf
        simp only [hf, List.head?_cons] at hsafe
        simp only [hl] at h
        have hsuf : j :: rest <:+ s.queues.slack := hl ▸ List.dropWhile_suffix _
        have hj : j ∈ s.queues.slack := hsuf.subset (by simp)
        have hj0 : s.counters.columns j ≠ 0 := by
          have h := dropWhile_head hl
          simpa using h
        have h1 := hs.slackQueue j hj
        let s₃ : Index := { s₂ with queues := { s₂.queues with slack := rest } }
        have hs₃ : s₃.Fit G := fit_queues hs₂ (fun _ h => h) (fun _ h => h) (fun _ h _ => h)
          (fun k hk => hsuf.subset (by simp [hk])) (fun _ h => h)
        obtain ⟨r, hr, e⟩ := bind_pure h
        cases e
        exact presolveSlack_backs (s := s₃) hG hs₃ rfl h1.1
          (by show s.counters.columns j = 1; omega) h1.2.2 hsafe hr
      | nil =>
        rw [hl] at hf
        simp only [hf, List.head?_nil] at hsafe hF
        simp only [hl] at h
        have hf : s.queues.activity.find? (fun p => s.counters.constraint p.1 ≠ 0) =
            (s.queues.activity.dropWhile fun p => s.counters.constraint p.1 = 0).head? := by
          rw [dropWhile_find]
          simp
        let s₃ : Index := { s₂ with queues := { s₂.queues with slack := [] } }
        have hs₃ : s₃.Fit G := fit_queues hs₂ (fun _ h => h) (fun _ h => h) (fun _ h _ => h)
          (by simp) (fun _ h => h)
        cases ha : s.queues.activity.dropWhile fun p => s.counters.constraint p.1 = 0 with
        | cons p rest =>
          rw [ha] at hf
          simp only [hf, List.head?_cons] at hsafe hF
          obtain ⟨i, d⟩ := p
          simp only [ha] at hsafe hF h
          have hsuf : (i, d) :: rest <:+ s.queues.activity := ha ▸ List.dropWhile_suffix _
          have hi : (i, d) ∈ s.queues.activity := hsuf.subset (by simp)
          have hi0 : s.counters.constraint i ≠ 0 := by
            have h := dropWhile_head ha
            simpa using h
          have h1 := hs.activityQueue _ hi
          let s₄ : Index := { s₃ with queues := { s₃.queues with activity := rest } }
          have hs₄ : s₄.Fit G := fit_queues hs₃ (fun _ h => h) (fun _ h => h) (fun _ h _ => h)
            (fun _ h => h) (fun k hk => hsuf.subset (by simp [hk]))
          exact presolveDomainPropagation_backs (s := s₄) hG' hs₄ h1.1 hi0 (h1.2 hi0) hsafe hF h
        | nil =>
          simp only [ha, pure, Except.pure] at h
          cases h
          exact Backs.refl _

/-- All steps together. -/
theorem presolveLoop_backs (hG : G.Fresh) (fuel : ℕ) : ∀ (s : Index) (iterations : ℕ), s.Fit G →
    SafeRun G fuel s iterations → KeptRun G F fuel s iterations → ∀ t,
    presolveLoop G fuel s iterations = .ok t → t.Fit G ∧ Backs G F s.updates t.updates := by
  induction fuel with
  | zero =>
    intro s k hs _ _ t ht
    unfold presolveLoop at ht
    by_cases h : (!s.queues.areEmpty && decide (k < remaining G s)) = true
    · rw [if_pos h] at ht
      cases ht
    · rw [if_neg h] at ht
      cases ht
      exact ⟨hs, Backs.refl _⟩
  | succ fuel ih =>
    intro s k hs hsafe hkept t ht
    unfold presolveLoop at ht
    by_cases h : (!s.queues.areEmpty && decide (k < remaining G s)) = true
    · rw [if_pos h] at ht
      rw [Bool.and_eq_true, decide_eq_true_eq] at h
      obtain ⟨h1, h2⟩ := hsafe h.1 h.2
      obtain ⟨h3, h4⟩ := hkept h.1 h.2
      have hstep := presolveStep_correct hG hs h1
      cases hr : presolveStep G s with
      | error e =>
        rw [hr] at ht
        cases ht
      | ok p =>
        obtain ⟨r, c⟩ := p
        have hback := presolveStep_backs hG hs h1 h3 hr
        rw [hr] at hstep h2 h4 ht
        simp only [bind, Except.bind] at ht
        have key : ∀ k', SafeRun G fuel r k' → KeptRun G F fuel r k' →
            presolveLoop G fuel r k' = .ok t → t.Fit G ∧ Backs G F s.updates t.updates := by
          intro k' hk' hk'' ht
          obtain ⟨h5, h6⟩ := ih r k' hstep.1 hk' hk'' t ht
          exact ⟨h5, hback.trans h6⟩
        cases c
        all_goals exact key _ h2 h4 ht
    · rw [if_neg h] at ht
      cases ht
      exact ⟨hs, Backs.refl _⟩

/-- There are no derived bounds at the start. -/
theorem indexNew_activityBounds (h : Index.new G = .ok s) : s.updates.activityBounds = fun _ _ => none := by
  unfold Index.new at h
  simp only [] at h
  rw [updatesNew_eq] at h
  simp only [bind, Except.bind] at h
  cases hv : emptyValues G Updates.initial (emptyColumns G) with
  | error e => rw [hv] at h; cases h
  | ok solved =>
    rw [hv] at h
    simp only [] at h
    split at h
    · cases h
    · rename_i hu
      split at hu
      · cases hu
        cases h
        rfl
      · cases hu

/-- What is kept is at least as tight as the given derived bounds, if those are kept. -/
theorem discardedFollow_of_follow {u : Updates} (hF : ∀ j, F j = true → OnlyDerived G u j)
    (h : Follow G F u) :
    DiscardedFollow G u := by
  refine fun x hx => h x ⟨hx.rows, fun j hj d => ?_, hx.removed⟩
  have h1 := hx.bounds j hj d
  have e : (u.kept G).variableBound G j d = (u.newBound G j d).or (originalBound G j d) := rfl
  rw [e] at h1
  have e' : (u.only F).variableBound G j d =
      (if F j then u.activityBounds j d else none).or ((u.bounds j d).or (originalBound G j d)) := rfl
  rw [e']
  unfold Updates.newBound at h1
  cases hFj : F j
  · simp only [Bool.false_eq_true, if_false, Option.none_or]
    by_cases hk : keepsActivityBounds G u j = true
    · rw [if_pos hk] at h1
      simp only [keepsActivityBounds, Bool.and_eq_true, Option.isNone_iff_eq_none] at hk
      obtain ⟨⟨⟨k1, k2⟩, k3⟩, k4⟩ := hk
      have hb : u.bounds j d = none := by cases d <;> assumption
      have ho : originalBound G j d = none := by cases d <;> assumption
      rw [hb, ho]
      trivial
    · rw [if_neg hk] at h1
      exact h1
  · have hd := hF j hFj
    have hk : keepsActivityBounds G u j = true := by
      simp only [keepsActivityBounds, (hd _).1, (hd _).2]
      rfl
    rw [if_pos hk] at h1
    simp only [if_true]
    rw [← Option.or_assoc]
    exact h1

/-- The derived bounds that are discarded follow from what is kept. -/
theorem discardedFollow_of_kept' (hG : G.Fresh) (hp : G.Proper) (fuel : ℕ) (hn : Index.new G = .ok s)
    (hsafe : SafeRun G fuel s 0) (hkept : KeptRun G F fuel s 0)
    (ht : presolveLoop G fuel s 0 = .ok t) (hF : ∀ j, F j = true → OnlyDerived G t.updates j) :
    DiscardedFollow G t.updates := by
  have hfit := ((indexNew_correct hG.toConsistent hp).1 s hn).1
  obtain ⟨h1, h2⟩ := presolveLoop_backs hG fuel s 0 hfit hsafe hkept t ht
  refine discardedFollow_of_follow hF (Follow.step (fun x hx => ?_) h2)
  have : s.updates.only F = s.updates := by
    unfold Updates.only
    rw [indexNew_activityBounds hn]
    have h := indexNew_activityBounds hn
    cases hu : s.updates
    rw [hu] at h
    simp only [ite_self] at h ⊢
    rw [h]
  rwa [this] at hx

end Presolve

end Relp
