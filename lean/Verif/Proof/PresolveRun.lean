import Verif.Proof.PresolveStart
import Verif.Proof.PresolveSlack
import Verif.Proof.PresolveSet

/-!
# The steps of presolving and the loop
-/

namespace Relp

open Finset

namespace Presolve

variable {G : GeneralForm} {s : Index}

theorem mem_dropWhile {α : Type} {p : α → Bool} {l : List α} {a : α} (ha : a ∈ l) (hp : p a = false) :
    a ∈ l.dropWhile p := by
  induction l with
  | nil => cases ha
  | cons b l ih =>
    rw [List.dropWhile_cons]
    rcases List.mem_cons.1 ha with rfl | h
    · rw [hp]
      simp
    · split
      · exact ih h
      · exact ha

theorem dropWhile_head {α : Type} {p : α → Bool} {l r : List α} {a : α} (h : l.dropWhile p = a :: r) :
    p a = false := by
  induction l with
  | nil => cases h
  | cons b l ih =>
    rw [List.dropWhile_cons] at h
    split at h
    · exact ih h
    · rename_i hb
      cases h
      simpa using hb

theorem dropWhile_find {α : Type} (p : α → Bool) (l : List α) :
    (l.dropWhile p).head? = l.find? fun a => !p a := by
  induction l with
  | nil => rfl
  | cons a l ih =>
    rw [List.dropWhile_cons, List.find?_cons]
    cases p a
    · rfl
    · simpa using ih

/-- Removing items from the queues that are not needed. -/
theorem fit_queues (hs : s.Fit G) {q : Queues} (h1 : q.substitution ⊆ s.queues.substitution)
    (h2 : q.bound ⊆ s.queues.bound)
    (h2' : ∀ i ∈ s.queues.bound, s.counters.constraint i = 1 → i ∈ q.bound)
    (h3 : q.slack ⊆ s.queues.slack) (h4 : q.activity ⊆ s.queues.activity) :
    ({ s with queues := q } : Index).Fit G :=
  ⟨⟨⟨hs.rowCount, hs.colCount, hs.activity, hs.cache, hs.disjoint,
    fun j hj => hs.substitutionQueue j (h1 hj), fun i hi => hs.boundQueue i (h2 hi),
    fun i hi h => h2' i (hs.allBounds i hi h) h, fun j hj => hs.slackQueue j (h3 hj),
    fun p hp => hs.activityQueue p (h4 hp)⟩, ⟨hs.rowsRemoved, hs.varsRemoved, hs.rowsRange,
      hs.varsRange, hs.rowsNodup, hs.varsNodup, hs.ordered, hs.mentioned⟩⟩, hs.proper,
    fun j hj h => hs.fixed j (h1 hj) h⟩

theorem map_fst_bind {r : Run Index} {c : Change} :
    (do
      let s ← r
      pure (s, c) : Run (Index × Change)).map Prod.fst = r := by
  cases r <;> rfl

/-- A step is correct if it is safe. -/
theorem presolveStep_correct (hG : G.Fresh) (hs : s.Fit G) (hsafe : SafeStep G s) :
    Correct G s (fun a => a = .unreachable) ((presolveStep G s).map Prod.fst) := by
  have hG' := hG.toConsistent
  let s₁ : Index := { s with queues := { s.queues with substitution := s.queues.substitution.tail } }
  have hs₁ : s₁.Fit G := fit_queues hs (List.tail_subset _) (fun _ h => h) (fun _ h _ => h)
    (fun _ h => h) (fun _ h => h)
  unfold presolveStep
  unfold SafeStep nextRule at hsafe
  simp only []
  cases hv : s.queues.substitution.head?.filter fun j => 0 < s.counters.columns j with
  | some j =>
    simp only []
    rw [map_fst_bind]
    rw [Option.filter_eq_some_iff] at hv
    have hj : j ∈ s.queues.substitution := List.mem_of_mem_head? hv.1
    have hj0 : s.counters.columns j ≠ 0 := by
      have := hv.2
      simp only [decide_eq_true_eq] at this
      omega
    have h := presolveFixedVariable_correct hG' hs₁ (hs.fixed j hj hj0) (hs.substitutionQueue j hj) hj0
    cases hr : presolveFixedVariable G s₁ j with
    | ok t =>
      exact ⟨(h.1 t hr).1, (h.1 t hr).2.1⟩
    | error e =>
      obtain ⟨rfl, h'⟩ := h.2 e hr
      exact h'
  | none =>
    simp only [hv] at hsafe
    simp only []
    have hf : s.queues.bound.find? (fun i => s.counters.constraint i ≠ 0) =
        (s.queues.bound.dropWhile fun i => s.counters.constraint i = 0).head? := by
      rw [dropWhile_find]
      simp
    cases hb : s.queues.bound.dropWhile fun i => s.counters.constraint i = 0 with
    | cons i rest =>
      simp only []
      rw [map_fst_bind]
      have hsuf : i :: rest <:+ s.queues.bound := hb ▸ List.dropWhile_suffix _
      have hi : i ∈ s.queues.bound := hsuf.subset (by simp)
      have hi0 : s.counters.constraint i ≠ 0 := by
        have h := dropWhile_head hb
        simpa using h
      have h1 := hs.boundQueue i hi
      refine Correct.mono (presolveBoundConstraint_correct hG' hs₁ h1.1 ?_
        (fun k hk => hsuf.subset (by simp [hk])) ?_) fun _ h => h.elim
      · show s.counters.constraint i = 1
        omega
      · intro k hk h h'
        have : k ∈ s.queues.bound.dropWhile fun i => decide (s.counters.constraint i = 0) :=
          mem_dropWhile h' (by
            have : s.counters.constraint k = 1 := h
            simp [this])
        rw [hb, List.mem_cons] at this
        exact this.resolve_left hk
    | nil =>
      rw [hb] at hf
      simp only [hf, List.head?_nil] at hsafe
      simp only []
      have hnone : ∀ i ∈ s.queues.bound, s.counters.constraint i = 0 := by
        intro i hi
        by_contra h
        have := mem_dropWhile (p := fun i => decide (s.counters.constraint i = 0)) hi (by simp [h])
        rw [hb] at this
        cases this
      let s₂ : Index := { s₁ with queues := { s₁.queues with bound := [] } }
      have hs₂ : s₂.Fit G := fit_queues hs₁ (fun _ h => h) (by simp)
        (fun i hi h => by
          have h1 := hnone i hi
          have h2 : s.counters.constraint i = 1 := h
          omega)
        (fun _ h => h) (fun _ h => h)
      have hf : s.queues.slack.find? (fun j => s.counters.columns j ≠ 0) =
          (s.queues.slack.dropWhile fun j => s.counters.columns j = 0).head? := by
        rw [dropWhile_find]
        simp
      cases hl : s.queues.slack.dropWhile fun j => s.counters.columns j = 0 with
      | cons j rest =>
        rw [hl] at hf
        simp only [hf, List.head?_cons] at hsafe
        simp only []
        rw [map_fst_bind]
        have hsuf : j :: rest <:+ s.queues.slack := hl ▸ List.dropWhile_suffix _
        have hj : j ∈ s.queues.slack := hsuf.subset (by simp)
        have hj0 : s.counters.columns j ≠ 0 := by
          have h := dropWhile_head hl
          simpa using h
        have h1 := hs.slackQueue j hj
        let s₃ : Index := { s₂ with queues := { s₂.queues with slack := rest } }
        have hs₃ : s₃.Fit G := fit_queues hs₂ (fun _ h => h) (fun _ h => h) (fun _ h _ => h)
          (fun k hk => hsuf.subset (by simp [hk])) (fun _ h => h)
        exact Correct.mono (presolveSlack_correct hG hs₃ rfl h1.1
          (by show s.counters.columns j = 1; omega) h1.2.2 hsafe) fun _ h => h.elim
      | nil =>
        rw [hl] at hf
        simp only [hf, List.head?_nil] at hsafe
        simp only []
        have hf : s.queues.activity.find? (fun p => s.counters.constraint p.1 ≠ 0) =
            (s.queues.activity.dropWhile fun p => s.counters.constraint p.1 = 0).head? := by
          rw [dropWhile_find]
          simp
        let s₃ : Index := { s₂ with queues := { s₂.queues with slack := [] } }
        have hs₃ : s₃.Fit G := fit_queues hs₂ (fun _ h => h) (fun _ h => h) (fun _ h _ => h)
          (by simp) (fun _ h => h)
        cases ha : s.queues.activity.dropWhile fun p => s.counters.constraint p.1 = 0 with
        | cons p rest =>
          rw [ha] at hf
          simp only [hf, List.head?_cons] at hsafe
          obtain ⟨i, d⟩ := p
          simp only [] at hsafe ⊢
          have hsuf : (i, d) :: rest <:+ s.queues.activity := ha ▸ List.dropWhile_suffix _
          have hi : (i, d) ∈ s.queues.activity := hsuf.subset (by simp)
          have hi0 : s.counters.constraint i ≠ 0 := by
            have h := dropWhile_head ha
            simpa using h
          have h1 := hs.activityQueue _ hi
          let s₄ : Index := { s₃ with queues := { s₃.queues with activity := rest } }
          have hs₄ : s₄.Fit G := fit_queues hs₃ (fun _ h => h) (fun _ h => h) (fun _ h _ => h)
            (fun _ h => h) (fun k hk => hsuf.subset (by simp [hk]))
          exact Correct.mono (presolveDomainPropagation_correct hG' hs₄ h1.1 hi0 (h1.2 hi0) hsafe)
            fun _ h => h.1
        | nil =>
          simp only [pure, Except.pure, Except.map]
          exact ⟨fit_queues hs₃ (fun _ h => h) (fun _ h => h) (fun _ h _ => h) (fun _ h => h) (by simp),
            Refines.refl _⟩

/-- What the loop does, if all its steps are safe. -/
theorem presolveLoop_correct (hG : G.Fresh) (fuel : ℕ) : ∀ (s : Index) (iterations : ℕ), s.Fit G →
    SafeRun G fuel s iterations →
    match presolveLoop G fuel s iterations with
    | .ok t => t.Fit G ∧ Refines G s.updates t.updates
    | .error (.verdict r) => VerdictCorrect G s.updates r
    | .error (.abort a) => a = .unreachable
    | .error .outOfFuel => True := by
  induction fuel with
  | zero =>
    intro s k hs _
    unfold presolveLoop
    by_cases h : (!s.queues.areEmpty && decide (k < remaining G s)) = true
    · rw [if_pos h]
      trivial
    · rw [if_neg h]
      exact ⟨hs, Refines.refl _⟩
  | succ fuel ih =>
    intro s k hs hsafe
    unfold presolveLoop
    by_cases h : (!s.queues.areEmpty && decide (k < remaining G s)) = true
    · rw [if_pos h]
      rw [Bool.and_eq_true, decide_eq_true_eq] at h
      obtain ⟨h1, h2⟩ := hsafe h.1 h.2
      have hstep := presolveStep_correct hG hs h1
      cases hr : presolveStep G s with
      | error e =>
        rw [hr] at hstep
        simp only [bind, Except.bind]
        match e, hstep with
        | .verdict r, h => exact h
        | .abort a, h => exact h
      | ok p =>
        obtain ⟨t, c⟩ := p
        rw [hr] at hstep h2
        obtain ⟨h3, h4⟩ := hstep
        simp only [bind, Except.bind]
        have key : ∀ k', SafeRun G fuel t k' →
            match presolveLoop G fuel t k' with
            | .ok t => t.Fit G ∧ Refines G s.updates t.updates
            | .error (.verdict r) => VerdictCorrect G s.updates r
            | .error (.abort a) => a = .unreachable
            | .error .outOfFuel => True := by
          intro k' hk'
          have h5 := ih t k' h3 hk'
          revert h5
          cases presolveLoop G fuel t k' with
          | ok r => exact fun h5 => ⟨h5.1, h4.trans h5.2⟩
          | error e =>
            cases e with
            | verdict r => exact fun h5 => h4.verdict h5
            | abort a => exact fun h5 => h5
            | outOfFuel => exact fun _ => trivial
        exact key _ (by cases c <;> exact h2)
    · rw [if_neg h]
      exact ⟨hs, Refines.refl _⟩

end Presolve

end Relp
