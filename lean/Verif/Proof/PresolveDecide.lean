import Verif.Proof.PresolveFollow

/-!
# Checking concrete runs of presolving

Whether all steps of a run are safe is decidable, so that concrete runs can be evaluated.
-/

namespace Relp

deriving instance DecidableEq for SparseMatrix, GeneralForm

instance (d : BoundDirection) (bound : Option ℚ) (x : ℚ) : Decidable (d.Respects bound x) := by
  cases d <;> cases bound <;> unfold BoundDirection.Respects <;> infer_instance

instance {m n : ℕ} (P : Spec.Program m n) (x : Fin n → ℚ) : Decidable (P.Feasible x) := by
  unfold Spec.Program.Feasible; infer_instance

namespace Presolve

instance {α : Type} [DecidableEq α] : DecidableEq (Run α) := inferInstanceAs (DecidableEq (Except Halt α))

instance (t : ConstraintType) (lower upper : Option ℚ) (coefficient : ℚ) :
    Decidable (SlackGood t lower upper coefficient) := by
  cases t <;> unfold SlackGood <;> infer_instance

instance (G : GeneralForm) (s : Index) (i : ℕ) (d : BoundDirection) : Decidable (AccurateAt G s i d) :=
  match h : s.activityBounds i d with
  | none => isTrue fun b hb => by rw [h] at hb; cases hb
  | some b =>
    if e : b = activityAt G s i d then isTrue fun b' hb => by rw [h] at hb; cases hb; exact e
    else isFalse fun hc => e (hc b h)

instance (G : GeneralForm) (s : Index) : Decidable (SafeStep G s) := by
  unfold SafeStep
  cases nextRule s <;> infer_instance

instance decidableSafeRun (G : GeneralForm) : ∀ (fuel : ℕ) (s : Index) (iterations : ℕ),
    Decidable (SafeRun G fuel s iterations)
  | 0, _, _ => isTrue trivial
  | fuel + 1, s, iterations => by
    unfold SafeRun
    have : Decidable (match presolveStep G s with
        | .ok (t, .meaningful) => SafeRun G fuel t 0
        | .ok (t, .none) => SafeRun G fuel t iterations
        | .ok (t, .notMeaningful) => SafeRun G fuel t (iterations + 1)
        | .error _ => True) := by
      cases presolveStep G s with
      | error e => infer_instance
      | ok r =>
        obtain ⟨t, c⟩ := r
        cases c <;> exact decidableSafeRun G fuel _ _
    infer_instance

/-- Nothing is discarded if the bounds that are kept are the latest ones. -/
theorem discardedFollow_of_kept {G : GeneralForm} {u : Updates}
    (h : ∀ j < G.vars.length, ∀ d, (u.kept G).variableBound G j d = u.variableBound G j d) :
    DiscardedFollow G u := by
  intro x hx
  refine ⟨hx.rows, fun j hj d => ?_, hx.removed⟩
  have := hx.bounds j hj d
  rwa [h j (Finset.mem_range.1 (Finset.mem_filter.1 hj).1)] at this

/-- A check of the hypotheses of `presolve_correct` by evaluation. -/
def safe (G : GeneralForm) (fuel : ℕ) : Bool :=
  match Index.new G with
  | .error _ => true
  | .ok s => decide (SafeRun G fuel s 0) &&
    match presolveLoop G fuel s 0 with
    | .error _ => true
    | .ok t => (List.range G.vars.length).all fun j =>
      ((t.updates.kept G).variableBound G j .lower = t.updates.variableBound G j .lower) &&
        ((t.updates.kept G).variableBound G j .upper = t.updates.variableBound G j .upper)

theorem safe_spec {G : GeneralForm} {fuel : ℕ} (h : safe G fuel = true) :
    (∀ s, Index.new G = .ok s → SafeRun G fuel s 0) ∧
      ∀ s t, Index.new G = .ok s → presolveLoop G fuel s 0 = .ok t → DiscardedFollow G t.updates := by
  refine ⟨fun s hs => ?_, fun s t hs ht => discardedFollow_of_kept fun j hj d => ?_⟩
  · unfold safe at h
    rw [hs] at h
    exact of_decide_eq_true (Bool.and_eq_true_iff.1 h).1
  · unfold safe at h
    rw [hs] at h
    have h2 := (Bool.and_eq_true_iff.1 h).2
    rw [ht] at h2
    have h3 := List.all_eq_true.1 h2 j (List.mem_range.2 hj)
    rw [Bool.and_eq_true_iff] at h3
    cases d
    · exact of_decide_eq_true h3.1
    · exact of_decide_eq_true h3.2

instance (d : BoundDirection) (t : ConstraintType) (rhs extreme : ℚ) :
    Decidable (Dispensable d t rhs extreme) := by
  cases d <;> cases t <;> unfold Dispensable <;> infer_instance

instance (G : GeneralForm) (F : ℕ → Bool) (s : Index) : Decidable (KeptStep G F s) := by
  unfold KeptStep
  cases nextRule s <;> infer_instance

instance decidableKeptRun (G : GeneralForm) (F : ℕ → Bool) : ∀ (fuel : ℕ) (s : Index) (iterations : ℕ),
    Decidable (KeptRun G F fuel s iterations)
  | 0, _, _ => isTrue trivial
  | fuel + 1, s, iterations => by
    unfold KeptRun
    have : Decidable (match presolveStep G s with
        | .ok (t, .meaningful) => KeptRun G F fuel t 0
        | .ok (t, .none) => KeptRun G F fuel t iterations
        | .ok (t, .notMeaningful) => KeptRun G F fuel t (iterations + 1)
        | .error _ => True) := by
      cases presolveStep G s with
      | error e => infer_instance
      | ok r =>
        obtain ⟨t, c⟩ := r
        cases c <;> exact decidableKeptRun G F fuel _ _
    infer_instance

/-- A check by evaluation that all steps are safe and no constraint is given up because of derived bounds,
except those of the given variables, for which only derived bounds are found. -/
def careful (G : GeneralForm) (L : List ℕ) (fuel : ℕ) : Bool :=
  match Index.new G with
  | .error _ => true
  | .ok s => decide (SafeRun G fuel s 0) && decide (KeptRun G (fun j => L.contains j) fuel s 0) &&
    match presolveLoop G fuel s 0 with
    | .error _ => true
    | .ok t => L.all fun j => keepsActivityBounds G t.updates j

theorem careful_spec {G : GeneralForm} {L : List ℕ} {fuel : ℕ} (h : careful G L fuel = true) :
    (∀ s, Index.new G = .ok s → SafeRun G fuel s 0 ∧ KeptRun G (fun j => L.contains j) fuel s 0) ∧
      ∀ s t, Index.new G = .ok s → presolveLoop G fuel s 0 = .ok t →
        ∀ j, L.contains j = true → OnlyDerived G t.updates j := by
  unfold careful at h
  refine ⟨fun s hs => ?_, fun s t hs ht j hj d => ?_⟩
  · rw [hs] at h
    have := (Bool.and_eq_true_iff.1 (Bool.and_eq_true_iff.1 h).1)
    exact ⟨of_decide_eq_true this.1, of_decide_eq_true this.2⟩
  · rw [hs] at h
    have h2 := (Bool.and_eq_true_iff.1 h).2
    rw [ht] at h2
    have h3 := List.all_eq_true.1 h2 j (by simpa using hj)
    simp only [keepsActivityBounds, Bool.and_eq_true, Option.isNone_iff_eq_none] at h3
    obtain ⟨⟨⟨k1, k2⟩, k3⟩, k4⟩ := h3
    cases d
    · exact ⟨k1, k3⟩
    · exact ⟨k2, k4⟩

end Presolve

namespace GeneralForm

/-- A problem made with `new` from matching parts is one with which presolving starts. -/
theorem new_fresh {objective : Objective} {constraints : SparseMatrix}
    {types : List ConstraintType} {b : List ℚ} {vars : List Variable} {names : List String}
    {fixedCost : ℚ} (h : (new objective constraints types b vars names fixedCost).Consistent) :
    (new objective constraints types b vars names fixedCost).Fresh := by
  refine ⟨h, rfl, fun p hp => ?_⟩
  simp only [new, List.mem_map] at hp
  obtain ⟨q, -, rfl⟩ := hp
  exact ⟨_, rfl⟩

end GeneralForm

end Relp
