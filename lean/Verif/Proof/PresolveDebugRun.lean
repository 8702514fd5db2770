import Verif.Proof.PresolveDebugAgree
import Verif.Proof.PresolveRun
import Verif.Proof.PresolveStart
import Verif.Proof.PresolveFinish
import Verif.Proof.PresolveDecide
import Verif.Spec.PresolveDebug

/-!
# Whole runs of presolving in a debug build
-/

namespace Relp

namespace Presolve

variable {G : GeneralForm} {s : Index}

theorem isVariableFixed_none {u : Updates} {j : ℕ}
    (h : ∀ l ∈ u.variableBound G j .lower, ∀ r ∈ u.variableBound G j .upper, l ≠ r) :
    u.isVariableFixed G j = none := by
  unfold Updates.isVariableFixed
  cases hl : u.variableBound G j .lower with
  | none => rfl
  | some l =>
    cases hr : u.variableBound G j .upper with
    | none => rfl
    | some r =>
      simp only
      rw [if_neg (h l (by rw [hl]; rfl) r (by rw [hr]; rfl))]

/-- The checks in a step hold. -/
theorem presolveStepDebug_eq (hG : G.Fresh) (hs : s.Fit G) (hsafe : SafeStep G s)
    (hunfixed : UnfixedStep G s) : presolveStepDebug G s = presolveStep G s := by
  have hG' := hG.toConsistent
  let s₁ : Index := { s with queues := { s.queues with substitution := s.queues.substitution.tail } }
  have hs₁ : s₁.Fit G := fit_queues hs (List.tail_subset _) (fun _ h => h) (fun _ h _ => h)
    (fun _ h => h) (fun _ h => h)
  unfold presolveStepDebug presolveStep
  unfold SafeStep nextRule at hsafe
  unfold UnfixedStep nextRule at hunfixed
  simp only []
  cases hv : s.queues.substitution.head?.filter fun j => 0 < s.counters.columns j with
  | some j =>
    simp only []
    rw [Option.filter_eq_some_iff] at hv
    have hj : j ∈ s.queues.substitution := List.mem_of_mem_head? hv.1
    have hj0 : s.counters.columns j ≠ 0 := by
      have := hv.2
      simp only [decide_eq_true_eq] at this
      omega
    rw [presolveFixedVariableDebug_eq hG' hs₁ (hs.fixed j hj hj0) (hs.substitutionQueue j hj) hj0]
  | none =>
    simp only [hv] at hsafe hunfixed
    simp only []
    have hf : s.queues.bound.find? (fun i => s.counters.constraint i ≠ 0) =
        (s.queues.bound.dropWhile fun i => s.counters.constraint i = 0).head? := by
      rw [dropWhile_find]
      simp
    cases hb : s.queues.bound.dropWhile fun i => s.counters.constraint i = 0 with
    | cons i rest =>
      simp only []
      have hsuf : i :: rest <:+ s.queues.bound := hb ▸ List.dropWhile_suffix _
      have hi : i ∈ s.queues.bound := hsuf.subset (by simp)
      have hi0 : s.counters.constraint i ≠ 0 := by
        have h := dropWhile_head hb
        simpa using h
      have h1 := hs.boundQueue i hi
      have := presolveBoundConstraintDebug_eq hG' (rest := rest) hs₁ h1.1
        (by show s.counters.constraint i = 1; omega)
        (fun k hk => hsuf.subset (by simp [hk])) (by
          intro k hk h h'
          have : k ∈ s.queues.bound.dropWhile fun i => decide (s.counters.constraint i = 0) :=
            mem_dropWhile h' (by
              have : s.counters.constraint k = 1 := h
              simp [this])
          rw [hb, List.mem_cons] at this
          exact this.resolve_left hk)
      rw [this]
    | nil =>
      rw [hb] at hf
      simp only [hf, List.head?_nil] at hsafe hunfixed
      simp only []
      have hnone : ∀ i ∈ s.queues.bound, s.counters.constraint i = 0 := by
        intro i hi
        by_contra h
        have := mem_dropWhile (p := fun i => decide (s.counters.constraint i = 0)) hi (by simp [h])
        rw [hb] at this
        cases this
      have hone : ∀ i < G.constraintTypes.length, s.counters.constraint i ≠ 1 := by
        intro i hi h
        have := hnone i (hs.allBounds i hi h)
        omega
      let s₂ : Index := { s₁ with queues := { s₁.queues with bound := [] } }
      have hs₂ : s₂.Fit G := fit_queues hs₁ (fun _ h => h) (by simp)
        (fun i hi h => by
          have h1 := hnone i hi
          have h2 : s.counters.constraint i = 1 := h
          omega)
        (fun _ h => h) (fun _ h => h)
      have hf : s.queues.slack.find? (fun j => s.counters.columns j ≠ 0) =
          (s.queues.slack.dropWhile fun j => s.counters.columns j = 0).head? := by
        rw [dropWhile_find]
        simp
      cases hl : s.queues.slack.dropWhile fun j => s.counters.columns j = 0 with
      | cons j rest =>
        rw [hl] at hf
        simp only [hf, List.head?_cons] at hunfixed
        simp only []
        have hsuf : j :: rest <:+ s.queues.slack := hl ▸ List.dropWhile_suffix _
        have hj : j ∈ s.queues.slack := hsuf.subset (by simp)
        have hj0 : s.counters.columns j ≠ 0 := by
          have h := dropWhile_head hl
          simpa using h
        have h1 := hs.slackQueue j hj
        let s₃ : Index := { s₂ with queues := { s₂.queues with slack := rest } }
        have hs₃ : s₃.Fit G := fit_queues hs₂ (fun _ h => h) (fun _ h => h) (fun _ h _ => h)
          (fun k hk => hsuf.subset (by simp [hk])) (fun _ h => h)
        have := presolveSlackDebug_eq hG' hs₃ h1.1
          (by show s.counters.columns j = 1; omega) h1.2.2 (isVariableFixed_none hunfixed) hone
        rw [this]
      | nil =>
        rw [hl] at hf
        simp only [hf, List.head?_nil] at hsafe
        simp only []
        have hf : s.queues.activity.find? (fun p => s.counters.constraint p.1 ≠ 0) =
            (s.queues.activity.dropWhile fun p => s.counters.constraint p.1 = 0).head? := by
          rw [dropWhile_find]
          simp
        let s₃ : Index := { s₂ with queues := { s₂.queues with slack := [] } }
        have hs₃ : s₃.Fit G := fit_queues hs₂ (fun _ h => h) (fun _ h => h) (fun _ h _ => h)
          (by simp) (fun _ h => h)
        cases ha : s.queues.activity.dropWhile fun p => s.counters.constraint p.1 = 0 with
        | cons p rest =>
          rw [ha] at hf
          simp only [hf, List.head?_cons] at hsafe
          obtain ⟨i, d⟩ := p
          simp only [] at hsafe ⊢
          have hsuf : (i, d) :: rest <:+ s.queues.activity := ha ▸ List.dropWhile_suffix _
          have hi : (i, d) ∈ s.queues.activity := hsuf.subset (by simp)
          have hi0 : s.counters.constraint i ≠ 0 := by
            have h := dropWhile_head ha
            simpa using h
          have h1 := hs.activityQueue _ hi
          let s₄ : Index := { s₃ with queues := { s₃.queues with activity := rest } }
          have hs₄ : s₄.Fit G := fit_queues hs₃ (fun _ h => h) (fun _ h => h) (fun _ h _ => h)
            (fun _ h => h) (fun k hk => hsuf.subset (by simp [hk]))
          rw [check_bind (decide_eq_true (by have := hone i h1.1; omega))]
          exact presolveDomainPropagationDebug_eq hG' hs₄ h1.1 hi0 hsafe
        | nil => rfl

/-- The checks in the loop hold. -/
theorem presolveLoopDebug_eq (hG : G.Fresh) (fuel : ℕ) : ∀ (s : Index) (iterations : ℕ), s.Fit G →
    SafeRun G fuel s iterations → UnfixedRun G fuel s iterations →
    presolveLoopDebug G fuel s iterations = presolveLoop G fuel s iterations := by
  induction fuel with
  | zero =>
    intro s k _ _ _
    unfold presolveLoopDebug presolveLoop
    rfl
  | succ fuel ih =>
    intro s k hs hsafe hunfixed
    unfold presolveLoopDebug presolveLoop
    by_cases h : (!s.queues.areEmpty && decide (k < remaining G s)) = true
    · rw [if_pos h, if_pos h]
      rw [Bool.and_eq_true, decide_eq_true_eq] at h
      obtain ⟨h1, h2⟩ := hsafe h.1 h.2
      obtain ⟨h3, h4⟩ := hunfixed h.1 h.2
      have hstep := presolveStep_correct hG hs h1
      rw [presolveStepDebug_eq hG hs h1 h3]
      cases hr : presolveStep G s with
      | error e => rfl
      | ok p =>
        obtain ⟨t, c⟩ := p
        rw [hr] at hstep h2 h4
        simp only [bind, Except.bind]
        cases c <;> exact ih _ _ hstep.1 h2 h4
    · rw [if_neg h, if_neg h]

theorem isVariableFixed_some {u : Updates} {j : ℕ}
    (h : ¬∀ l ∈ u.variableBound G j .lower, ∀ r ∈ u.variableBound G j .upper, l ≠ r) :
    (u.isVariableFixed G j).isSome := by
  push Not at h
  obtain ⟨l, hl, r, hr, rfl⟩ := h
  unfold Updates.isVariableFixed
  rw [hl, hr]
  simp

/-- The check in the rule for slack variables fails if the variable is fixed. -/
theorem presolveSlackDebug_fixed {j : ℕ} (h : (s.updates.isVariableFixed G j).isSome) :
    presolveSlackDebug G s j = .error (.abort .debugAssertion) := by
  obtain ⟨v, hv⟩ := Option.isSome_iff_exists.1 h
  unfold presolveSlackDebug
  rcases isVariableFixed_agree (G := G) s.updates j with e | e
  · rw [e, hv]
    unfold check
    split
    · split
      · split <;> rfl
      · rfl
    · rfl
  · rw [e]
    unfold check
    split
    · split
      · split <;> rfl
      · rfl
    · rfl

/-- A check fails in a step in which a slack variable is removed that is fixed. -/
theorem presolveStepDebug_fixed (h : ¬UnfixedStep G s) :
    presolveStepDebug G s = .error (.abort .debugAssertion) := by
  unfold UnfixedStep nextRule at h
  unfold presolveStepDebug
  simp only []
  cases hv : s.queues.substitution.head?.filter fun j => 0 < s.counters.columns j with
  | some j => simp only [hv] at h; exact absurd trivial h
  | none =>
    simp only [hv] at h
    have hf : s.queues.bound.find? (fun i => s.counters.constraint i ≠ 0) =
        (s.queues.bound.dropWhile fun i => s.counters.constraint i = 0).head? := by
      rw [dropWhile_find]
      simp
    cases hb : s.queues.bound.dropWhile fun i => s.counters.constraint i = 0 with
    | cons i rest =>
      rw [hb] at hf
      simp only [hf, List.head?_cons] at h
      exact absurd trivial h
    | nil =>
      rw [hb] at hf
      simp only [hf, List.head?_nil] at h
      have hf : s.queues.slack.find? (fun j => s.counters.columns j ≠ 0) =
          (s.queues.slack.dropWhile fun j => s.counters.columns j = 0).head? := by
        rw [dropWhile_find]
        simp
      simp only
      cases hl : s.queues.slack.dropWhile fun j => s.counters.columns j = 0 with
      | cons j rest =>
        rw [hl] at hf
        simp only [hf, List.head?_cons] at h
        simp only
        rw [presolveSlackDebug_fixed (by exact isVariableFixed_some h)]
        rfl
      | nil =>
        rw [hl] at hf
        simp only [hf, List.head?_nil] at h
        exfalso
        revert h
        cases s.queues.activity.find? fun p => s.counters.constraint p.1 ≠ 0 <;> simp

/-- A check fails in a run in which a slack variable is removed that is fixed. -/
theorem presolveLoopDebug_fixed (fuel : ℕ) : ∀ (s : Index) (iterations : ℕ),
    ¬UnfixedRun G fuel s iterations →
    presolveLoopDebug G fuel s iterations = .error (.abort .debugAssertion) := by
  induction fuel with
  | zero => intro s k h; exact absurd trivial h
  | succ fuel ih =>
    intro s k h
    unfold UnfixedRun at h
    push Not at h
    obtain ⟨h1, h2, h3⟩ := h
    unfold presolveLoopDebug
    rw [if_pos (by rw [h1, decide_eq_true h2]; rfl)]
    by_cases h4 : UnfixedStep G s
    · have h5 := h3 h4
      rcases presolveStep_agree (G := G) s with e | e
      · rw [e]
        cases hr : presolveStep G s with
        | error x => rw [hr] at h5; exact absurd trivial h5
        | ok r =>
          obtain ⟨t, c⟩ := r
          rw [hr] at h5
          cases c <;> exact ih _ _ h5
      · rw [e]; rfl
    · rw [presolveStepDebug_fixed h4]; rfl

/-! ### Start -/

theorem foldlM_congr {α β : Type} {f g : β → α → Run β} : ∀ {l : List α} {b : β},
    (∀ b, ∀ a ∈ l, f b a = g b a) → l.foldlM f b = l.foldlM g b
  | [], _, _ => rfl
  | a :: l, b, h => by
    rw [List.foldlM_cons, List.foldlM_cons, h b a (by simp)]
    congr 1
    funext b'
    exact foldlM_congr fun b a ha => h b a (by simp [ha])

theorem newDebug_eq (hp : G.Proper) : Index.newDebug G = Index.new G := by
  have hproper := initial_proper hp
  unfold Index.newDebug Index.new Updates.newDebug Updates.new
  simp only []
  rw [foldlM_congr (g := removeEmptyColumn G)]
  intro a j hj
  have hj' : j < G.vars.length := by simp at hj; exact hj.1
  unfold removeEmptyColumnDebug
  rw [check_bind]
  rw [Option.isSome_iff_ne_none]
  exact feasibleValue_isSome.2 (hproper.bounds j (by rw [initial_live, Finset.mem_range]; exact hj'))

/-! ### End -/

theorem checkIndices_ok {indices : List ℕ} {length : ℕ} (h1 : indices.Nodup)
    (h2 : ∀ i ∈ indices, i < length) : checkIndices indices length = .ok () := by
  have hperm := List.perm_insertionSort (· ≤ ·) indices
  have hmem : ∀ i ∈ indices.insertionSort (· ≤ ·), i < length := fun i hi => h2 i (hperm.subset hi)
  have hnodup : (indices.insertionSort (· ≤ ·)).Nodup := hperm.nodup_iff.2 h1
  unfold checkIndices
  simp only []
  rw [check_bind, check_bind, check_bind]
  · unfold check
    rw [if_pos (decide_eq_true hmem)]
  · exact decide_eq_true (List.toFinset_card_of_nodup hnodup)
  · exact decide_eq_true (List.pairwise_insertionSort _ _)
  · refine decide_eq_true ?_
    rw [← List.toFinset_card_of_nodup hnodup, ← Finset.card_range length]
    refine Finset.card_le_card fun i hi => ?_
    rw [Finset.mem_range]
    exact hmem i (List.mem_toFinset.1 hi)

theorem keptIndices_sorted {indices : List ℕ} {n : ℕ} : (keptIndices indices n).Pairwise (· < ·) :=
  List.pairwise_lt_range.filter _

/-- The problem that is left passes the check. -/
theorem isConsistent_finished {u : Updates} {H : GeneralForm} (h : Finished G u H)
    (ho : OriginalAfter G u H.original) : H.isConsistent = true := by
  have hc := h.consistent
  have hsorted : (leftVars G u).Pairwise (· < ·) := keptIndices_sorted
  have hcases : ∀ (o : ℕ) (ho' : o < H.original.length),
      (∃ k, (leftVars G u)[k]? = some o ∧ (H.original[o]).2 = .active k) ∨
        ∃ r, (o, r) ∈ u.removedVariables ∧ (H.original[o]).2 = .removed r := fun o ho' =>
    ho.cases (List.getElem?_eq_getElem ho')
  have hfree : (H.original.countP fun p => p.2.isSplit) = 0 := by
    rw [List.countP_eq_zero]
    intro p hp
    obtain ⟨o, ho', rfl⟩ := List.mem_iff_getElem.1 hp
    rcases hcases o ho' with ⟨k, -, h2⟩ | ⟨r, -, h2⟩ <;> rw [h2] <;> simp [OriginalVariable.isSplit]
  have hlen : (leftVars G u).length ≤ H.original.length := by
    rw [ho.length]
    have := List.length_filter_le (fun i => decide (i ∉ u.removedVariables.map (·.1)))
      (List.range G.vars.length)
    rwa [List.length_range] at this
  have hmajor : H.constraints.major = (leftVars G u).length := hc.major.trans h.varsLength
  have hkept : (H.original.filterMap fun p => p.2.position).Pairwise (· ≤ ·) := by
    rw [List.pairwise_filterMap, List.pairwise_iff_getElem]
    intro o₁ o₂ h1 h2 hlt k₁ hk₁ k₂ hk₂
    rcases hcases o₁ h1 with ⟨l₁, e1, e2⟩ | ⟨r, -, e2⟩
    · rcases hcases o₂ h2 with ⟨l₂, e3, e4⟩ | ⟨r, -, e4⟩
      · rw [e2] at hk₁
        rw [e4] at hk₂
        cases hk₁
        cases hk₂
        by_contra hle
        push Not at hle
        obtain ⟨b1, e1⟩ := List.getElem?_eq_some_iff.1 e1
        obtain ⟨b2, e3⟩ := List.getElem?_eq_some_iff.1 e3
        have := List.pairwise_iff_getElem.1 hsorted _ _ b2 b1 hle
        omega
      · rw [e4] at hk₂; cases hk₂
    · rw [e2] at hk₁; cases hk₁
  unfold GeneralForm.isConsistent
  simp only [hfree, Nat.sub_zero, h.fromActive, Bool.and_eq_true, Bool.or_eq_true, decide_eq_true_eq]
  refine ⟨⟨⟨⟨⟨⟨⟨⟨⟨Nat.zero_le _, ?_⟩, ?_⟩, hc.major.symm⟩, ?_⟩, hkept⟩, hmajor.symm⟩, ?_⟩, ?_⟩, ?_⟩
  · exact hc.bLength.trans hc.minor.symm
  · exact hc.minor.symm
  · rwa [hmajor]
  · exact ((hsorted.imp fun h => le_of_lt h).sublist (List.take_sublist _ _))
  · exact ((hsorted.imp fun h => le_of_lt h).sublist (List.drop_sublist _ _))
  · by_cases h0 : H.constraints.major = 0
    · exact .inl h0
    · refine .inr ?_
      have hk : H.constraints.major - 1 < (leftVars G u).length := by omega
      rw [List.getD_eq_getElem _ _ hk, ho.length]
      exact (mem_keptIndices.1 (List.getElem_mem hk)).1

/-- The checks when the removed rows and columns are taken out hold. -/
theorem removeRowsAndColumnsDebug_eq {u : Updates} (hG : G.Fresh)
    (hn : (u.removedVariables.map (·.1)).Nodup)
    (hr : ∀ j ∈ u.removedVariables.map (·.1), j < G.vars.length) (hn' : u.constraintsRemoved.Nodup)
    (hr' : ∀ i ∈ u.constraintsRemoved, i < G.constraintTypes.length) :
    removeRowsAndColumnsDebug (updateRemaining G u) u.constraintsRemoved (u.removedVariables.map (·.1)) =
      removeRowsAndColumns (updateRemaining G u) u.constraintsRemoved
        (u.removedVariables.map (·.1)) := by
  obtain ⟨H, e, h1, h2⟩ := removeRowsAndColumns_finished hG hn hr hn' hr'
  have hb : (updateRemaining G u).b.length = G.constraintTypes.length := by
    simp [updateRemaining, hG.bLength]
  have hc : (updateRemaining G u).constraints = G.constraints := rfl
  unfold removeRowsAndColumnsDebug
  rw [hc, checkIndices_ok hn (fun j hj => (hr j hj).trans_eq hG.major.symm), ok_bind,
    checkIndices_ok hn (fun j hj => (hr j hj).trans_eq hG.dataLength.symm), ok_bind, e, ok_bind,
    checkIndices_ok hn' (fun i hi => (hr' i hi).trans_eq hG.minor.symm), ok_bind,
    checkIndices_ok hn' (fun i hi => (hr' i hi).trans_eq hb.symm), ok_bind,
    check_bind (isConsistent_finished h1 h2)]
  rfl

/-- A debug build presolves as a release build does, if all steps are safe and no slack variable that is
removed is fixed by its bounds. -/
theorem presolveDebug_eq (hG : G.Fresh) (hp : G.Proper) {fuel : ℕ}
    (hsafe : ∀ s, Index.new G = .ok s → SafeRun G fuel s 0)
    (hunfixed : ∀ s, Index.new G = .ok s → UnfixedRun G fuel s 0) :
    presolveDebug fuel G = presolve fuel G := by
  unfold presolveDebug presolve
  rw [newDebug_eq hp]
  cases hs : Index.new G with
  | error e => rfl
  | ok s =>
    have hfit := ((indexNew_correct hG.toConsistent hp).1 s hs).1
    have hloop := presolveLoop_correct hG fuel s 0 hfit (hsafe s hs)
    simp only [ok_bind]
    rw [presolveLoopDebug_eq hG fuel s 0 hfit (hsafe s hs) (hunfixed s hs)]
    cases ht : presolveLoop G fuel s 0 with
    | error e => rfl
    | ok t =>
      rw [ht] at hloop
      have hfit := hloop.1
      simp only [ok_bind]
      rw [removeRowsAndColumnsDebug_eq hG hfit.varsNodup hfit.varsRange hfit.rowsNodup hfit.rowsRange]
      rfl

/-- A debug build aborts if a slack variable is removed that is fixed, in any run. -/
theorem presolveDebug_fixed {fuel : ℕ} (hs : Index.new G = .ok s) (h : ¬UnfixedRun G fuel s 0) :
    presolveDebug fuel G = .error (.abort .debugAssertion) := by
  unfold presolveDebug
  rcases newDebug_agree (G := G) with e | e
  · rw [e, hs, ok_bind, presolveLoopDebug_fixed fuel s 0 h]
    rfl
  · rw [e]; rfl

/-! ### Checking concrete runs -/

instance (G : GeneralForm) (s : Index) : Decidable (UnfixedStep G s) := by
  unfold UnfixedStep
  cases nextRule s <;> infer_instance

instance decidableUnfixedRun (G : GeneralForm) : ∀ (fuel : ℕ) (s : Index) (iterations : ℕ),
    Decidable (UnfixedRun G fuel s iterations)
  | 0, _, _ => isTrue trivial
  | fuel + 1, s, iterations => by
    unfold UnfixedRun
    have : Decidable (match presolveStep G s with
        | .ok (t, .meaningful) => UnfixedRun G fuel t 0
        | .ok (t, .none) => UnfixedRun G fuel t iterations
        | .ok (t, .notMeaningful) => UnfixedRun G fuel t (iterations + 1)
        | .error _ => True) := by
      cases presolveStep G s with
      | error e => infer_instance
      | ok r =>
        obtain ⟨t, c⟩ := r
        cases c <;> exact decidableUnfixedRun G fuel _ _
    infer_instance

/-- A check of the hypotheses of `presolveDebug_eq` by evaluation. -/
def debugSafe (G : GeneralForm) (fuel : ℕ) : Bool :=
  match Index.new G with
  | .error _ => true
  | .ok s => decide (SafeRun G fuel s 0) && decide (UnfixedRun G fuel s 0)

theorem debugSafe_spec {G : GeneralForm} {fuel : ℕ} (h : debugSafe G fuel = true) :
    (∀ s, Index.new G = .ok s → SafeRun G fuel s 0) ∧
      ∀ s, Index.new G = .ok s → UnfixedRun G fuel s 0 := by
  unfold debugSafe at h
  refine ⟨fun s hs => ?_, fun s hs => ?_⟩
  · rw [hs] at h
    exact of_decide_eq_true (Bool.and_eq_true_iff.1 h).1
  · rw [hs] at h
    exact of_decide_eq_true (Bool.and_eq_true_iff.1 h).2

end Presolve

end Relp
