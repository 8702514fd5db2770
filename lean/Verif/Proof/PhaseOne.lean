import Verif.Proof.Phases

/-! # Phase one and the removal of artificial variables -/

set_option linter.unusedSectionVars false

namespace Relp

open Matrix BasisInverse LawfulBasisInverse Tableau LawfulRule

variable {BI : ℕ → Type} [BasisInverse BI] [LawfulBasisInverse BI] {m n N : ℕ}

/-- Phase-one costs, and artificial variables are unit columns of the row in which they are basic. -/
structure ArtInv (t : Tableau BI m N) : Prop where
  cost_art : ∀ j : Fin N, (j : ℕ) < t.kind.start → t.kind.cost j = 1
  cost_real : ∀ j : Fin N, t.kind.start ≤ (j : ℕ) → t.kind.cost j = 0
  unit : ∀ i, (t.carry.basisIndices i : ℕ) < t.kind.start →
    SVec.val (t.kind.column (t.carry.basisIndices i)) = Pi.single i 1

theorem ArtInv.update {t t' : Tableau BI m N} (h : ArtInv t) {j : Fin N} {p : Fin m}
    (hj : t.kind.start ≤ (j : ℕ)) (hk : t'.kind = t.kind)
    (hb : t'.carry.basisIndices = Function.update t.carry.basisIndices p j) : ArtInv t' := by
  refine ⟨by rw [hk]; exact h.cost_art, by rw [hk]; exact h.cost_real, ?_⟩
  intro i hi
  rw [hk, hb] at hi ⊢
  by_cases hip : i = p
  · subst hip
    rw [Function.update_self] at hi
    omega
  · rw [Function.update_of_ne hip] at hi ⊢
    exact h.unit i hi

theorem ArtInv.reach {rhs : Fin m → ℚ} {s s' : Tableau BI m N × Matrix (Fin m) (Fin m) ℚ}
    (h : Reach rhs s s') (hs : ArtInv s.1) : ArtInv s'.1 := by
  induction h with
  | refl => exact hs
  | tail _ h2 ih => obtain ⟨j, p, h2⟩ := h2; exact ih.update h2.real h2.kind_eq h2.basis_eq

section

variable {t : Tableau BI m N} {rhs : Fin m → ℚ} {M : Matrix (Fin m) (Fin m) ℚ}

theorem ArtInv.basisCost_nonneg (h : ArtInv t) (i : Fin m) : 0 ≤ t.basisCost i := by
  unfold basisCost
  rcases lt_or_ge (t.carry.basisIndices i : ℕ) t.kind.start with hi | hi
  · rw [h.cost_art _ hi]; exact zero_le_one
  · rw [h.cost_real _ hi]

/-- The artificial problem is never unbounded. -/
theorem ArtInv.not_unbounded (h : ArtInv t) (hex : t.Exact rhs M) {j : Fin N}
    (hj : t.kind.start ≤ (j : ℕ)) (hc : t.relativeCost j < 0) (hα : ∀ i, t.alpha M j i ≤ 0) :
    False := by
  rw [hex.relativeCost_eq, h.cost_real j hj] at hc
  have : t.basisCost ⬝ᵥ t.alpha M j ≤ 0 :=
    Finset.sum_nonpos fun i _ => mul_nonpos_of_nonneg_of_nonpos (h.basisCost_nonneg i) (hα i)
  linarith

theorem ArtInv.objective_eq (_ : ArtInv t) (hex : t.Exact rhs M) :
    t.objectiveFunctionValue = t.basisCost ⬝ᵥ t.carry.b := by
  unfold objectiveFunctionValue Carry.objectiveFunctionValue
  rw [hex.obj_eq, neg_neg]

theorem ArtInv.objective_nonneg (h : ArtInv t) (hex : t.Exact rhs M) (hb : ∀ i, 0 ≤ t.carry.b i) :
    0 ≤ t.objectiveFunctionValue := by
  rw [h.objective_eq hex]
  exact Finset.sum_nonneg fun i _ => mul_nonneg (h.basisCost_nonneg i) (hb i)

/-- If the real columns have a non-negative solution, the phase-one optimum is zero. -/
theorem ArtInv.objective_zero (h : ArtInv t) (hex : t.Exact rhs M) (hb : ∀ i, 0 ≤ t.carry.b i)
    (hs : t.SelectSpec none) {y : Fin N → ℚ} (hy : (t.lp rhs).Feasible y)
    (hart : ∀ j : Fin N, (j : ℕ) < t.kind.start → y j = 0) : t.objectiveFunctionValue = 0 := by
  have h1 := Tableau.objective_eq hex hy.1
  have h2 : (t.lp rhs).objective y = 0 := by
    change ∑ j, t.kind.cost j * y j = 0
    refine Finset.sum_eq_zero fun j _ => ?_
    rcases lt_or_ge (j : ℕ) t.kind.start with hj | hj
    · rw [hart j hj, mul_zero]
    · rw [h.cost_real j hj, zero_mul]
  have h3 : 0 ≤ ∑ j, t.relativeCost j * y j := by
    refine Finset.sum_nonneg fun j _ => ?_
    rcases lt_or_ge (j : ℕ) t.kind.start with hj | hj
    · rw [hart j hj, mul_zero]
    · exact mul_nonneg (hex.relativeCost_nonneg hs hj) (hy.2 j)
  have h4 := h.objective_nonneg hex hb
  linarith

/-- With objective value zero, artificial variables have value zero. -/
theorem ArtInv.b_zero (h : ArtInv t) (hex : t.Exact rhs M) (hb : ∀ i, 0 ≤ t.carry.b i)
    (h0 : t.objectiveFunctionValue = 0) (i : Fin m)
    (hi : (t.carry.basisIndices i : ℕ) < t.kind.start) : t.carry.b i = 0 := by
  rw [h.objective_eq hex, dotProduct, Finset.sum_eq_zero_iff_of_nonneg
    fun i _ => mul_nonneg (h.basisCost_nonneg i) (hb i)] at h0
  have h1 := h0 i (Finset.mem_univ i)
  rw [basisCost, h.cost_art _ hi, one_mul] at h1
  exact h1

theorem variableValue_basis (hex : t.Exact rhs M) (i : Fin m) :
    t.variableValue (t.carry.basisIndices i) = .ok (t.carry.b i) := by
  unfold variableValue
  rw [if_pos (hex.mem_basis.2 ⟨i, rfl⟩)]
  have : (List.finRange m).find? (fun k => t.carry.basisIndices k = t.carry.basisIndices i)
      = some i := by
    rw [List.find?_eq_some_iff_append]
    refine ⟨by simp, ?_⟩
    obtain ⟨as, bs, hl⟩ := List.append_of_mem (List.mem_finRange i)
    refine ⟨as, bs, hl, fun a ha => ?_⟩
    have hnd := List.nodup_finRange m
    rw [hl, List.nodup_append] at hnd
    have hne : a ≠ i := hnd.2.2 a ha i (by simp)
    simp only [Bool.not_eq_eq_eq_not, Bool.not_true, decide_eq_false_iff_not]
    exact fun he => hne (hex.injective he)
  rw [this]

theorem findM_ok {α : Type} {p : α → Res Bool} {q : α → Bool} {l : List α}
    (h : ∀ a ∈ l, p a = .ok (q a)) : findM p l = .ok (l.find? q) := by
  induction l with
  | nil => rfl
  | cons a l ih =>
    rw [findM, h a (by simp), List.find?_cons]
    cases q a with
    | true => rfl
    | false => exact ih fun b hb => h b (by simp [hb])

/-- One iteration of the removal of artificial variables at value zero. -/
theorem removeArtificialStep_spec (hm : OkDim BI m) (hex : t.Exact rhs M)
    {p : Fin m} (hp : (t.carry.basisIndices p : ℕ) < t.kind.start) (hb : t.carry.b p = 0) :
    (removeArtificialStep t p (t.carry.basisIndices p) = .ok (t, some p) ∧
      ∀ j : Fin N, t.kind.start ≤ (j : ℕ) → t.alpha M j p = 0) ∨
    (∃ (t' : Tableau BI m N) (j : Fin N), removeArtificialStep t p (t.carry.basisIndices p) = .ok (t', none) ∧
      t.kind.start ≤ (j : ℕ) ∧ t.alpha M j p ≠ 0 ∧
      t'.Exact rhs (pivotUpdate M (t.alpha M j) p) ∧ t'.kind = t.kind ∧
      t'.carry.basisIndices = Function.update t.carry.basisIndices p j ∧
      t'.carry.b = t.carry.b) := by
  have hval := variableValue_basis hex p
  rw [hb] at hval
  unfold removeArtificialStep
  simp only [hval, bind, Except.bind, ne_eq, not_true_eq_false, if_false]
  rw [findM_ok (q := fun q => decide (t.alpha M q.1 p ≠ 0)) (by
    intro q _
    rw [hex.generateElement_ok hm]
    by_cases h0 : t.alpha M q.1 p = 0
    · simp [h0, pure, Except.pure]
    · simp [h0, pure, Except.pure])]
  cases hsel : t.candidates.find? fun q => decide (t.alpha M q.1 p ≠ 0) with
  | none =>
    left
    refine ⟨rfl, fun j hj => ?_⟩
    cases hjb : t.isInBasis j with
    | false =>
      rw [List.find?_eq_none] at hsel
      have := hsel (j, t.relativeCost j) (mem_candidates.2 ⟨hj, hjb, rfl⟩)
      simpa using this
    | true =>
      obtain ⟨k, rfl⟩ := hex.mem_basis.1 hjb
      rw [hex.alpha_basis]
      have : p ≠ k := by rintro rfl; omega
      exact Pi.single_eq_of_ne this 1
  | some q =>
    right
    obtain ⟨j, c⟩ := q
    obtain ⟨h1, h2, h3⟩ := mem_candidates.1 (List.mem_of_find?_eq_some hsel)
    have h4 : t.alpha M j p ≠ 0 := by simpa using List.find?_some hsel
    simp only at h1 h2 h3
    subst h3
    obtain ⟨info, hinfo, -, -⟩ := hex.generateColumn_ok hm j
    obtain ⟨t', change, hbring, hex', hstep⟩ := hex.step hm h2 h4 hinfo
    refine ⟨t', j, ?_, h1, h4, hex', hstep.kind_eq, hstep.basis_eq, ?_⟩
    · simp only [hinfo, hbring]
      rfl
    · rw [hstep.b_eq]
      ext i
      by_cases hi : i = p
      · subst hi; simp [hb]
      · simp [hi, hb]

/-- The state at the end of phase one. -/
structure PhaseOneEnd (rhs : Fin m → ℚ) (t : Tableau BI m N) (M : Matrix (Fin m) (Fin m) ℚ)
    (rows : List (Fin m)) : Prop where
  exact : t.Exact rhs M
  nonneg : ∀ i, 0 ≤ t.carry.b i
  art : ArtInv t
  sorted : rows.Pairwise (· < ·)
  rows_iff : ∀ i, i ∈ rows ↔ (t.carry.basisIndices i : ℕ) < t.kind.start
  zero : ∀ i ∈ rows, t.carry.b i = 0
  redundant : ∀ i ∈ rows, ∀ j : Fin N, t.kind.start ≤ (j : ℕ) → t.alpha M j i = 0

theorem removeArtificialLoop_spec (hm : OkDim BI m) (l : List (Fin m × Fin N))
    (t : Tableau BI m N) (M : Matrix (Fin m) (Fin m) ℚ) (rows : List (Fin m))
    (hex : t.Exact rhs M) (hnn : ∀ i, 0 ≤ t.carry.b i) (hart : ArtInv t)
    (hl : ∀ q ∈ l, t.carry.basisIndices q.1 = q.2 ∧ (q.2 : ℕ) < t.kind.start)
    (hsorted : (rows ++ l.map (·.1)).Pairwise (· < ·))
    (hall : ∀ i, (t.carry.basisIndices i : ℕ) < t.kind.start → i ∈ rows ++ l.map (·.1))
    (hrows : ∀ i ∈ rows, (t.carry.basisIndices i : ℕ) < t.kind.start ∧
      ∀ j : Fin N, t.kind.start ≤ (j : ℕ) → t.alpha M j i = 0)
    (hzero : ∀ i, (t.carry.basisIndices i : ℕ) < t.kind.start → t.carry.b i = 0) :
    ∃ t' M' rows', removeArtificialLoop l t rows = .ok (t', rows') ∧ t'.kind = t.kind ∧
      PhaseOneEnd rhs t' M' rows' := by
  induction l generalizing t M rows with
  | nil =>
    simp only [List.map_nil, List.append_nil] at hsorted hall
    exact ⟨t, M, rows, rfl, rfl, hex, hnn, hart, hsorted,
      fun i => ⟨fun h => (hrows i h).1, hall i⟩, fun i hi => hzero i (hrows i hi).1,
      fun i hi => (hrows i hi).2⟩
  | cons q l ih =>
    obtain ⟨p, a⟩ := q
    have hpa := hl (p, a) (by simp)
    simp only at hpa
    obtain ⟨rfl, hpa⟩ := hpa
    rw [removeArtificialLoop]
    rcases removeArtificialStep_spec hm hex hpa (hzero p hpa) with
      ⟨h1, h2⟩ | ⟨t', j, h1, h2, h3, h4, h5, h6, h7⟩
    · rw [h1]
      have hap : rows ++ [p] ++ l.map (·.1) = rows ++ ((p, t.carry.basisIndices p) :: l).map (·.1) := by
        simp
      refine ih t M (rows ++ [p]) hex hnn hart (fun q hq => hl q (by simp [hq])) ?_ ?_ ?_ hzero
      · rw [hap]; exact hsorted
      · rw [hap]; exact hall
      · intro i hi
        rcases List.mem_append.1 hi with hi | hi
        · exact hrows i hi
        · simp only [List.mem_singleton] at hi
          subst hi
          exact ⟨hpa, h2⟩
    · rw [h1]
      simp only
      -- rows other than `p` in the lists
      have hnd : (rows ++ (p :: l.map (·.1))).Nodup := by
        exact hsorted.imp (fun h => ne_of_lt h)
      have hpl : p ∉ l.map (·.1) := by
        have := (List.nodup_append.1 hnd).2.1
        exact (List.nodup_cons.1 this).1
      have hpr : p ∉ rows := fun h => (List.nodup_append.1 hnd).2.2 p h p (by simp) rfl
      rw [← h5]
      refine ih t' _ rows h4 (by rw [h7]; exact hnn) (hart.update h2 h5 h6) ?_ ?_ ?_ ?_ ?_
      · intro q hq
        have := hl q (by simp [hq])
        have hne : q.1 ≠ p := fun he => hpl (he ▸ List.mem_map.2 ⟨q, hq, rfl⟩)
        rw [h5, h6, Function.update_of_ne hne]
        exact this
      · exact hsorted.sublist ((List.sublist_cons_self _ _).append_left _)
      · intro i hi
        rw [h5, h6] at hi
        by_cases hip : i = p
        · subst hip; rw [Function.update_self] at hi; omega
        · rw [Function.update_of_ne hip] at hi
          have := hall i hi
          simp only [List.map_cons, List.mem_append, List.mem_cons] at this ⊢
          tauto
      · intro i hi
        have hip : i ≠ p := fun he => hpr (he ▸ hi)
        rw [h5, h6, Function.update_of_ne hip]
        refine ⟨(hrows i hi).1, fun j' hj' => ?_⟩
        unfold alpha
        rw [h5, pivotUpdate_mulVec_other _ _ hip]
        have g1 := (hrows i hi).2 j h2
        have g2 := (hrows i hi).2 j' hj'
        change t.alpha M j' i - t.alpha M j i * _ = 0
        rw [g1, g2]; ring
      · intro i hi
        rw [h7]
        rw [h5, h6] at hi
        by_cases hip : i = p
        · subst hip; exact hzero i hpa
        · rw [Function.update_of_ne hip] at hi
          exact hzero i hi

/-- The result of phase one when its loop ends. -/
theorem phaseOneExit_spec (hm : OkDim BI m) (hex : t.Exact rhs M) (hb : ∀ i, 0 ≤ t.carry.b i)
    (hart : ArtInv t) :
    (phaseOneExit t = .ok .infeasible ∧ t.objectiveFunctionValue ≠ 0) ∨
    (∃ t' M' rows, t'.kind = t.kind ∧ PhaseOneEnd rhs t' M' rows ∧
      ((phaseOneExit t = .ok (.feasible .full t'.carry t'.basisColumns) ∧ rows = []) ∨
       (phaseOneExit t = .ok (.feasible (.deficient rows) t'.carry t'.basisColumns) ∧
         rows ≠ []))) := by
  unfold phaseOneExit
  by_cases h0 : t.objectiveFunctionValue = 0
  · right
    rw [if_pos h0]
    by_cases hh : t.hasArtificialInBasis = true
    · rw [if_pos hh]
      obtain ⟨t', M', rows, h1, h2, h3⟩ := removeArtificialLoop_spec hm t.artificialBasisColumns t M []
        hex hb hart (by
          intro q hq
          unfold artificialBasisColumns at hq
          rw [List.mem_filter, List.mem_map] at hq
          obtain ⟨⟨i, -, rfl⟩, hq⟩ := hq
          exact ⟨rfl, by simpa using hq⟩) (by
          rw [List.nil_append]
          have hs : (t.artificialBasisColumns.map (·.1)).Sublist (List.finRange m) := by
            unfold artificialBasisColumns
            have := (List.filter_sublist (p := fun p : Fin m × Fin N => decide ((p.2 : ℕ) < t.kind.start))
              (l := (List.finRange m).map fun i => (i, t.carry.basisIndices i))).map (·.1)
            rw [List.map_map] at this
            simpa [Function.comp_def] using this
          exact (List.pairwise_lt_finRange m).sublist hs) (by
          intro i hi
          rw [List.nil_append]
          refine List.mem_map.2 ⟨(i, t.carry.basisIndices i), ?_, rfl⟩
          unfold artificialBasisColumns
          rw [List.mem_filter]
          exact ⟨List.mem_map.2 ⟨i, List.mem_finRange i, rfl⟩, by simpa using hi⟩)
        (by simp) (fun i hi => hart.b_zero hex hb h0 i hi)
      refine ⟨t', M', rows, h2, h3, ?_⟩
      unfold removeArtificialBasisVariables
      simp only [h1, bind, Except.bind]
      cases rows with
      | nil => left; exact ⟨rfl, rfl⟩
      | cons a l => right; exact ⟨rfl, by simp⟩
    · rw [if_neg hh]
      have hno : ∀ i, ¬ (t.carry.basisIndices i : ℕ) < t.kind.start := by
        intro i hi
        apply hh
        unfold hasArtificialInBasis
        simp only [decide_eq_true_eq]
        refine ⟨t.carry.basisIndices i, ?_, hi⟩
        rw [hex.cols]
        simp
      exact ⟨t, M, [], rfl, ⟨hex, hb, hart, List.Pairwise.nil,
        fun i => ⟨by simp, fun h => absurd h (hno i)⟩, by simp, by simp⟩, Or.inl ⟨rfl, rfl⟩⟩
  · left
    rw [if_neg h0]
    exact ⟨rfl, h0⟩

end

end Relp
