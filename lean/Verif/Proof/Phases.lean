import Verif.Proof.Rules
import Mathlib.Logic.Relation

/-! # The simplex loop of both phases -/

set_option linter.unusedSectionVars false

namespace Relp

open Matrix BasisInverse LawfulBasisInverse Tableau LawfulRule

variable {BI : ℕ → Type} [BasisInverse BI] [LawfulBasisInverse BI] {m n N : ℕ}

/-- One iteration of the simplex loop: a profitable column enters, the ratio test decides the row. -/
structure PivotStep (rhs : Fin m → ℚ) (s s' : Tableau BI m N × Matrix (Fin m) (Fin m) ℚ)
    (j : Fin N) (p : Fin m) : Prop where
  real : s.1.kind.start ≤ (j : ℕ)
  nonbasic : s.1.isInBasis j = false
  profitable : s.1.relativeCost j < 0
  ratio : RatioSpec s.1.carry.b s.1.carry.basisIndices (s.1.alpha s.2 j) (some p)
  kind_eq : s'.1.kind = s.1.kind
  basis_eq : s'.1.carry.basisIndices = Function.update s.1.carry.basisIndices p j
  b_eq : s'.1.carry.b = fun i => if i = p then s.1.carry.b p / s.1.alpha s.2 j p
    else s.1.carry.b i - s.1.alpha s.2 j i * (s.1.carry.b p / s.1.alpha s.2 j p)
  inv_eq : s'.2 = pivotUpdate s.2 (s.1.alpha s.2 j) p
  exact : s.1.Exact rhs s.2
  exact' : s'.1.Exact rhs s'.2
  nonneg : ∀ i, 0 ≤ s.1.carry.b i
  nonneg' : ∀ i, 0 ≤ s'.1.carry.b i

/-- Some iteration of the simplex loop. -/
def PStep (rhs : Fin m → ℚ) (s s' : Tableau BI m N × Matrix (Fin m) (Fin m) ℚ) : Prop :=
  ∃ j p, PivotStep rhs s s' j p

/-- Any number of iterations of the simplex loop. -/
abbrev Reach (rhs : Fin m → ℚ) :
    Tableau BI m N × Matrix (Fin m) (Fin m) ℚ → Tableau BI m N × Matrix (Fin m) (Fin m) ℚ → Prop :=
  Relation.ReflTransGen (PStep rhs)

/-- The common part of the loop bodies. -/
theorem pivot_cases {R : ℕ → Type} [PivotRule R] [LawfulRule R] (hm : OkDim BI m)
    {t : Tableau BI m N} {rhs M} {r : R N} (hex : t.Exact rhs M) (hb : ∀ i, 0 ≤ t.carry.b i)
    (hr : RInv r t M) :
    (∃ r', PivotRule.select r t = .ok (none, r') ∧ t.SelectSpec none) ∨
    (∃ j r' info, PivotRule.select r t = .ok (some (j, t.relativeCost j), r') ∧
      t.SelectSpec (some (j, t.relativeCost j)) ∧ t.generateColumn j = .ok info ∧
      t.selectPrimalPivotRow (infoColumn info) = none ∧ ∀ i, t.alpha M j i ≤ 0) ∨
    (∃ j r' info p t' change r'', PivotRule.select r t = .ok (some (j, t.relativeCost j), r') ∧
      t.generateColumn j = .ok info ∧
      t.selectPrimalPivotRow (infoColumn info) = some p ∧
      t.bringIntoBasis j p info (t.relativeCost j) = .ok (t', change) ∧
      PivotRule.afterUpdate r' change t' = .ok r'' ∧
      StepTo t t' M j p change ∧
      PivotStep rhs (t, M) (t', pivotUpdate M (t.alpha M j) p) j p ∧
      RInv r'' t' (pivotUpdate M (t.alpha M j) p)) := by
  obtain ⟨sel, r', hsel, hspec⟩ := LawfulRule.select_ok hm hex hr
  cases sel with
  | none => exact Or.inl ⟨r', hsel, hspec⟩
  | some jc =>
    obtain ⟨j, c⟩ := jc
    obtain ⟨h1, h2, h3, h4⟩ := hspec
    subst h3
    obtain ⟨info, hinfo, hwf, hval⟩ := hex.generateColumn_ok hm j
    have hratio := selectPrimalPivotRow_spec t hwf
    rw [hval] at hratio
    cases hp : t.selectPrimalPivotRow (infoColumn info) with
    | none =>
      rw [hp] at hratio
      exact Or.inr (Or.inl ⟨j, r', info, hsel, ⟨h1, h2, rfl, h4⟩, hinfo, hp, hratio⟩)
    | some p =>
      rw [hp] at hratio
      obtain ⟨t', change, hbring, hex', hstep⟩ := hex.step hm h2 hratio.1.ne' hinfo
      obtain ⟨r'', hafter, hinv⟩ := LawfulRule.after_ok hm hex hr hsel hratio.1.ne' hstep hex'
      exact Or.inr (Or.inr ⟨j, r', info, p, t', change, r'', hsel, hinfo, hp, hbring, hafter, hstep,
        ⟨h1, h2, h4, hratio, hstep.kind_eq, hstep.basis_eq, hstep.b_eq, rfl, hex, hex', hb,
          hstep.nonneg hb hratio⟩, hinv⟩)

/-- What phase two returns. -/
theorem phaseTwoLoop_spec {R : ℕ → Type} [PivotRule R] [LawfulRule R] (hm : OkDim BI m) (fuel : ℕ)
    {t : Tableau BI m N} {rhs M} {r : R N} (hex : t.Exact rhs M) (hb : ∀ i, 0 ≤ t.carry.b i)
    (hr : RInv r t M) :
    phaseTwoLoop fuel r t = .error .outOfFuel ∨
    ∃ t' M', Reach rhs (t, M) (t', M') ∧ t'.Exact rhs M' ∧ (∀ i, 0 ≤ t'.carry.b i) ∧
      ((phaseTwoLoop fuel r t = .ok (.finiteOptimum t'.currentBfs) ∧ t'.SelectSpec none) ∨
       (phaseTwoLoop fuel r t = .ok .unbounded ∧
         ∃ j, t'.SelectSpec (some (j, t'.relativeCost j)) ∧ ∀ i, t'.alpha M' j i ≤ 0)) := by
  induction fuel generalizing t M r with
  | zero => exact Or.inl rfl
  | succ fuel ih =>
    rw [phaseTwoLoop]
    rcases pivot_cases hm hex hb hr with ⟨r', h1, h2⟩ | ⟨j, r', info, h1, h2, h3, h4, h5⟩ |
      ⟨j, r', info, p, t', change, r'', h1, h2, h3, h4, h5, h6, h7, h8⟩
    · right
      refine ⟨t, M, .refl, hex, hb, Or.inl ⟨?_, h2⟩⟩
      simp only [h1, bind, Except.bind, pure, Except.pure]
    · right
      refine ⟨t, M, .refl, hex, hb, Or.inr ⟨?_, j, h2, h5⟩⟩
      simp only [h1, h3, h4, bind, Except.bind, pure, Except.pure]
    · simp only [h1, h2, h3, h4, h5, bind, Except.bind]
      rcases ih h7.exact' h7.nonneg' h8 with h | ⟨u, Mu, g1, g2⟩
      · exact Or.inl h
      · exact Or.inr ⟨u, Mu, .head ⟨j, p, h7⟩ g1, g2⟩

/-- Where phase one leaves its loop. -/
theorem phaseOneLoop_spec {R : ℕ → Type} [PivotRule R] [LawfulRule R] (hm : OkDim BI m) (fuel : ℕ)
    {t : Tableau BI m N} {rhs M} {r : R N} (hex : t.Exact rhs M) (hb : ∀ i, 0 ≤ t.carry.b i)
    (hr : RInv r t M) :
    phaseOneLoop fuel r t = .error .outOfFuel ∨
    ∃ t' M', Reach rhs (t, M) (t', M') ∧ t'.Exact rhs M' ∧ (∀ i, 0 ≤ t'.carry.b i) ∧
      ((phaseOneLoop fuel r t = phaseOneExit t' ∧ t'.SelectSpec none) ∨
       (∃ j, t'.SelectSpec (some (j, t'.relativeCost j)) ∧ ∀ i, t'.alpha M' j i ≤ 0)) := by
  induction fuel generalizing t M r with
  | zero => exact Or.inl rfl
  | succ fuel ih =>
    rw [phaseOneLoop]
    rcases pivot_cases hm hex hb hr with ⟨r', h1, h2⟩ | ⟨j, r', info, h1, h2, h3, h4, h5⟩ |
      ⟨j, r', info, p, t', change, r'', h1, h2, h3, h4, h5, h6, h7, h8⟩
    · right
      refine ⟨t, M, .refl, hex, hb, Or.inl ⟨?_, h2⟩⟩
      simp only [h1, bind, Except.bind]
    · right
      exact ⟨t, M, .refl, hex, hb, Or.inr ⟨j, h2, h5⟩⟩
    · simp only [h1, h2, h3, h4, h5, bind, Except.bind]
      rcases ih h7.exact' h7.nonneg' h8 with h | ⟨u, Mu, g1, g2⟩
      · exact Or.inl h
      · exact Or.inr ⟨u, Mu, .head ⟨j, p, h7⟩ g1, g2⟩

theorem Reach.kind_eq {rhs : Fin m → ℚ} {s s' : Tableau BI m N × Matrix (Fin m) (Fin m) ℚ}
    (h : Reach rhs s s') : s'.1.kind = s.1.kind := by
  induction h with
  | refl => rfl
  | tail _ h2 ih => obtain ⟨j, p, h2⟩ := h2; rw [h2.kind_eq, ih]

/-! ### What the final tableaus mean -/

namespace Tableau

variable {t : Tableau BI m N} {rhs : Fin m → ℚ} {M : Matrix (Fin m) (Fin m) ℚ}

theorem Exact.relativeCost_nonneg (h : t.Exact rhs M) (hs : t.SelectSpec none) {j : Fin N}
    (hj : t.kind.start ≤ (j : ℕ)) : 0 ≤ t.relativeCost j := by
  cases hb : t.isInBasis j with
  | false => exact hs j hj hb
  | true =>
    obtain ⟨k, rfl⟩ := h.mem_basis.1 hb
    exact (h.relativeCost_basis k).ge

/-- Without a profitable column, the current basic solution is optimal. -/
theorem Exact.optimal (h : t.Exact rhs M) (hb : ∀ i, 0 ≤ t.carry.b i) (hs : t.SelectSpec none)
    (hstart : t.kind.start = 0) : (t.lp rhs).Optimal t.bfs := by
  refine ⟨bfs_feasible h hb, fun y hy => ?_⟩
  rw [objective_bfs h, objective_eq h hy.1]
  have : 0 ≤ ∑ j, t.relativeCost j * y j :=
    Finset.sum_nonneg fun j _ =>
      mul_nonneg (h.relativeCost_nonneg hs (by omega)) (hy.2 j)
  linarith

/-- The direction along which column `j` enters. -/
def ray (t : Tableau BI m N) (M : Matrix (Fin m) (Fin m) ℚ) (j : Fin N) : Fin N → ℚ :=
  fun k => (if k = j then 1 else 0) - ∑ i, if t.carry.basisIndices i = k then t.alpha M j i else 0

theorem ray_sum (t : Tableau BI m N) (M : Matrix (Fin m) (Fin m) ℚ) (j : Fin N) (f : Fin N → ℚ) :
    ∑ k, f k * t.ray M j k = f j - ∑ i, f (t.carry.basisIndices i) * t.alpha M j i := by
  unfold ray
  simp only [mul_sub, Finset.sum_sub_distrib, Finset.mul_sum]
  congr 1
  · simp
  · rw [Finset.sum_comm]
    refine Finset.sum_congr rfl fun i _ => ?_
    rw [Finset.sum_eq_single (t.carry.basisIndices i)]
    · simp
    · intro k _ hk; simp [Ne.symm hk]
    · simp

theorem Exact.ray_kernel (h : t.Exact rhs M) (j : Fin N) : (t.lp rhs).A *ᵥ t.ray M j = 0 := by
  ext i
  change ∑ k, SVec.val (t.kind.column k) i * t.ray M j k = 0
  rw [ray_sum t M j fun k => SVec.val (t.kind.column k) i]
  have h1 : t.basisMatrix *ᵥ t.alpha M j = SVec.val (t.kind.column j) := by
    rw [alpha, mulVec_mulVec, h.inv', one_mulVec]
  have h2 := congrFun h1 i
  change ∑ k, SVec.val (t.kind.column (t.carry.basisIndices k)) i * t.alpha M j k = _ at h2
  rw [h2, sub_self]

theorem Exact.ray_cost (h : t.Exact rhs M) (j : Fin N) :
    t.kind.cost ⬝ᵥ t.ray M j = t.relativeCost j := by
  rw [h.relativeCost_eq, dotProduct, ray_sum t M j t.kind.cost]
  rfl

/-- A profitable column without positive entry makes the problem unbounded. -/
theorem Exact.unbounded (h : t.Exact rhs M) (hb : ∀ i, 0 ≤ t.carry.b i) {j : Fin N}
    (hj : t.relativeCost j < 0) (hα : ∀ i, t.alpha M j i ≤ 0) : (t.lp rhs).Unbounded := by
  intro L
  have hray : ∀ k, 0 ≤ t.ray M j k := by
    intro k
    unfold ray
    have h1 : ∑ i, (if t.carry.basisIndices i = k then t.alpha M j i else 0) ≤ 0 :=
      Finset.sum_nonpos fun i _ => by split <;> simp [hα i]
    have h2 : (0 : ℚ) ≤ if k = j then 1 else 0 := by split <;> simp
    linarith
  -- far enough along the ray
  obtain ⟨s, hs0, hs⟩ : ∃ s : ℚ, 0 ≤ s ∧ t.objectiveFunctionValue + s * t.relativeCost j < L := by
    refine ⟨max 0 ((t.objectiveFunctionValue - L + 1) / (-t.relativeCost j)), le_max_left _ _, ?_⟩
    have h1 := le_max_right 0 ((t.objectiveFunctionValue - L + 1) / (-t.relativeCost j))
    rw [div_le_iff₀ (by linarith)] at h1
    linarith
  refine ⟨fun k => t.bfs k + s * t.ray M j k, ⟨?_, fun k => ?_⟩, ?_⟩
  · have : (fun k => t.bfs k + s * t.ray M j k) = t.bfs + s • t.ray M j := rfl
    rw [this, mulVec_add, mulVec_smul, h.ray_kernel, smul_zero, add_zero]
    exact (bfs_feasible h hb).1
  · exact add_nonneg (bfs_nonneg t hb k) (mul_nonneg hs0 (hray k))
  · have : (fun k => t.bfs k + s * t.ray M j k) = t.bfs + s • t.ray M j := rfl
    rw [this, Spec.LP.objective, dotProduct_add, dotProduct_smul]
    have h1 := objective_bfs h
    unfold Spec.LP.objective at h1
    rw [h1]
    have h2 := h.ray_cost j
    change (t.lp rhs).c ⬝ᵥ t.ray M j = _ at h2
    rw [h2]
    exact hs

end Tableau

/-- The objective after an iteration: it changes by the relative cost times the value of the
entering variable. -/
theorem PivotStep.objective {rhs : Fin m → ℚ} {s s' : Tableau BI m N × Matrix (Fin m) (Fin m) ℚ}
    {j p} (h : PivotStep rhs s s' j p) :
    s'.1.objectiveFunctionValue = s.1.objectiveFunctionValue +
      s.1.relativeCost j * (s.1.carry.b p / s.1.alpha s.2 j p) := by
  have hlp : s'.1.lp rhs = s.1.lp rhs := by unfold Tableau.lp; rw [h.kind_eq]
  have h1 := objective_eq h.exact (y := s'.1.bfs) (by
    rw [← hlp]; exact (bfs_feasible h.exact' h.nonneg').1)
  rw [← hlp, objective_bfs h.exact'] at h1
  rw [h1, sum_bfs]
  congr 1
  rw [Finset.sum_eq_single p]
  · rw [h.basis_eq, h.b_eq]
    simp
  · intro k _ hk
    rw [h.basis_eq, Function.update_of_ne hk, h.exact.relativeCost_basis, zero_mul]
  · simp

theorem PivotStep.objective_le {rhs : Fin m → ℚ}
    {s s' : Tableau BI m N × Matrix (Fin m) (Fin m) ℚ} {j p} (h : PivotStep rhs s s' j p) :
    s'.1.objectiveFunctionValue ≤ s.1.objectiveFunctionValue := by
  rw [h.objective]
  have h1 : 0 ≤ s.1.carry.b p / s.1.alpha s.2 j p := div_nonneg (h.nonneg p) h.ratio.1.le
  nlinarith [h.profitable, mul_nonneg (neg_nonneg.2 h.profitable.le) h1]

end Relp
