import Verif.Model.Solve
import Verif.Proof.Carry
import Verif.Spec.LP

/-! # The solver invariant and one basis change -/

set_option linter.unusedSectionVars false

namespace Relp

open Matrix BasisInverse LawfulBasisInverse

namespace Tableau

variable {BI : ℕ → Type} [BasisInverse BI] [LawfulBasisInverse BI] {m n N : ℕ}

/-- The basis matrix. -/
def basisMatrix (t : Tableau BI m N) : Matrix (Fin m) (Fin m) ℚ :=
  columnsMatrix fun k => t.kind.column (t.carry.basisIndices k)

/-- Costs of the basis columns. -/
def basisCost (t : Tableau BI m N) : Fin m → ℚ := fun k => t.kind.cost (t.carry.basisIndices k)

/-- Column `j` with respect to the current basis. -/
def alpha (t : Tableau BI m N) (M : Matrix (Fin m) (Fin m) ℚ) (j : Fin N) : Fin m → ℚ :=
  M *ᵥ SVec.val (t.kind.column j)

/-- Everything that the solver stores is exact: `M` is the inverse of the basis matrix, and the
other fields are the quantities that it determines. -/
structure Exact (t : Tableau BI m N) (rhs : Fin m → ℚ) (M : Matrix (Fin m) (Fin m) ℚ) : Prop where
  wf : ∀ j, SVec.WF (t.kind.column j)
  rep : Rep t.carry.basisInverse M
  inv : M * t.basisMatrix = 1
  b_eq : t.carry.b = M *ᵥ rhs
  pi_eq : t.carry.minusPi = -(t.basisCost ᵥ* M)
  obj_eq : t.carry.minusObjective = -(t.basisCost ⬝ᵥ t.carry.b)
  cols : t.basisColumns = Finset.univ.image t.carry.basisIndices

variable {t : Tableau BI m N} {rhs : Fin m → ℚ} {M : Matrix (Fin m) (Fin m) ℚ}

theorem Exact.inv' (h : t.Exact rhs M) : t.basisMatrix * M = 1 :=
  mul_eq_one_comm.1 h.inv

theorem Exact.relativeCost_eq (h : t.Exact rhs M) (j : Fin N) :
    t.relativeCost j = t.kind.cost j - t.basisCost ⬝ᵥ t.alpha M j := by
  unfold relativeCost Carry.costDifference alpha
  rw [SVec.innerProductDense_eq, h.pi_eq, neg_dotProduct, dotProduct_mulVec]
  ring

theorem Exact.alpha_basis (h : t.Exact rhs M) (k : Fin m) :
    t.alpha M (t.carry.basisIndices k) = Pi.single k 1 := by
  have : SVec.val (t.kind.column (t.carry.basisIndices k)) = t.basisMatrix.col k := rfl
  rw [alpha, this]
  ext i
  have h1 : (M *ᵥ t.basisMatrix.col k) i = (M * t.basisMatrix) i k := rfl
  rw [h1, h.inv, Matrix.one_apply, Pi.single_apply]

theorem Exact.relativeCost_basis (h : t.Exact rhs M) (k : Fin m) :
    t.relativeCost (t.carry.basisIndices k) = 0 := by
  rw [h.relativeCost_eq, h.alpha_basis, dotProduct_single]
  simp [basisCost]

theorem Exact.injective (h : t.Exact rhs M) : Function.Injective t.carry.basisIndices := by
  intro a b hab
  have h1 := h.alpha_basis a
  rw [hab, h.alpha_basis b] at h1
  by_contra hne
  have h2 := congrFun h1 a
  rw [Pi.single_eq_same, Pi.single_eq_of_ne hne] at h2
  exact one_ne_zero h2.symm

theorem Exact.mem_basis (h : t.Exact rhs M) {j : Fin N} :
    t.isInBasis j = true ↔ ∃ k, t.carry.basisIndices k = j := by
  unfold isInBasis
  rw [h.cols]
  simp

theorem Exact.generateColumn_ok (hm : OkDim BI m) (h : t.Exact rhs M) (j : Fin N) :
    ∃ info, t.generateColumn j = .ok info ∧ SVec.WF (infoColumn info) ∧
      SVec.val (infoColumn info) = t.alpha M j :=
  left_ok hm h.rep (h.wf j)

theorem Exact.generateElement_ok (hm : OkDim BI m) (h : t.Exact rhs M) (i : Fin m) (j : Fin N) :
    t.generateElement i j = .ok (if t.alpha M j i = 0 then none else some (t.alpha M j i)) :=
  element_ok hm h.rep (h.wf j) i

/-- The right-hand side is the combination of the basis columns with weights `b`. -/
theorem Exact.basis_mul_b (h : t.Exact rhs M) : t.basisMatrix *ᵥ t.carry.b = rhs := by
  rw [h.b_eq, mulVec_mulVec, h.inv', one_mulVec]

theorem nonempty_of_val_ne_zero {v : Sparse m} {i : Fin m} (h : SVec.val v i ≠ 0) : v ≠ [] := by
  rintro rfl; simp at h

/-- The state after bringing column `j` into the basis at row `p`. -/
structure StepTo (t t' : Tableau BI m N) (M : Matrix (Fin m) (Fin m) ℚ) (j : Fin N) (p : Fin m)
    (change : BasisChangeInfo m N) : Prop where
  kind_eq : t'.kind = t.kind
  basis_eq : t'.carry.basisIndices = Function.update t.carry.basisIndices p j
  b_eq : t'.carry.b = fun i => if i = p then t.carry.b p / t.alpha M j p
    else t.carry.b i - t.alpha M j i * (t.carry.b p / t.alpha M j p)
  pivotRow_eq : change.pivotRow = p
  pivotColumn_eq : change.pivotColumn = j
  leaving_eq : change.leavingColumn = t.carry.basisIndices p
  column_wf : SVec.WF change.columnBeforeChange
  column_eq : SVec.val change.columnBeforeChange = t.alpha M j
  work_wf : SVec.WF change.workVector
  work_eq : SVec.val change.workVector = t.alpha M j ᵥ* M
  row_wf : SVec.WF change.basisInverseRow
  row_eq : SVec.val change.basisInverseRow = pivotUpdate M (t.alpha M j) p p

theorem basisMatrix_update (t : Tableau BI m N) (j : Fin N) (p : Fin m) :
    (columnsMatrix fun k => t.kind.column (Function.update t.carry.basisIndices p j k))
      = t.basisMatrix.updateCol p (SVec.val (t.kind.column j)) := by
  ext i k
  by_cases hk : k = p
  · subst hk; simp [columnsMatrix]
  · simp [columnsMatrix, basisMatrix, hk]

/-- One basis change keeps all stored quantities exact. -/
theorem Exact.step (hm : OkDim BI m) (h : t.Exact rhs M) {j : Fin N} {p : Fin m}
    (hj : t.isInBasis j = false) (hp : t.alpha M j p ≠ 0) {info : Info BI m}
    (hinfo : t.generateColumn j = .ok info) :
    ∃ t' change, t.bringIntoBasis j p info (t.relativeCost j) = .ok (t', change) ∧
      t'.Exact rhs (pivotUpdate M (t.alpha M j) p) ∧ StepTo t t' M j p change := by
  obtain ⟨info', hinfo', hwf, hval⟩ := h.generateColumn_ok hm j
  rw [hinfo] at hinfo'
  cases hinfo'
  have hp' : SVec.val (infoColumn info) p ≠ 0 := by rw [hval]; exact hp
  obtain ⟨work, hwork, hwork_wf, hwork_val⟩ :=
    right_ok hm h.rep hwf (nonempty_of_val_ne_zero hp')
  have hb := Carry.updateB_ok (b := t.carry.b) hwf hp'
  have hinv' : pivotUpdate M (t.alpha M j) p *
      (columnsMatrix fun k => t.kind.column (Function.update t.carry.basisIndices p j k)) = 1 := by
    rw [basisMatrix_update]
    exact pivotUpdate_mul h.inv _ p hp
  -- the new basis inverse
  have hbi : ∃ bi' : BI m,
      (if shouldRefactor t.carry.basisInverse then do
        let basisInverse ← invert fun i =>
          t.kind.column (Function.update t.carry.basisIndices p j i)
        pure (basisInverse, infoColumn info)
      else BasisInverse.changeBasis t.carry.basisInverse p info : Res (BI m × Sparse m))
        = .ok (bi', infoColumn info) ∧ Rep bi' (pivotUpdate M (t.alpha M j) p) := by
    cases hr : shouldRefactor t.carry.basisInverse with
    | true =>
      obtain ⟨bi', h1, h2⟩ := invert_ok (BI := BI) (refactor_ok hm h.rep hr) (fun i => h.wf _) hinv'
      refine ⟨bi', ?_, h2⟩
      simp only [h1, if_true]
      rfl
    | false =>
      obtain ⟨bi', h1, h2⟩ := change_ok hm h.rep (h.wf j) hinfo hr hp
      exact ⟨bi', by simp only [h1, Bool.false_eq_true, if_false], h2⟩
  obtain ⟨bi', hbi, hrep'⟩ := hbi
  obtain ⟨row, hrow, hrow_wf, hrow_val⟩ := row_ok hm hrep' p
  have hcarry : t.carry.changeBasis t.kind p j info (t.relativeCost j) = .ok
      ({ minusObjective := t.carry.minusObjective - t.relativeCost j *
            (t.carry.b p / SVec.val (infoColumn info) p)
         minusPi := Carry.updateMinusPi t.carry.minusPi (t.relativeCost j) row
         b := fun i => if i = p then t.carry.b p / SVec.val (infoColumn info) p
            else t.carry.b i - SVec.val (infoColumn info) i *
              (t.carry.b p / SVec.val (infoColumn info) p)
         basisIndices := Function.update t.carry.basisIndices p j
         basisInverse := bi' },
       { pivotRow := p, pivotColumn := j, leavingColumn := t.carry.basisIndices p,
         columnBeforeChange := infoColumn info, workVector := work, basisInverseRow := row }) := by
    unfold Carry.changeBasis
    simp only [bind, Except.bind, pure, Except.pure] at hbi
    simp only [hwork, hb, bind, Except.bind, pure, Except.pure]
    rw [hbi]
    simp only [hrow, if_true]
  refine ⟨_, _, by unfold bringIntoBasis; rw [hcarry]; rfl, ?_, ?_⟩
  · -- exactness
    have hcost : (fun k => t.kind.cost (Function.update t.carry.basisIndices p j k))
        = Function.update t.basisCost p (t.kind.cost j) := by
      ext k
      by_cases hk : k = p
      · subst hk; simp
      · simp [hk, basisCost]
    have hpi : ∀ k, (Function.update t.basisCost p (t.kind.cost j) ᵥ*
        pivotUpdate M (t.alpha M j) p) k
        = (t.basisCost ᵥ* M) k + t.relativeCost j * pivotUpdate M (t.alpha M j) p p k := by
      intro k
      rw [vecMul_pivotUpdate M _ hp, h.relativeCost_eq]
    refine ⟨h.wf, hrep', hinv', ?_, ?_, ?_, ?_⟩
    · -- b
      ext i
      simp only [hval]
      by_cases hi : i = p
      · subst hi
        rw [pivotUpdate_mulVec_pivot, if_pos rfl, h.b_eq]
      · rw [pivotUpdate_mulVec_other _ _ hi, if_neg hi, h.b_eq]
    · -- minus pi
      ext k
      change Carry.updateMinusPi t.carry.minusPi (t.relativeCost j) row k = _
      rw [Carry.updateMinusPi_eq _ _ hrow_wf, hrow_val, h.pi_eq]
      change _ = -(((fun k => t.kind.cost (Function.update t.carry.basisIndices p j k)) ᵥ* _) k)
      rw [hcost, hpi]
      simp only [Pi.neg_apply]
      ring
    · -- objective
      change t.carry.minusObjective - t.relativeCost j *
            (t.carry.b p / SVec.val (infoColumn info) p)
        = -((fun k => t.kind.cost (Function.update t.carry.basisIndices p j k)) ⬝ᵥ _)
      have hb' : (fun i => if i = p then t.carry.b p / SVec.val (infoColumn info) p
            else t.carry.b i - SVec.val (infoColumn info) i *
              (t.carry.b p / SVec.val (infoColumn info) p))
          = pivotUpdate M (t.alpha M j) p *ᵥ rhs := by
        ext i
        simp only [hval]
        by_cases hi : i = p
        · subst hi
          rw [pivotUpdate_mulVec_pivot, if_pos rfl, h.b_eq]
        · rw [pivotUpdate_mulVec_other _ _ hi, if_neg hi, h.b_eq]
      rw [hb', hcost, dotProduct_mulVec]
      have hsplit : (Function.update t.basisCost p (t.kind.cost j) ᵥ*
          pivotUpdate M (t.alpha M j) p) ⬝ᵥ rhs
          = (t.basisCost ᵥ* M) ⬝ᵥ rhs
            + t.relativeCost j * (pivotUpdate M (t.alpha M j) p *ᵥ rhs) p := by
        simp only [dotProduct, hpi, mulVec, add_mul, Finset.sum_add_distrib, Finset.mul_sum]
        congr 1
        exact Finset.sum_congr rfl fun k _ => by ring
      rw [hsplit, pivotUpdate_mulVec_pivot, h.obj_eq, h.b_eq, dotProduct_mulVec, hval]
      ring
    · -- basis columns
      change insert j (t.basisColumns.erase (t.carry.basisIndices p)) = _
      rw [h.cols]
      ext c
      simp only [Finset.mem_insert, Finset.mem_erase, Finset.mem_image, Finset.mem_univ, true_and]
      constructor
      · rintro (rfl | ⟨h1, k, rfl⟩)
        · exact ⟨p, by simp⟩
        · have hk : k ≠ p := fun hk => h1 (by rw [hk])
          exact ⟨k, by simp [hk]⟩
      · rintro ⟨k, hk⟩
        by_cases hkp : k = p
        · subst hkp; left; simpa using hk.symm
        · right
          simp only [Function.update_of_ne hkp] at hk
          refine ⟨fun h2 => hkp (h.injective (hk.trans h2)), k, hk⟩
  · exact ⟨rfl, rfl, by simp only [hval], rfl, rfl, rfl, hwf, hval, hwork_wf,
      by rw [hwork_val, hval], hrow_wf, hrow_val⟩

/-! ### Ratio test -/

/-- What the result of the ratio test says about the column `α`. -/
def RatioSpec (b : Fin m → ℚ) (basis : Fin m → Fin N) (α : Fin m → ℚ) : Option (Fin m) → Prop
  | none => ∀ i, α i ≤ 0
  | some p => 0 < α p ∧ ∀ i, 0 < α i →
      b p / α p < b i / α i ∨ (b p / α p = b i / α i ∧ basis p ≤ basis i)

theorem ratioStep_fold (b : Fin m → ℚ) (basis : Fin m → Fin N) (v : Sparse m)
    (best : Option (Fin m × ℚ × Fin N)) :
    match v.foldl (ratioStep b basis) best with
    | none => best = none ∧ ∀ p ∈ v, p.2 ≤ 0
    | some (i, r, l) =>
      (best = some (i, r, l) ∨ ∃ p ∈ v, p.1 = i ∧ 0 < p.2 ∧ r = b i / p.2 ∧ l = basis i) ∧
      (∀ p ∈ v, 0 < p.2 → r < b p.1 / p.2 ∨ (r = b p.1 / p.2 ∧ l ≤ basis p.1)) ∧
      (∀ q ∈ best, r < q.2.1 ∨ (r = q.2.1 ∧ l ≤ q.2.2)) := by
  induction v generalizing best with
  | nil =>
    cases best with
    | none => simp
    | some q => obtain ⟨i, r, l⟩ := q; simp
  | cons p v ih =>
    rw [List.foldl_cons]
    have := ih (ratioStep b basis best p)
    revert this
    generalize v.foldl (ratioStep b basis) (ratioStep b basis best p) = res
    intro this
    by_cases hp : p.2 > 0
    · -- the current tuple takes part
      have hstep : ∃ q, ratioStep b basis best p = some q ∧
          ((best = some q) ∨ (q = (p.1, b p.1 / p.2, basis p.1))) ∧
          (q.2.1 < b p.1 / p.2 ∨ (q.2.1 = b p.1 / p.2 ∧ q.2.2 ≤ basis p.1)) ∧
          (∀ q' ∈ best, q.2.1 < q'.2.1 ∨ (q.2.1 = q'.2.1 ∧ q.2.2 ≤ q'.2.2)) := by
        unfold ratioStep
        rw [if_pos hp]
        cases best with
        | none => exact ⟨_, rfl, Or.inr rfl, Or.inr ⟨rfl, le_rfl⟩, by simp⟩
        | some q =>
          obtain ⟨i, r, l⟩ := q
          simp only
          split
          · rename_i h1
            refine ⟨_, rfl, Or.inr (by rw [h1.1]), Or.inr ⟨h1.1.symm, le_rfl⟩, ?_⟩
            simp [h1.2.le]
          · split
            · rename_i h1 h2
              exact ⟨_, rfl, Or.inr rfl, Or.inr ⟨rfl, le_rfl⟩, by simp [h2]⟩
            · rename_i h1 h2
              refine ⟨_, rfl, Or.inl rfl, ?_, by simp⟩
              rcases lt_or_eq_of_le (not_lt.1 h2) with h3 | h3
              · exact Or.inl h3
              · refine Or.inr ⟨h3, ?_⟩
                by_contra hc
                exact h1 ⟨h3.symm, not_le.1 hc⟩
      obtain ⟨q, hq, hq1, hq2, hq3⟩ := hstep
      rw [hq] at this
      cases res with
      | none => simp at this
      | some r =>
        obtain ⟨i, r, l⟩ := r
        simp only [Option.some.injEq, Option.mem_def, forall_eq'] at this ⊢
        obtain ⟨h1, h2, h3⟩ := this
        have trans : ∀ (x : ℚ) (y : Fin N), (q.2.1 < x ∨ (q.2.1 = x ∧ q.2.2 ≤ y)) →
            (r < x ∨ (r = x ∧ l ≤ y)) := by
          intro x y hxy
          rcases h3 with h3 | ⟨h3, h3'⟩ <;> rcases hxy with hx | ⟨hx, hx'⟩
          · exact Or.inl (h3.trans hx)
          · exact Or.inl (hx ▸ h3)
          · exact Or.inl (h3 ▸ hx)
          · exact Or.inr ⟨h3.trans hx, h3'.trans hx'⟩
        refine ⟨?_, ?_, ?_⟩
        · rcases h1 with h1 | ⟨p', hp', h1⟩
          · rcases hq1 with hq1 | hq1
            · left; rw [hq1, h1]
            · right
              rw [h1] at hq1
              simp only [Prod.mk.injEq] at hq1
              obtain ⟨rfl, rfl, rfl⟩ := hq1
              exact ⟨p, by simp, rfl, hp, rfl, rfl⟩
          · exact Or.inr ⟨p', by simp [hp'], h1⟩
        · intro p' hp' hpos
          rcases List.mem_cons.1 hp' with rfl | hp'
          · exact trans _ _ hq2
          · exact h2 p' hp' hpos
        · intro q' hq'
          exact trans _ _ (hq3 q' hq')
    · have hstep : ratioStep b basis best p = best := by unfold ratioStep; rw [if_neg hp]
      rw [hstep] at this
      cases res with
      | none =>
        refine ⟨this.1, ?_⟩
        intro q hq
        rcases List.mem_cons.1 hq with rfl | hq
        · exact not_lt.1 hp
        · exact this.2 q hq
      | some r =>
        obtain ⟨i, r, l⟩ := r
        simp only at this ⊢
        obtain ⟨h1, h2, h3⟩ := this
        refine ⟨?_, ?_, h3⟩
        · rcases h1 with h1 | ⟨p', hp', h1⟩
          · exact Or.inl h1
          · exact Or.inr ⟨p', by simp [hp'], h1⟩
        · intro p' hp' hpos
          rcases List.mem_cons.1 hp' with rfl | hp'
          · exact absurd hpos hp
          · exact h2 p' hp' hpos

theorem selectPrimalPivotRow_spec (t : Tableau BI m N) {column : Sparse m}
    (hc : SVec.WF column) :
    RatioSpec t.carry.b t.carry.basisIndices (SVec.val column) (t.selectPrimalPivotRow column) := by
  unfold selectPrimalPivotRow
  have := ratioStep_fold t.carry.b t.carry.basisIndices column none
  revert this
  generalize column.foldl (ratioStep t.carry.b t.carry.basisIndices) none = res
  intro this
  cases res with
  | none =>
    simp only [true_and] at this
    intro i
    by_contra hi
    push Not at hi
    obtain ⟨p, hp, rfl⟩ := SVec.exists_mem_of_val_ne_zero hi.ne'
    rw [SVec.val_of_mem hc hp] at hi
    exact absurd (this p hp) (not_le.2 hi)
  | some r =>
    obtain ⟨i, r, l⟩ := r
    simp only [reduceCtorEq, false_or, Option.mem_def, false_implies, implies_true, and_true] at this
    obtain ⟨⟨p, hp, rfl, hpos, rfl, rfl⟩, h2⟩ := this
    have hpv := SVec.val_of_mem hc hp
    refine ⟨by simp only [hpv]; exact hpos, ?_⟩
    intro i hi
    obtain ⟨q, hq, rfl⟩ := SVec.exists_mem_of_val_ne_zero hi.ne'
    rw [SVec.val_of_mem hc hq] at hi ⊢
    simp only [hpv]
    exact h2 q hq hi

/-- The ratio test keeps the solution non-negative. -/
theorem StepTo.nonneg {t' : Tableau BI m N} {j : Fin N} {p : Fin m} {change}
    (h : StepTo t t' M j p change) (hb : ∀ i, 0 ≤ t.carry.b i)
    (hr : RatioSpec t.carry.b t.carry.basisIndices (t.alpha M j) (some p)) :
    ∀ i, 0 ≤ t'.carry.b i := by
  intro i
  rw [h.b_eq]
  obtain ⟨hpos, hmin⟩ := hr
  simp only
  split
  · exact div_nonneg (hb p) hpos.le
  · have hr0 : 0 ≤ t.carry.b p / t.alpha M j p := div_nonneg (hb p) hpos.le
    rcases le_or_gt (t.alpha M j i) 0 with hi | hi
    · have := mul_nonneg (neg_nonneg.2 hi) hr0
      linarith [hb i]
    · have h1 : t.carry.b p / t.alpha M j p ≤ t.carry.b i / t.alpha M j i := by
        rcases hmin i hi with h1 | ⟨h1, _⟩
        · exact h1.le
        · exact h1.le
      have h2 := (le_div_iff₀ hi).1 h1
      linarith

/-! ### The current solution -/

/-- The dense vector of the current basic solution. -/
def bfs (t : Tableau BI m N) (j : Fin N) : ℚ :=
  ∑ i, if t.carry.basisIndices i = j then t.carry.b i else 0

theorem val_currentBfs (t : Tableau BI m N) (j : Fin N) : SVec.val t.currentBfs j = t.bfs j := by
  have hperm : ∀ {u v : SVec (Fin N)}, u.Perm v → SVec.val u j = SVec.val v j := by
    intro u v huv
    unfold SVec.val
    exact (huv.map _).sum_eq
  unfold currentBfs Carry.currentBfs
  rw [hperm (List.perm_insertionSort _ _)]
  have hfilter : ∀ l : SVec (Fin N), SVec.val (l.filter fun p => p.2 ≠ 0) j = SVec.val l j := by
    intro l
    induction l with
    | nil => rfl
    | cons p l ih =>
      rw [List.filter_cons]
      by_cases hp : p.2 = 0
      · simp only [hp, ne_eq, not_true_eq_false, decide_false, Bool.false_eq_true, if_false]
        rw [SVec.val_cons, hp]; simpa using ih
      · simp only [hp, ne_eq, not_false_eq_true, decide_true, if_true]
        rw [SVec.val_cons, SVec.val_cons, ← ih]
  rw [hfilter]
  unfold SVec.val bfs
  rw [List.map_map, ← List.ofFn_eq_map, List.sum_ofFn]
  rfl

theorem bfs_basis (h : t.Exact rhs M) (i : Fin m) : t.bfs (t.carry.basisIndices i) = t.carry.b i := by
  unfold bfs
  rw [Finset.sum_eq_single i]
  · simp
  · intro k _ hk
    rw [if_neg fun he => hk (h.injective he)]
  · simp

theorem sum_bfs (t : Tableau BI m N) (f : Fin N → ℚ) :
    ∑ j, f j * t.bfs j = ∑ i, f (t.carry.basisIndices i) * t.carry.b i := by
  unfold bfs
  simp only [Finset.mul_sum]
  rw [Finset.sum_comm]
  refine Finset.sum_congr rfl fun i _ => ?_
  rw [Finset.sum_eq_single (t.carry.basisIndices i)]
  · simp
  · intro j _ hj; simp [Ne.symm hj]
  · simp

theorem bfs_nonneg (t : Tableau BI m N) (hb : ∀ i, 0 ≤ t.carry.b i) (j : Fin N) : 0 ≤ t.bfs j := by
  unfold bfs
  refine Finset.sum_nonneg fun i _ => ?_
  split
  · exact hb i
  · exact le_rfl

/-- The linear program that a tableau describes. -/
def lp (t : Tableau BI m N) (rhs : Fin m → ℚ) : Spec.LP m N where
  A := columnsMatrix t.kind.column
  b := rhs
  c := t.kind.cost

theorem bfs_feasible (h : t.Exact rhs M) (hb : ∀ i, 0 ≤ t.carry.b i) :
    (t.lp rhs).Feasible t.bfs := by
  refine ⟨?_, bfs_nonneg t hb⟩
  ext i
  change ∑ j, SVec.val (t.kind.column j) i * t.bfs j = rhs i
  rw [sum_bfs t fun j => SVec.val (t.kind.column j) i]
  exact congrFun h.basis_mul_b i

theorem objective_bfs (h : t.Exact rhs M) :
    (t.lp rhs).objective t.bfs = t.objectiveFunctionValue := by
  change ∑ j, t.kind.cost j * t.bfs j = - t.carry.minusObjective
  rw [sum_bfs t t.kind.cost, h.obj_eq, neg_neg]
  rfl

/-- Weak duality: the objective of any point that satisfies the equations is the current objective
plus the relative costs. -/
theorem objective_eq (h : t.Exact rhs M) {y : Fin N → ℚ} (hy : (t.lp rhs).A *ᵥ y = rhs) :
    (t.lp rhs).objective y = t.objectiveFunctionValue + ∑ j, t.relativeCost j * y j := by
  have h1 : ∑ j, t.relativeCost j * y j
      = ∑ j, t.kind.cost j * y j - ∑ j, (t.basisCost ⬝ᵥ t.alpha M j) * y j := by
    rw [← Finset.sum_sub_distrib]
    exact Finset.sum_congr rfl fun j _ => by rw [h.relativeCost_eq]; ring
  have h2 : ∑ j, (t.basisCost ⬝ᵥ t.alpha M j) * y j = t.basisCost ⬝ᵥ t.carry.b := by
    rw [h.b_eq, ← hy, dotProduct_mulVec, dotProduct_mulVec, dotProduct]
    refine Finset.sum_congr rfl fun j _ => ?_
    congr 1
    rw [alpha, dotProduct_mulVec]
    rfl
  have h3 : t.objectiveFunctionValue = t.basisCost ⬝ᵥ t.carry.b := by
    unfold objectiveFunctionValue Carry.objectiveFunctionValue
    rw [h.obj_eq, neg_neg]
  rw [h1, h2, h3]
  change ∑ j, t.kind.cost j * y j = _
  ring

end Tableau

end Relp
