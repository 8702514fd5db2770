import Verif.Proof.Fuel
import Verif.Spec.Simplex

/-! # Iterations of the loops, in terms of the problem -/

set_option linter.unusedSectionVars false

namespace Relp

open Matrix BasisInverse LawfulBasisInverse Tableau LawfulRule

variable {BI : ℕ → Type} [BasisInverse BI] [LawfulBasisInverse BI] {m n N : ℕ}

section

variable {t : Tableau BI m N} {rhs : Fin m → ℚ} {M : Matrix (Fin m) (Fin m) ℚ}

theorem Tableau.Exact.coordinates (h : t.Exact rhs M) (j : Fin N) :
    (t.lp rhs).Coordinates t.carry.basisIndices j (t.alpha M j) := by
  have key : ∀ v : Fin m → ℚ, (∀ i, ∑ k, v k * (t.lp rhs).A i (t.carry.basisIndices k)
      = (t.lp rhs).A i j) ↔ t.basisMatrix *ᵥ v = SVec.val (t.kind.column j) := by
    intro v
    rw [funext_iff]
    refine forall_congr' fun i => ?_
    change ∑ k, v k * SVec.val (t.kind.column (t.carry.basisIndices k)) i
        = SVec.val (t.kind.column j) i ↔
      ∑ k, SVec.val (t.kind.column (t.carry.basisIndices k)) i * v k = _
    simp only [mul_comm]
  refine ⟨(key _).2 ?_, fun w hw => ?_⟩
  · rw [alpha, mulVec_mulVec, h.inv', one_mulVec]
  · rw [key] at hw
    rw [alpha, ← hw, mulVec_mulVec, h.inv, one_mulVec]

theorem Tableau.Exact.coordinates_unique (h : t.Exact rhs M) {j : Fin N} {v : Fin m → ℚ}
    (hv : (t.lp rhs).Coordinates t.carry.basisIndices j v) : v = t.alpha M j :=
  (h.coordinates j).2 v hv.1

theorem Tableau.Exact.relativeCost_iff (h : t.Exact rhs M) (j : Fin N) (d : ℚ) :
    (t.lp rhs).RelativeCost t.carry.basisIndices j d ↔ d = t.relativeCost j := by
  rw [h.relativeCost_eq]
  constructor
  · rintro ⟨v, hv, rfl⟩
    rw [h.coordinates_unique hv]
    rfl
  · rintro rfl
    exact ⟨_, h.coordinates j, rfl⟩

theorem Tableau.Exact.nonbasic_iff (h : t.Exact rhs M) (j : Fin N) :
    t.isInBasis j = false ↔ ∀ k, t.carry.basisIndices k ≠ j := by
  rw [← Bool.not_eq_true, h.mem_basis]
  push Not
  rfl

theorem Tableau.Exact.profitable_iff (h : t.Exact rhs M) (j : Fin N) (d : ℚ) :
    (t.lp rhs).Profitable t.carry.basisIndices (fun j => t.kind.start ≤ (j : ℕ)) j d ↔
      t.SelectSpec (some (j, d)) := by
  unfold Spec.LP.Profitable
  rw [h.relativeCost_iff, ← h.nonbasic_iff]
  rfl

theorem Tableau.Exact.correctChoice (h : t.Exact rhs M) {sel : Option (Fin N × ℚ)}
    (hs : t.SelectSpec sel) :
    (t.lp rhs).CorrectChoice t.carry.basisIndices (fun j => t.kind.start ≤ (j : ℕ)) sel := by
  cases sel with
  | none =>
    intro j d hj
    rw [h.profitable_iff] at hj
    obtain ⟨h1, h2, rfl, h4⟩ := hj
    exact absurd (hs j h1 h2) (not_le.2 h4)
  | some p => exact (h.profitable_iff p.1 p.2).2 hs

theorem Tableau.Exact.basicSolution (h : t.Exact rhs M) :
    (t.lp rhs).BasicSolution t.carry.basisIndices (SVec.val t.currentBfs) := by
  have hv : SVec.val t.currentBfs = t.bfs := funext fun j => val_currentBfs t j
  rw [hv]
  refine ⟨?_, fun j hj => ?_⟩
  · ext i
    change ∑ j, SVec.val (t.kind.column j) i * t.bfs j = rhs i
    rw [sum_bfs t fun j => SVec.val (t.kind.column j) i]
    exact congrFun h.basis_mul_b i
  · unfold bfs
    exact Finset.sum_eq_zero fun k _ => if_neg (hj k)

theorem Tableau.Exact.objective_val (h : t.Exact rhs M) :
    t.objectiveFunctionValue = (t.lp rhs).objective (SVec.val t.currentBfs) := by
  have hv : SVec.val t.currentBfs = t.bfs := funext fun j => val_currentBfs t j
  rw [hv, objective_bfs h]

end

theorem lp_phaseOne {P : Provider m n} {nrArtificial : ℕ} {columnToRow : Fin nrArtificial → Fin m}
    {t : Tableau BI m (nrArtificial + n)} (hk : t.kind = artificialKind P columnToRow) :
    t.lp P.rhs = P.phaseOneLP columnToRow := by
  unfold Tableau.lp Provider.phaseOneLP
  rw [hk]
  congr 1
  ext i j
  refine Fin.addCases (fun k => ?_) (fun k => ?_) j
  · change SVec.val (Fin.addCases (motive := fun _ => Sparse m)
      (fun j => SVec.standardBasis (columnToRow j)) (fun j => P.column j) (Fin.castAdd n k)) i = _
    rw [Fin.addCases_left, SVec.val_standardBasis]
    simp only [of_apply, Fin.addCases_left]
    exact if_congr eq_comm rfl rfl
  · change SVec.val (Fin.addCases (motive := fun _ => Sparse m)
      (fun j => SVec.standardBasis (columnToRow j)) (fun j => P.column j)
      (Fin.natAdd nrArtificial k)) i = _
    rw [Fin.addCases_right]
    simp only [of_apply, Fin.addCases_right]
    rfl

theorem lp_phaseTwo {Q : Provider m n} {t : Tableau BI m n} (hk : t.kind = nonArtificialKind Q) :
    t.lp Q.rhs = Q.toLP := by
  unfold Tableau.lp
  rw [hk]
  rfl

/-- The dimensions that a representation supports. -/
def InverseName.Supports : InverseName → ℕ → Prop
  | .rows, _ => True
  | .lu, m => 2 ≤ m

theorem InverseName.Supports.okDim {inv : InverseName} {m : ℕ} (h : inv.Supports m) :
    OkDim inv.type m := by
  cases inv with
  | rows => exact trivial
  | lu => exact h

theorem InverseName.okInvert (inv : InverseName) {m : ℕ} (h : m ≠ 0) : OkInvert inv.type m := by
  cases inv with
  | rows => exact h
  | lu => exact h

theorem PhaseTwoState.inv {inv : InverseName} {R : ℕ → Type} [PivotRule R] [LawfulRule R]
    {P : Provider m n} (hP : P.Ok) {start} (hstart : StartOk P start) {m' : ℕ}
    (hm : inv.Supports m) (hm' : inv.Supports m') {Q : Provider m' n}
    {s : R n × Tableau inv.type m' n} (h : PhaseTwoState P start Q s) :
    PhaseTwoProvider P Q ∧
    ∃ M : Matrix (Fin m') (Fin m') ℚ, s.2.kind = nonArtificialKind Q ∧ StateInv Q.rhs s M := by
  induction h with
  | full phaseOne new rule =>
    obtain ⟨t, ctr, M, rows, h1, h2, h3, h4, h5⟩ := phaseOne.inv hm.okDim hP hstart
    have hrows : rows = [] := by
      by_contra hc
      rw [if_neg hc] at h5; cases h5
    subst hrows
    obtain ⟨t', g1, g2⟩ := fromArtificial_spec hm.okDim hP h1 h4
    rw [h2, h3, new] at g1; cases g1
    obtain ⟨M', hex⟩ := g2.exact
    obtain ⟨r, hr, hinv⟩ := LawfulRule.new_ok (R := R) hm.okDim hex
    rw [rule] at hr; cases hr
    exact ⟨.same, M', g2.kind, hex, g2.nonneg, hinv⟩
  | deficient phaseOne new rule =>
    obtain ⟨t, ctr, M, rows, h1, h2, h3, h4, h5⟩ := phaseOne.inv hm.okDim hP hstart
    have hrows : rows ≠ [] := by
      intro hc
      rw [if_pos hc] at h5; cases h5
    rw [if_neg hrows] at h5
    cases h5
    obtain ⟨t', g1, g2⟩ := fromArtificialRemovingRows_spec hm.okDim hP h1 h4 hm'.okDim
    rw [h2, h3, new] at g1; cases g1
    obtain ⟨M', hex⟩ := g2.exact
    obtain ⟨r, hr, hinv⟩ := LawfulRule.new_ok (R := R) hm'.okDim hex
    rw [rule] at hr; cases hr
    exact ⟨.removed (h4.redundant_rows h1), M', g2.kind, hex, g2.nonneg, hinv⟩
  | @known pivots kind length carry new r rule =>
    subst kind
    by_cases hm0 : m = 0
    · exfalso
      rw [carry_fromBasis_zero inv hm0] at new
      cases new
    obtain ⟨basis, hlen, hbasis, hM, hcols, heq⟩ := solveFull_eq hstart
    subst hbasis
    obtain ⟨carry', h1, h2⟩ := fromBasis_spec (BI := inv.type) hm.okDim (inv.okInvert hm0) hP.wf hM
      hcols
    rw [new] at h1; cases h1
    have h3 := fullStart hP h2
    obtain ⟨r, hr, hinv⟩ := LawfulRule.new_ok (R := R) hm.okDim h2
    rw [rule] at hr; cases hr
    exact ⟨.same, 1, rfl, h2, h3.nonneg, hinv⟩
  | step before iteration ih =>
    obtain ⟨h0, M, h1, h2⟩ := ih hm'
    obtain ⟨M', j, p, h3, h4⟩ := iteration.inv hm'.okDim h2
    exact ⟨h0, M', h4.kind_eq.trans h1, h3⟩

theorem PhaseTwoProvider.feasible {P : Provider m n} (hP : P.Ok) {m' : ℕ} {Q : Provider m' n}
    (h : PhaseTwoProvider P Q) (x : Fin n → ℚ) : Q.toLP.Feasible x ↔ P.toLP.Feasible x := by
  cases h with
  | same => rfl
  | removed h => exact Provider.removeRows_feasible hP h x

theorem PhaseTwoProvider.cost {P : Provider m n} {m' : ℕ} {Q : Provider m' n}
    (h : PhaseTwoProvider P Q) : Q.cost = P.cost := by
  cases h with
  | same => rfl
  | removed h => rfl

end Relp
