import Verif.Spec.Numbers
import Verif.Props.Vertex
import Verif.Props.Pivoting

/-!
# C83: the numbers of a run stay small

If the numbers of a problem are integers of absolute value at most `bound`, then in every iteration of both phases, the
numbers that the solver works with have a common denominator. It and the numerators are limited by a number that depends
on the number of rows and on `bound` only, however many iterations there were before.
-/

namespace Relp

open Matrix Spec Tableau BasisInverse LawfulBasisInverse

variable {m n N : ℕ} {BI : ℕ → Type} [BasisInverse BI]

/-- The numbers that a tableau stores and computes are fractions with a common denominator: the right-hand side, the
dual values, the objective value, the rows of the basis inverse, the columns and the relative costs. -/
def NumbersLimited (t : Tableau BI m N) (bound limit : ℕ) : Prop :=
  ∃ q : ℤ, 0 < q ∧ q ≤ limit ∧
    (∀ i, Fraction q limit (t.carry.b i)) ∧
    (∀ i, Fraction q (m * bound * limit) (t.carry.minusPi i)) ∧
    Fraction q (m * bound * limit) t.carry.minusObjective ∧
    (∀ i row, basisInverseRow t.carry.basisInverse i = .ok row → ∀ k, Fraction q limit (SVec.val row k)) ∧
    (∀ j info, t.generateColumn j = .ok info → ∀ i, Fraction q limit (SVec.val (infoColumn info) i)) ∧
    ∀ j, Fraction q ((m + 1) * bound * limit) (t.relativeCost j)

theorem Spec.Fraction.neg {q : ℤ} {limit : ℕ} {v : ℚ} (h : Fraction q limit v) : Fraction q limit (-v) := by
  obtain ⟨p, rfl, hp⟩ := h
  exact ⟨-p, by push_cast; ring, by rwa [abs_neg]⟩

theorem fraction_abs {d p : ℤ} {limit : ℕ} {v : ℚ} (hd : d ≠ 0) (h : (d : ℚ) * v = p) (hp : |p| ≤ limit) :
    Fraction |d| limit v := by
  have hd' : (d : ℚ) ≠ 0 := by exact_mod_cast hd
  have hv : v = p / d := by rw [eq_div_iff hd', mul_comm]; exact h
  rcases abs_choice d with he | he
  · exact ⟨p, by rw [he]; exact hv, hp⟩
  · exact ⟨-p, by rw [he, hv]; push_cast; rw [neg_div_neg_eq], by rwa [abs_neg]⟩

theorem fraction_sum {q : ℤ} {bound limit : ℕ} {c v : Fin m → ℚ} (hc : ∀ k, SmallInteger bound (c k))
    (hv : ∀ k, Fraction q limit (v k)) : Fraction q (m * bound * limit) (∑ k, c k * v k) := by
  choose z hz hz' using hc
  choose p hp hp' using hv
  refine ⟨∑ k, z k * p k, ?_, ?_⟩
  · push_cast
    rw [Finset.sum_div]
    refine Finset.sum_congr rfl fun k _ => ?_
    rw [hz, hp, mul_div_assoc]
  · refine (Finset.abs_sum_le_sum_abs _ _).trans ?_
    have : ∀ k ∈ (Finset.univ : Finset (Fin m)), |z k * p k| ≤ (bound * limit : ℤ) := fun k _ => by
      rw [abs_mul]
      exact mul_le_mul (hz' k) (hp' k) (abs_nonneg _) (Int.natCast_nonneg _)
    refine (Finset.sum_le_card_nsmul _ _ _ this).trans (le_of_eq ?_)
    rw [Finset.card_univ, Fintype.card_fin, nsmul_eq_mul]
    push_cast
    ring

variable [LawfulBasisInverse BI]

theorem numbersLimited_of_exact {t : Tableau BI m N} {rhs : Fin m → ℚ} {M : Matrix (Fin m) (Fin m) ℚ}
    (hm : OkDim BI m) (h : t.Exact rhs M) (bound : ℕ)
    (hA : ∀ j i, SmallInteger bound (SVec.val (t.kind.column j) i)) (hb : ∀ i, SmallInteger bound (rhs i))
    (hc : ∀ j, SmallInteger bound (t.kind.cost j)) (hbound : 1 ≤ bound) :
    NumbersLimited t bound (m.factorial * bound ^ m) := by
  have hB : ∀ i k, SmallInteger bound (t.basisMatrix i k) := fun i k => hA _ _
  obtain ⟨d, hd, hd'⟩ := det_integer t.basisMatrix bound hB
  rw [Fintype.card_fin] at hd'
  have hd0 : d ≠ 0 := by
    rintro rfl
    have := congrArg Matrix.det h.inv
    rw [Matrix.det_mul, hd, Matrix.det_one, Int.cast_zero, mul_zero] at this
    exact zero_ne_one this
  have solve : ∀ a : Fin m → ℚ, (∀ i, SmallInteger bound (a i)) → ∀ i,
      Fraction |d| (m.factorial * bound ^ m) ((M *ᵥ a) i) := by
    intro a ha i
    obtain ⟨p, hp, hp'⟩ := det_integer (t.basisMatrix.updateCol i a) bound fun k l => by
      by_cases hl : l = i
      · subst hl
        rw [updateCol_self]
        exact ha k
      · rw [updateCol_ne hl]
        exact hB k l
    rw [Fintype.card_fin] at hp'
    refine fraction_abs hd0 (p := p) ?_ (by exact_mod_cast hp')
    have h1 : a = t.basisMatrix *ᵥ (M *ᵥ a) := by rw [mulVec_mulVec, h.inv', one_mulVec]
    rw [← hp, ← Matrix.cramer_apply, Matrix.cramer_eq_adjugate_mulVec]
    conv_rhs => rw [h1]
    rw [mulVec_mulVec, Matrix.adjugate_mul, smul_mulVec, one_mulVec, hd]
    rfl
  have hM : ∀ i k, Fraction |d| (m.factorial * bound ^ m) (M i k) := by
    intro i k
    have := solve (Pi.single k 1) (fun l => ?_) i
    · simpa using this
    · by_cases hl : l = k
      · subst hl
        exact ⟨1, by simp, by simpa using hbound⟩
      · exact ⟨0, by simp [hl], by simp⟩
  have hcol : ∀ j i, Fraction |d| (m.factorial * bound ^ m) (t.alpha M j i) := fun j i => solve _ (hA j) i
  refine ⟨|d|, abs_pos.2 hd0, by exact_mod_cast hd', ?_, ?_, ?_, ?_, ?_, ?_⟩
  · rw [h.b_eq]
    exact solve rhs hb
  · intro i
    rw [h.pi_eq]
    exact (fraction_sum (fun k => hc _) fun k => hM k i).neg
  · rw [h.obj_eq, h.b_eq]
    exact (fraction_sum (fun k => hc _) fun k => solve rhs hb k).neg
  · intro i row hrow k
    obtain ⟨r, h1, -, h2⟩ := row_ok hm h.rep i
    rw [hrow] at h1
    cases h1
    rw [h2]
    exact hM i k
  · intro j info hinfo i
    obtain ⟨info', h1, -, h2⟩ := h.generateColumn_ok hm j
    rw [hinfo] at h1
    cases h1
    rw [h2]
    exact hcol j i
  · intro j
    rw [h.relativeCost_eq]
    obtain ⟨z, hz, hz'⟩ := hc j
    obtain ⟨p, hp, hp'⟩ := fraction_sum (c := t.basisCost) (fun k => hc _) (hcol j)
    have hq : ((|d| : ℤ) : ℚ) ≠ 0 := by exact_mod_cast (abs_pos.2 hd0).ne'
    refine ⟨z * |d| - p, ?_, ?_⟩
    · change t.kind.cost j - ∑ k, t.basisCost k * t.alpha M j k = _
      rw [hz, hp, Int.cast_sub, sub_div, Int.cast_mul, mul_div_assoc, div_self hq, mul_one]
    · refine (abs_sub _ _).trans ?_
      rw [abs_mul, abs_abs]
      have h1 : |z| * |d| ≤ bound * (m.factorial * bound ^ m : ℕ) :=
        mul_le_mul hz' (by exact_mod_cast hd') (abs_nonneg _) (Int.natCast_nonneg _)
      refine (add_le_add h1 hp').trans (le_of_eq ?_)
      push_cast
      ring

theorem numbersLimited_artificial {m n nrArtificial : ℕ} {P : Provider m n} {columnToRow : Fin nrArtificial → Fin m}
    {t : Tableau BI m (nrArtificial + n)} {M : Matrix (Fin m) (Fin m) ℚ} (hm : OkDim BI m)
    (hk : t.kind = artificialKind P columnToRow) (hex : t.Exact P.rhs M) (bound : ℕ) (hbound : 1 ≤ bound)
    (hA : ∀ i j, SmallInteger bound (P.toLP.A i j)) (hb : ∀ i, SmallInteger bound (P.toLP.b i)) :
    NumbersLimited t bound (m.factorial * bound ^ m) := by
  have hone : SmallInteger bound 1 := ⟨1, by simp, by simpa using hbound⟩
  have hzero : SmallInteger bound 0 := ⟨0, by simp, by simp⟩
  refine numbersLimited_of_exact hm hex bound (fun j i => ?_) hb (fun j => ?_) hbound
  all_goals
    rw [hk]
    refine j.addCases (fun k => ?_) fun k => ?_
    all_goals simp only [artificialKind, Fin.addCases_left, Fin.addCases_right]
  · rw [SVec.val_standardBasis]
    split
    · exact hone
    · exact hzero
  · exact hA i k
  · exact hone
  · exact hzero

/-- **C83, phase one.** In every iteration of phase one, the numbers of the solver are fractions with a common
denominator, limited by `m! * bound ^ m`. -/
theorem C83_phase_one {m n : ℕ} (inv : InverseName) (rule : RuleName) (P : Provider m n) (hP : P.Ok)
    (start : InitialBasis m n) (hs : StartOk P start) (hm : inv.Supports m) {nrArtificial : ℕ}
    (r : rule.type (nrArtificial + n)) (t : Tableau inv.type m (nrArtificial + n))
    (h : PhaseOneState P start (r, t)) (bound : ℕ) (hbound : 1 ≤ bound)
    (hA : ∀ i j, SmallInteger bound (P.toLP.A i j)) (hb : ∀ i, SmallInteger bound (P.toLP.b i)) :
    NumbersLimited t bound (m.factorial * bound ^ m) := by
  obtain ⟨ctr, M, h1, -, h3⟩ := h.inv hm.okDim hP hs
  exact numbersLimited_artificial hm.okDim h1 h3.exact bound hbound hA hb

/-- **C83, removal of artificial variables.** The same throughout the removal of the artificial variables from the
basis, which ends phase one. -/
theorem C83_removal {m n : ℕ} (inv : InverseName) (rule : RuleName) (P : Provider m n) (hP : P.Ok)
    (start : InitialBasis m n) (hs : StartOk P start) (hm : inv.Supports m) {nrArtificial : ℕ}
    (t : Tableau inv.type m (nrArtificial + n)) (todo : List (Fin m × Fin (nrArtificial + n)))
    (h : RemovalState rule.type P start t todo) (bound : ℕ) (hbound : 1 ≤ bound)
    (hA : ∀ i j, SmallInteger bound (P.toLP.A i j)) (hb : ∀ i, SmallInteger bound (P.toLP.b i)) :
    NumbersLimited t bound (m.factorial * bound ^ m) := by
  obtain ⟨ctr, M, h1, -, hex, -⟩ := h.inv hm.okDim hP hs
  exact numbersLimited_artificial hm.okDim h1 hex bound hbound hA hb

/-- **C83, phase two.** The same in phase two, where `m'` is the number of rows that are left. -/
theorem C83_phase_two {m n : ℕ} (inv : InverseName) (rule : RuleName) (P : Provider m n) (hP : P.Ok)
    (start : InitialBasis m n) (hs : StartOk P start) {m' : ℕ} (hm : inv.Supports m) (hm' : inv.Supports m')
    (Q : Provider m' n) (r : rule.type n) (t : Tableau inv.type m' n) (h : PhaseTwoState P start Q (r, t))
    (bound : ℕ) (hbound : 1 ≤ bound) (hA : ∀ i j, SmallInteger bound (P.toLP.A i j))
    (hb : ∀ i, SmallInteger bound (P.toLP.b i)) (hc : ∀ j, SmallInteger bound (P.toLP.c j)) :
    m' ≤ m ∧ NumbersLimited t bound (m'.factorial * bound ^ m') := by
  obtain ⟨hQ, M, h1, h3⟩ := h.inv hP hs hm hm'
  have hex := h3.exact
  dsimp only at h1 hex
  cases hQ with
  | same =>
    refine ⟨le_rfl, numbersLimited_of_exact hm'.okDim hex bound (fun j i => ?_) hb (fun j => ?_) hbound⟩
    · rw [h1]
      exact hA i j
    · rw [h1]
      exact hc j
  | @removed rows hr =>
    refine ⟨?_, numbersLimited_of_exact hm'.okDim hex bound (fun j i => ?_) (fun i => hb _) (fun j => ?_) hbound⟩
    · exact (List.length_filter_le _ _).trans (le_of_eq (List.length_finRange))
    · rw [h1]
      change SmallInteger bound (SVec.val (P.filteredColumn rows j) i)
      rw [hP.filter rows hr, val_removeSparseIndices]
      exact hA _ j
    · rw [h1]
      exact hc j

theorem Example.optimum_integers : (∀ i j, SmallInteger 8 (Example.optimum.toLP.A i j)) ∧
    (∀ i, SmallInteger 8 (Example.optimum.toLP.b i)) ∧ ∀ j, SmallInteger 8 (Example.optimum.toLP.c j) := by
  have hA : ∀ i j, Example.optimum.toLP.A i j = (![![1, 2, 1, 0], ![1, 1, 0, 1]] i j : ℤ) := by
    intro i j
    revert j
    fin_cases i <;> decide +kernel
  have hA' : ∀ (i : Fin 2) (j : Fin 4), |(![![1, 2, 1, 0], ![1, 1, 0, 1]] i j : ℤ)| ≤ (8 : ℕ) := by decide +kernel
  have hb : ∀ i, Example.optimum.toLP.b i = ((Example.optimum.toLP.b i).num : ℤ) ∧
      |(Example.optimum.toLP.b i).num| ≤ (8 : ℕ) := by decide +kernel
  have hc : ∀ j, Example.optimum.toLP.c j = ((Example.optimum.toLP.c j).num : ℤ) ∧
      |(Example.optimum.toLP.c j).num| ≤ (8 : ℕ) := by decide +kernel
  exact ⟨fun i j => ⟨_, hA i j, hA' i j⟩, fun i => ⟨_, hb i⟩, fun j => ⟨_, hc j⟩⟩

example : ∃ (r : SteepestDescentAlongObjective (2 + 4)) (t : Tableau InverseName.lu.type 2 (2 + 4)),
    PhaseOneState Example.optimum .none (r, t) ∧ NumbersLimited t 8 128 := by
  obtain ⟨r, r', t, t', h1, -⟩ := Example.optimum_phase_one
  exact ⟨r, t, h1, C83_phase_one .lu .steepestDescentAlongObjective _ Example.optimum_ok .none trivial (le_refl 2) r t
    h1 8 (by norm_num) Example.optimum_integers.1 Example.optimum_integers.2.1⟩

example : ∃ (m' : ℕ) (t : Tableau InverseName.rows.type m' 4), NumbersLimited t 8 (m'.factorial * 8 ^ m') := by
  obtain ⟨m', Q, s, h1, -⟩ := Example.optimum_phase_two
  exact ⟨m', s.2, (C83_phase_two .rows .steepestDescentAlongVariable _ Example.optimum_ok (.fully [(1, 3), (0, 2)])
    Example.optimum_full trivial trivial Q s.1 s.2 h1 8 (by norm_num) Example.optimum_integers.1
    Example.optimum_integers.2.1 Example.optimum_integers.2.2).2⟩

/-- In the example with a redundant row, with integers of at most 2, artificial variables are removed from the basis. -/
example : ∃ (t : Tableau InverseName.rows.type 3 (3 + 3)) (todo : List (Fin 3 × Fin (3 + 3))),
    RemovalState RuleName.steepestDescentAlongObjective.type Example.redundant .none t todo ∧
    NumbersLimited t 2 48 := by
  have hA : ∀ i j, Example.redundant.toLP.A i j = (![![1, 1, 0], ![2, 2, 0], ![1, -1, 1]] i j : ℤ) := by
    intro i j
    revert j
    fin_cases i <;> decide +kernel
  have hA' : ∀ i j : Fin 3, |(![![1, 1, 0], ![2, 2, 0], ![1, -1, 1]] i j : ℤ)| ≤ (2 : ℕ) := by decide +kernel
  have hb : ∀ i, Example.redundant.toLP.b i = ((Example.redundant.toLP.b i).num : ℤ) ∧
      |(Example.redundant.toLP.b i).num| ≤ (2 : ℕ) := by decide +kernel
  obtain ⟨carry, basis, h⟩ := Example.redundant_rows
  cases h with
  | @mk r r' t _ state select exit =>
    have h0 : t.objectiveFunctionValue = 0 := by
      by_contra hc
      rw [phaseOneExit, if_neg hc] at exit
      cases exit
    have h1 := RemovalState.begin state select h0
    exact ⟨t, _, h1, C83_removal .rows .steepestDescentAlongObjective _ Example.redundant_ok .none trivial trivial t _ h1
      2 (by norm_num) (fun i j => ⟨_, hA i j, hA' i j⟩) fun i => ⟨_, hb i⟩⟩

end Relp
