import Verif.Props.Solve
import Mathlib.LinearAlgebra.Matrix.Rank

/-!
# C09 and C13: phase one finds the rank

The rows that phase one does not declare redundant are linearly independent. So no redundant row is missed, and the
number of rows that are removed is what is missing from full rank.
-/

namespace Relp

open Matrix Spec

variable {m n : ℕ}

theorem PhaseOneEnd.independent {BI : ℕ → Type} [BasisInverse BI] [LawfulBasisInverse BI] {P : Provider m n}
    {nrArtificial : ℕ} {columnToRow : Fin nrArtificial → Fin m} {t : Tableau BI m (nrArtificial + n)} {M}
    {rows : List (Fin m)} (hk : t.kind = Tableau.artificialKind P columnToRow)
    (h : PhaseOneEnd P.rhs t M rows) (u : Fin m → ℚ) (hu : u ᵥ* P.toLP.A = 0) (hrows : ∀ i ∈ rows, u i = 0) :
    u = 0 := by
  have hB : u ᵥ* t.basisMatrix = 0 := by
    ext i
    change u ⬝ᵥ SVec.val (t.kind.column (t.carry.basisIndices i)) = 0
    by_cases hi : i ∈ rows
    · rw [h.art.unit i ((h.rows_iff i).1 hi)]
      simpa using hrows i hi
    · obtain ⟨j, hj⟩ : ∃ j, t.carry.basisIndices i = Fin.natAdd nrArtificial j := by
        refine exists_natAdd ?_
        by_contra hc
        exact hi ((h.rows_iff i).2 (by rw [hk]; simpa [Tableau.artificialKind] using hc))
      rw [hj, hk]
      simp only [Tableau.artificialKind, Fin.addCases_right]
      exact congrFun hu j
  have := congrArg (fun w => w ᵥ* M) hB
  simpa [vecMul_vecMul, h.exact.inv'] using this

/-- A vector restricted to the rows of a list. -/
def restrictRows (A : Matrix (Fin m) (Fin n) ℚ) (rows : List (Fin m)) :
    LinearMap.ker A.vecMulLinear →ₗ[ℚ] ({i // i ∈ rows} → ℚ) where
  toFun u i := u.val i.val
  map_add' _ _ := rfl
  map_smul' _ _ := rfl

theorem restrictRows_surjective {P : LP m n} {rows : List (Fin m)} (hr : P.Redundant rows) :
    Function.Surjective (restrictRows P.A rows) := by
  classical
  intro w
  choose! v hv using hr.2
  refine ⟨⟨∑ i : {i // i ∈ rows}, w i • v i.val, ?_⟩, ?_⟩
  · rw [LinearMap.mem_ker, map_sum]
    refine Finset.sum_eq_zero fun i _ => ?_
    rw [map_smul]
    have := (hv i.val i.property).1
    change w i • (v i.val ᵥ* P.A) = 0
    rw [this, smul_zero]
  · ext k
    change (∑ i : {i // i ∈ rows}, w i • v i.val) k.val = w k
    rw [Finset.sum_apply, Finset.sum_eq_single k]
    · change w k * v k.val k.val = w k
      rw [(hv k.val k.property).2.2.1, mul_one]
    · intro i _ hik
      change w i * v i.val k.val = 0
      rw [(hv i.val i.property).2.2.2 k.val k.property fun he => hik (Subtype.ext he.symm), mul_zero]
    · intro hk
      exact absurd (Finset.mem_univ k) hk

theorem finrank_rows {P : LP m n} {rows : List (Fin m)} (hr : P.Redundant rows) :
    Module.finrank ℚ ({i // i ∈ rows} → ℚ) = rows.length := by
  classical
  have hnodup : rows.Nodup := hr.1.imp ne_of_lt
  rw [Module.finrank_fintype_fun_eq_card, Fintype.card_of_subtype rows.toFinset (fun i => List.mem_toFinset),
    List.toFinset_card_of_nodup hnodup]

theorem rank_add_ker (A : Matrix (Fin m) (Fin n) ℚ) :
    A.rank + Module.finrank ℚ (LinearMap.ker A.vecMulLinear) = m := by
  have hnull := LinearMap.finrank_range_add_finrank_ker A.vecMulLinear
  rw [Module.finrank_fintype_fun_eq_card, Fintype.card_fin] at hnull
  have hrank : A.rank = Module.finrank ℚ (LinearMap.range A.vecMulLinear) := by
    rw [← Matrix.rank_transpose, Matrix.rank, Matrix.mulVecLin_transpose]
  omega

/-- If rows are redundant, the rank is at most the number of the others. -/
theorem rank_le_of_redundant {P : LP m n} {rows : List (Fin m)} (hr : P.Redundant rows) :
    P.A.rank + rows.length ≤ m := by
  have h1 := LinearMap.finrank_le_finrank_of_surjective (restrictRows_surjective hr)
  have h2 := rank_add_ker P.A
  rw [finrank_rows hr] at h1
  omega

/-- If rows are redundant and the others are independent, the rank is the number of the others. -/
theorem rank_of_redundant {P : LP m n} {rows : List (Fin m)} (hr : P.Redundant rows)
    (hi : ∀ u : Fin m → ℚ, u ᵥ* P.A = 0 → (∀ i ∈ rows, u i = 0) → u = 0) : P.A.rank + rows.length = m := by
  have hinj : Function.Injective (restrictRows P.A rows) := by
    rw [← LinearMap.ker_eq_bot, LinearMap.ker_eq_bot']
    intro u hu
    refine Subtype.ext (hi u.val u.property fun i hi => ?_)
    exact congrFun hu ⟨i, hi⟩
  have h1 := (LinearEquiv.ofBijective _ ⟨hinj, restrictRows_surjective hr⟩).finrank_eq
  have h2 := rank_add_ker P.A
  rw [finrank_rows hr] at h1
  omega

/-- The rows that are declared redundant. -/
def Rank.removed : Rank m → List (Fin m)
  | .full => []
  | .deficient rows => rows

/-- **C09** (completeness). Of the rows that phase one does not declare redundant, none is a combination of the
others, and the rank of the coefficients is the number of these rows. In particular, full rank is reported if and only
if the rows are independent. -/
theorem C09_rank (inv : InverseName) (rule : RuleName) (P : Provider m n)
    (hP : P.Ok) (start : InitialBasis m n) (hs : StartOk P start) (hm : inv = .lu → 2 ≤ m)
    {nrArtificial : ℕ} (rank : Rank m) (carry : Carry inv.type m (nrArtificial + n))
    (basis : Finset (Fin (nrArtificial + n)))
    (h : PhaseOneResult rule.type P start (.feasible rank carry basis)) :
    (∀ u : Fin m → ℚ, u ᵥ* P.toLP.A = 0 → (∀ i ∈ rank.removed, u i = 0) → u = 0) ∧
    P.toLP.A.rank + rank.removed.length = m := by
  have hdim : LawfulBasisInverse.OkDim inv.type m := by
    cases inv with
    | rows => exact trivial
    | lu => exact hm rfl
  obtain ⟨t, ctr, M, rows, h1, -, -, h4, h5⟩ := h.inv hdim hP hs
  have hr : rank.removed = rows := by
    rw [h5]
    by_cases hc : rows = []
    · rw [if_pos hc, hc]; rfl
    · rw [if_neg hc]; rfl
  rw [hr]
  have hi := fun u h0 hz => h4.independent h1 u h0 hz
  exact ⟨hi, rank_of_redundant (h4.redundant_rows h1) hi⟩

/-- In the example, one of three rows is removed. -/
example : Example.redundant.toLP.A.rank = 2 := by
  obtain ⟨carry, basis, h⟩ := Example.redundant_rows
  have := (C09_rank .rows _ _ Example.redundant_ok .none trivial (by simp) (.deficient [1]) carry basis h).2
  simpa [Rank.removed] using this

/-- **C13** in terms of the rank: if the coefficients have rank two or more, both basis inverses give the same result. -/
theorem C13_rank (rule : RuleName) (fuel : ℕ) (P : Provider m n) (hP : P.Ok) (start : InitialBasis m n)
    (hs : StartOk P start) (hrank : 2 ≤ P.toLP.A.rank) :
    solveRelaxation .lu rule fuel P start = solveRelaxation .rows rule fuel P start := by
  have hle : P.toLP.A.rank ≤ m := by simpa using P.toLP.A.rank_le_height
  refine C13_representation_irrelevant rule fuel P hP start hs (hrank.trans hle) fun rows hr => ?_
  have := rank_le_of_redundant hr
  omega

example (rule : RuleName) (fuel : ℕ) : solveRelaxation .lu rule fuel Example.redundant .none =
    solveRelaxation .rows rule fuel Example.redundant .none := by
  refine C13_rank rule fuel _ Example.redundant_ok .none trivial ?_
  obtain ⟨carry, basis, h⟩ := Example.redundant_rows
  have := (C09_rank .rows _ _ Example.redundant_ok .none trivial (by simp) (.deficient [1]) carry basis h).2
  simp only [Rank.removed, List.length_singleton] at this
  omega

end Relp
