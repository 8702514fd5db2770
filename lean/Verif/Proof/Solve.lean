import Verif.Proof.Initial
import Verif.Proof.Removal
import Mathlib.LinearAlgebra.LinearIndependent.Basic

/-! # Both phases together -/

set_option linter.unusedSectionVars false

namespace Relp

open Matrix BasisInverse LawfulBasisInverse Tableau

variable {BI : ℕ → Type} [BasisInverse BI] [LawfulBasisInverse BI] {m n N : ℕ}

/-! ### Deleting redundant rows does not change the program -/

theorem Provider.removeRows_feasible {P : Provider m n} (hP : P.Ok) {rows : List (Fin m)}
    (hr : P.toLP.Redundant rows) (y : Fin n → ℚ) :
    (P.removeRows rows).toLP.Feasible y ↔ P.toLP.Feasible y := by
  have hrow : ∀ k, ((P.removeRows rows).toLP.A *ᵥ y) k = (P.toLP.A *ᵥ y) ((kept rows).get k) := by
    intro k
    change ∑ j, SVec.val (P.filteredColumn rows j) k * y j = ∑ j, SVec.val (P.column j) _ * y j
    refine Finset.sum_congr rfl fun j _ => ?_
    rw [hP.filter rows hr, val_removeSparseIndices]
  have hrhs : ∀ k, (P.removeRows rows).toLP.b k = P.toLP.b ((kept rows).get k) := fun k => rfl
  unfold Spec.LP.Feasible
  refine and_congr_left' ⟨fun h => ?_, fun h => ?_⟩
  · ext i
    by_cases hi : i ∈ rows
    · obtain ⟨u, h1, h2, h3, h4⟩ := hr.2 i hi
      have h5 : u ⬝ᵥ (P.toLP.A *ᵥ y - P.toLP.b) = 0 := by
        rw [dotProduct_sub, dotProduct_mulVec, h1, zero_dotProduct, h2, sub_zero]
      rw [dotProduct, sum_kept rows, Finset.sum_eq_zero, zero_add, Finset.sum_eq_single i] at h5
      · rw [h3, one_mul] at h5
        exact sub_eq_zero.1 h5
      · intro k hk hki
        rw [h4 k (by simpa using hk) hki, zero_mul]
      · intro hni; simp [hi] at hni
      · intro k _
        have := congrFun h k
        rw [hrow, hrhs] at this
        rw [Pi.sub_apply, this, sub_self, mul_zero]
    · obtain ⟨k, rfl⟩ := exists_kept rows hi
      have := congrFun h k
      rwa [hrow, hrhs] at this
  · ext k
    rw [hrow, hrhs, h]

theorem Provider.removeRows_optimal {P : Provider m n} (hP : P.Ok) {rows : List (Fin m)}
    (hr : P.toLP.Redundant rows) (x : Fin n → ℚ) :
    (P.removeRows rows).toLP.Optimal x ↔ P.toLP.Optimal x := by
  unfold Spec.LP.Optimal
  simp only [removeRows_feasible hP hr]
  rfl

theorem Provider.removeRows_unbounded {P : Provider m n} (hP : P.Ok) {rows : List (Fin m)}
    (hr : P.toLP.Redundant rows) :
    (P.removeRows rows).toLP.Unbounded ↔ P.toLP.Unbounded := by
  unfold Spec.LP.Unbounded
  simp only [removeRows_feasible hP hr]
  rfl

theorem Provider.removeRows_basic {P : Provider m n} (hP : P.Ok) {rows : List (Fin m)}
    (hr : P.toLP.Redundant rows) {x : Fin n → ℚ} (h : (P.removeRows rows).toLP.Basic x) :
    P.toLP.Basic x := by
  unfold Spec.LP.Basic at h ⊢
  rw [Fintype.linearIndependent_iff] at h ⊢
  intro g hg
  refine h g ?_
  ext k
  have := congrFun hg ((kept rows).get k)
  rw [Finset.sum_apply] at this ⊢
  refine Eq.trans ?_ this
  refine Finset.sum_congr rfl fun j _ => ?_
  change g j * SVec.val (P.filteredColumn rows j) k = g j * SVec.val (P.column j) _
  rw [hP.filter rows hr, val_removeSparseIndices]

/-! ### From the first to the second phase -/

/-- A phase-two tableau for the provider. -/
structure PhaseTwoStart (P : Provider m n) (t : Tableau BI m n) : Prop where
  kind : t.kind = nonArtificialKind P
  exact : ∃ M, t.Exact P.rhs M
  nonneg : ∀ i, 0 ≤ t.carry.b i

theorem shiftColumn_ok {nrArtificial : ℕ} (j : Fin n) :
    Carry.shiftColumn nrArtificial (Fin.natAdd nrArtificial j) = .ok j := by
  unfold Carry.shiftColumn
  rw [dif_pos (by simp)]
  congr
  simp

theorem exists_natAdd {nrArtificial : ℕ} {j : Fin (nrArtificial + n)} (h : nrArtificial ≤ (j : ℕ)) :
    ∃ k, j = Fin.natAdd nrArtificial k := by
  refine ⟨⟨j - nrArtificial, by omega⟩, Fin.ext ?_⟩
  simp
  omega

theorem fromArtificial_spec (hm : OkDim BI m) {P : Provider m n} (hP : P.Ok) {nrArtificial : ℕ}
    {columnToRow : Fin nrArtificial → Fin m} {t : Tableau BI m (nrArtificial + n)} {M}
    (hk : t.kind = artificialKind P columnToRow) (h : PhaseOneEnd P.rhs t M []) :
    ∃ t', fromArtificial t.carry t.basisColumns P = .ok t' ∧ PhaseTwoStart P t' := by
  have hbasis : ∀ i, ∃ k, t.carry.basisIndices i = Fin.natAdd nrArtificial k := by
    intro i
    refine exists_natAdd ?_
    by_contra hc
    have := (h.rows_iff i).2 (by rw [hk]; simpa [artificialKind] using hc)
    simp at this
  choose basis hbasis using hbasis
  have hcol : ∀ i, t.kind.column (t.carry.basisIndices i) = P.column (basis i) := by
    intro i; rw [hk, hbasis]; simp [artificialKind]
  have htab : tabulateM (fun i => Carry.shiftColumn nrArtificial (t.carry.basisIndices i))
      = .ok basis := tabulateM_ok fun i => by rw [hbasis]; exact shiftColumn_ok _
  have hpi := Carry.createMinusPi_ok hm h.exact.rep P.cost basis
  have hshift : shiftColumns t.basisColumns = .ok (Finset.univ.image basis) := by
    unfold shiftColumns
    rw [if_pos]
    · congr 1
      ext j
      rw [h.exact.cols]
      simp only [Finset.mem_filter, Finset.mem_univ, true_and, Finset.mem_image]
      constructor
      · rintro ⟨i, hi⟩
        rw [hbasis] at hi
        exact ⟨i, by simpa using hi⟩
      · rintro ⟨i, rfl⟩
        exact ⟨i, hbasis i⟩
    · intro j hj
      rw [h.exact.cols, Finset.mem_image] at hj
      obtain ⟨i, -, rfl⟩ := hj
      rw [hbasis]
      simp
  refine ⟨{
      carry := {
        minusObjective := Carry.createMinusObj P.cost basis t.carry.b
        minusPi := -((fun i => P.cost (basis i)) ᵥ* M)
        b := t.carry.b
        basisIndices := basis
        basisInverse := t.carry.basisInverse }
      basisColumns := Finset.univ.image basis
      kind := nonArtificialKind P }, ?_, rfl, ⟨M, ?_⟩, h.nonneg⟩
  · unfold fromArtificial Carry.fromArtificial
    simp only [htab, hpi, hshift, bind, Except.bind, pure, Except.pure]
  · refine ⟨hP.wf, h.exact.rep, ?_, h.exact.b_eq, rfl, ?_, rfl⟩
    · rw [← h.exact.inv]
      congr 1
      ext i k
      change SVec.val (P.column (basis k)) i = SVec.val (t.kind.column (t.carry.basisIndices k)) i
      rw [hcol]
    · exact Carry.createMinusObj_eq _ _ _

/-- The rows that phase one wants to delete are redundant. -/
theorem PhaseOneEnd.redundant_rows {P : Provider m n} {nrArtificial : ℕ}
    {columnToRow : Fin nrArtificial → Fin m} {t : Tableau BI m (nrArtificial + n)} {M}
    {rows : List (Fin m)} (hk : t.kind = artificialKind P columnToRow)
    (h : PhaseOneEnd P.rhs t M rows) : P.toLP.Redundant rows := by
  have hMk : ∀ i, ∀ k ∈ rows, M i k = if i = k then 1 else 0 := by
    intro i k hk'
    have h1 := h.exact.alpha_basis k
    rw [alpha, h.art.unit k ((h.rows_iff k).1 hk')] at h1
    have h2 := congrFun h1 i
    rw [mulVec_single_one, Matrix.col_apply, Pi.single_apply] at h2
    exact h2
  refine ⟨h.sorted, fun i hi => ⟨M i, ?_, ?_, ?_, ?_⟩⟩
  · ext j
    have := h.redundant i hi (Fin.natAdd nrArtificial j) (by rw [hk]; simp [artificialKind])
    rw [alpha, hk] at this
    simp only [artificialKind, Fin.addCases_right] at this
    exact this
  · have := h.zero i hi
    rw [h.exact.b_eq] at this
    exact this
  · rw [hMk i i hi, if_pos rfl]
  · intro k hk' hki
    rw [hMk i k hk', if_neg (Ne.symm hki)]

theorem mem_fold_erase {α : Type} [DecidableEq α] {β : Type} (f : β → α) (l : List β) (s : Finset α)
    (a : α) : a ∈ l.foldl (fun s b => s.erase (f b)) s ↔ a ∈ s ∧ ∀ b ∈ l, f b ≠ a := by
  induction l generalizing s with
  | nil => simp
  | cons b l ih =>
    rw [List.foldl_cons, ih]
    simp only [Finset.mem_erase, List.mem_cons, forall_eq_or_imp]
    constructor
    · rintro ⟨⟨h1, h2⟩, h3⟩; exact ⟨h2, Ne.symm h1, h3⟩
    · rintro ⟨h1, h2, h3⟩; exact ⟨⟨Ne.symm h2, h1⟩, h3⟩

theorem fromArtificialRemovingRows_spec (hm : OkDim BI m) {P : Provider m n} (hP : P.Ok)
    {nrArtificial : ℕ} {columnToRow : Fin nrArtificial → Fin m}
    {t : Tableau BI m (nrArtificial + n)} {M} {rows : List (Fin m)}
    (hk : t.kind = artificialKind P columnToRow) (h : PhaseOneEnd P.rhs t M rows)
    (hm' : OkDim BI (keptLen rows)) :
    ∃ t', fromArtificialRemovingRows t.carry t.basisColumns P rows = .ok t' ∧
      PhaseTwoStart (P.removeRows rows) t' := by
  have hred := h.redundant_rows hk
  have hbasis : ∀ i, ∃ k, removeIndices rows t.carry.basisIndices i = Fin.natAdd nrArtificial k := by
    intro i
    refine exists_natAdd ?_
    by_contra hc
    have := (h.rows_iff ((kept rows).get i)).2 (by
      rw [hk]; simpa [artificialKind, removeIndices] using hc)
    exact kept_get_notMem rows i this
  choose basis hbasis using hbasis
  have hcol : ∀ i, t.kind.column (t.carry.basisIndices ((kept rows).get i)) = P.column (basis i) := by
    intro i
    have h1 : t.carry.basisIndices ((kept rows).get i) = Fin.natAdd nrArtificial (basis i) := hbasis i
    rw [hk, h1]; simp [artificialKind]
  have htab : tabulateM (fun i => Carry.shiftColumn nrArtificial
      (removeIndices rows t.carry.basisIndices i)) = .ok basis :=
    tabulateM_ok fun i => by rw [hbasis]; exact shiftColumn_ok _
  -- columns of removed rows in the inverse
  have hMk : ∀ i, ∀ k ∈ rows, M i k = if i = k then 1 else 0 := by
    intro i k hk'
    have h1 := h.exact.alpha_basis k
    rw [alpha, h.art.unit k ((h.rows_iff k).1 hk')] at h1
    have h2 := congrFun h1 i
    rw [mulVec_single_one, Matrix.col_apply, Pi.single_apply] at h2
    exact h2
  have hM0 : ∀ i (f : Fin m → ℚ), ∑ l ∈ Finset.univ.filter (· ∈ rows),
      M ((kept rows).get i) l * f l = 0 := by
    intro i f
    refine Finset.sum_eq_zero fun l hl => ?_
    have hl' : l ∈ rows := by simpa using hl
    rw [hMk _ l hl', if_neg, zero_mul]
    rintro rfl
    exact kept_get_notMem rows i hl'
  have hinv : M.submatrix (kept rows).get (kept rows).get *
      columnsMatrix (fun i => (P.removeRows rows).column (basis i)) = 1 := by
    ext i k
    have h1 := congrFun (congrFun h.exact.inv ((kept rows).get i)) ((kept rows).get k)
    rw [Matrix.mul_apply, sum_kept rows, hM0, add_zero] at h1
    rw [Matrix.mul_apply, Matrix.one_apply]
    rw [Matrix.one_apply] at h1
    have h2 : ((kept rows).get i = (kept rows).get k) = (i = k) := by
      rw [eq_iff_iff]; exact (kept_injective rows).eq_iff
    rw [if_congr (by rw [h2]) rfl rfl] at h1
    rw [← h1]
    refine Finset.sum_congr rfl fun l _ => ?_
    rw [submatrix_apply]
    congr 1
    change SVec.val (P.filteredColumn rows (basis k)) l
      = SVec.val (t.kind.column (t.carry.basisIndices ((kept rows).get k))) _
    rw [hcol, hP.filter rows hred, val_removeSparseIndices]
  have hwf : ∀ j, SVec.WF ((P.removeRows rows).column j) := by
    intro j
    change SVec.WF (P.filteredColumn rows j)
    rw [hP.filter rows hred]
    exact wf_removeSparseIndices rows (hP.wf j)
  obtain ⟨bi', hbi', hrep'⟩ := remove_ok hm h.exact.rep rows h.sorted hm' (fun i => hwf (basis i)) hinv
  have hpi := Carry.createMinusPi_ok hm' hrep' P.cost basis
  have hshift : shiftColumns (rows.foldl (fun basis row => basis.erase (t.carry.basisIndices row))
      t.basisColumns) = .ok (Finset.univ.image basis) := by
    have hmem : ∀ j, j ∈ (rows.foldl (fun basis row => basis.erase (t.carry.basisIndices row))
        t.basisColumns) ↔ ∃ i, t.carry.basisIndices ((kept rows).get i) = j := by
      intro j
      rw [mem_fold_erase, h.exact.cols, Finset.mem_image]
      constructor
      · rintro ⟨⟨i, -, rfl⟩, h2⟩
        have hi : i ∉ rows := fun hi => h2 i hi rfl
        obtain ⟨k, rfl⟩ := exists_kept rows hi
        exact ⟨k, rfl⟩
      · rintro ⟨i, rfl⟩
        refine ⟨⟨_, Finset.mem_univ _, rfl⟩, fun b hb he => ?_⟩
        have := h.exact.injective he
        exact kept_get_notMem rows i (this ▸ hb)
    unfold shiftColumns
    rw [if_pos]
    · congr 1
      ext j
      simp only [Finset.mem_filter, Finset.mem_univ, true_and, Finset.mem_image, hmem]
      constructor
      · rintro ⟨i, hi⟩
        have h1 : t.carry.basisIndices ((kept rows).get i) = Fin.natAdd nrArtificial (basis i) :=
          hbasis i
        rw [h1] at hi
        exact ⟨i, by simpa using hi⟩
      · rintro ⟨i, rfl⟩
        exact ⟨i, hbasis i⟩
    · intro j hj
      obtain ⟨i, rfl⟩ := (hmem j).1 hj
      have h1 : t.carry.basisIndices ((kept rows).get i) = Fin.natAdd nrArtificial (basis i) :=
        hbasis i
      rw [h1]
      simp
  refine ⟨{
      carry := {
        minusObjective := Carry.createMinusObj P.cost basis (removeIndices rows t.carry.b)
        minusPi := -((fun i => P.cost (basis i)) ᵥ* M.submatrix (kept rows).get (kept rows).get)
        b := removeIndices rows t.carry.b
        basisIndices := basis
        basisInverse := bi' }
      basisColumns := Finset.univ.image basis
      kind := nonArtificialKind (P.removeRows rows) }, ?_, rfl,
    ⟨M.submatrix (kept rows).get (kept rows).get, ?_⟩, fun i => h.nonneg _⟩
  · unfold fromArtificialRemovingRows Carry.fromArtificialRemoveRows
    simp only [htab, hbi', hpi, hshift, bind, Except.bind, pure, Except.pure]
  · refine ⟨hwf, hrep', hinv, ?_, rfl, ?_, rfl⟩
    · ext i
      change t.carry.b ((kept rows).get i) = _
      rw [h.exact.b_eq, mulVec, dotProduct, sum_kept rows, hM0, add_zero]
      rfl
    · exact Carry.createMinusObj_eq _ _ _

/-! ### The answers -/

/-- What the answer of the solver means for the linear program `L`. -/
def Answer (L : Spec.LP m n) : OptimizationResult n → Prop
  | .infeasible => L.Infeasible
  | .unbounded => L.Unbounded
  | .finiteOptimum x => L.Optimal (SVec.val x) ∧ SVec.WF x ∧ L.Basic (SVec.val x)

theorem currentBfs_wf {t : Tableau BI m N} {rhs M} (h : t.Exact rhs M) : SVec.WF t.currentBfs := by
  have hperm := List.perm_insertionSort (fun p q : Fin N × ℚ => p.1 ≤ q.1)
    (((List.finRange m).map fun i => (t.carry.basisIndices i, t.carry.b i)).filter fun p => p.2 ≠ 0)
  constructor
  · have h1 := List.pairwise_insertionSort (fun p q : Fin N × ℚ => p.1 ≤ q.1)
      (((List.finRange m).map fun i => (t.carry.basisIndices i, t.carry.b i)).filter
        fun p => p.2 ≠ 0)
    have h2 : (((List.finRange m).map fun i => (t.carry.basisIndices i, t.carry.b i)).filter
        fun p => p.2 ≠ 0).Pairwise fun p q => p.1 ≠ q.1 := by
      refine List.Pairwise.sublist List.filter_sublist ?_
      rw [List.pairwise_map]
      exact (List.nodup_finRange m).imp fun h' he => h' (h.injective he)
    have h3 := (hperm.pairwise_iff (fun {p q} (h : p.1 ≠ q.1) => Ne.symm h)).2 h2
    exact (h1.and h3).imp fun h => lt_of_le_of_ne h.1 h.2
  · intro p hp
    have := hperm.mem_iff.1 hp
    rw [List.mem_filter] at this
    simpa using this.2

theorem bfs_basic {t : Tableau BI m N} {rhs M} (h : t.Exact rhs M) : (t.lp rhs).Basic t.bfs := by
  unfold Spec.LP.Basic
  have hmem : ∀ j : {j // t.bfs j ≠ 0}, ∃ k, t.carry.basisIndices k = j := by
    rintro ⟨j, hj⟩
    by_contra hc
    push Not at hc
    apply hj
    unfold bfs
    exact Finset.sum_eq_zero fun i _ => by rw [if_neg (hc i)]
  choose k hk using hmem
  have hinj : Function.Injective k := by
    intro a b hab
    apply Subtype.ext
    rw [← hk a, ← hk b, hab]
  have hli : LinearIndependent ℚ t.basisMatrix.col := by
    rw [Matrix.linearIndependent_cols_iff_isUnit]
    exact IsUnit.of_mul_eq_one M h.inv'
  have := hli.comp k hinj
  convert this using 1
  ext j i
  simp only [Function.comp_apply, Matrix.col_apply]
  change SVec.val (t.kind.column j) i = SVec.val (t.kind.column (t.carry.basisIndices (k j))) i
  rw [hk]

/-- Phase two answers correctly if its loop ends. -/
theorem phaseTwo_spec {R : ℕ → Type} [PivotRule R] [LawfulRule R] (hm : OkDim BI m) (fuel : ℕ)
    {P : Provider m n} {t : Tableau BI m n} (h : PhaseTwoStart P t) :
    phaseTwo R fuel t = .error .outOfFuel ∨
      ∃ a, phaseTwo R fuel t = .ok a ∧ a ≠ .infeasible ∧ Answer P.toLP a := by
  obtain ⟨M, hex⟩ := h.exact
  obtain ⟨r, hr, hinv⟩ := LawfulRule.new_ok (R := R) hm hex
  unfold phaseTwo
  simp only [hr, bind, Except.bind]
  have hlp : ∀ u : Tableau BI m n, u.kind = t.kind → u.lp P.rhs = P.toLP := by
    intro u hu
    unfold Tableau.lp
    rw [hu, h.kind]
    rfl
  rcases phaseTwoLoop_spec hm fuel hex h.nonneg hinv with h1 | ⟨u, Mu, g1, g2, g3, g4⟩
  · exact Or.inl h1
  · right
    have hkind : u.kind = t.kind := g1.kind_eq
    have hstart : u.kind.start = 0 := by rw [hkind, h.kind]; rfl
    have hval : SVec.val u.currentBfs = u.bfs := funext fun j => val_currentBfs u j
    rcases g4 with ⟨g4, g5⟩ | ⟨g4, j, g5, g6⟩
    · refine ⟨_, g4, by simp, ?_⟩
      rw [← hlp u hkind]
      refine ⟨?_, currentBfs_wf g2, ?_⟩
      · rw [hval]; exact g2.optimal g3 g5 hstart
      · rw [hval]; exact bfs_basic g2
    · refine ⟨_, g4, by simp, ?_⟩
      rw [← hlp u hkind]
      exact g2.unbounded g3 g5.2.2.2 g6

/-- Extension of a solution with artificial variables at zero. -/
theorem artificial_feasible {P : Provider m n} {nrArtificial : ℕ}
    {columnToRow : Fin nrArtificial → Fin m} {t : Tableau BI m (nrArtificial + n)}
    (hk : t.kind = artificialKind P columnToRow) {y : Fin n → ℚ} (hy : P.toLP.Feasible y) :
    (t.lp P.rhs).Feasible (Fin.addCases (fun _ => 0) y) := by
  refine ⟨?_, fun j => ?_⟩
  · rw [show (t.lp P.rhs).b = P.toLP.b from rfl, ← hy.1]
    ext i
    change ∑ j, SVec.val (t.kind.column j) i * _ = ∑ j, SVec.val (P.column j) i * y j
    rw [Fin.sum_univ_add, hk]
    simp [artificialKind]
  · refine Fin.addCases (fun k => ?_) (fun k => ?_) j
    · simp
    · simpa using hy.2 k

/-- Both phases, from an initial tableau. -/
theorem solve_spec {R : ℕ → Type} [PivotRule R] [LawfulRule R] (hm : OkDim BI m) (fuel : ℕ)
    {P : Provider m n} (hP : P.Ok)
    (hdim : ∀ rows, P.toLP.Redundant rows → OkDim BI (keptLen rows))
    {nrArtificial : ℕ} {columnToRow : Fin nrArtificial → Fin m}
    {t : Tableau BI m (nrArtificial + n)} (hex : t.Exact P.rhs 1) (hart : ArtInv t)
    (hb : t.carry.b = P.rhs) (hk : t.kind = artificialKind P columnToRow) :
    (do let f ← phaseOne R fuel t; solveAfterPhaseOne R fuel P f) = .error .outOfFuel ∨
      ∃ a, (do let f ← phaseOne R fuel t; solveAfterPhaseOne R fuel P f) = .ok a ∧
        Answer P.toLP a := by
  have hnn : ∀ i, 0 ≤ t.carry.b i := by rw [hb]; exact hP.rhs_nonneg
  obtain ⟨r, hr, hinv⟩ := LawfulRule.new_ok (R := R) hm hex
  unfold phaseOne
  simp only [hr, bind, Except.bind]
  rcases phaseOneLoop_spec hm fuel hex hnn hinv with h1 | ⟨u, Mu, g1, g2, g3, g4⟩
  · left; rw [h1]
  · have hkind : u.kind = t.kind := g1.kind_eq
    have hartu : ArtInv u := hart.reach g1
    rcases g4 with ⟨g4, g5⟩ | ⟨j, g5, g6⟩
    · rw [g4]
      rcases phaseOneExit_spec hm g2 g3 hartu with ⟨e1, e2⟩ | ⟨v, Mv, rows, e1, e2, e3⟩
      · rw [e1]
        right
        refine ⟨_, rfl, fun y hy => e2 ?_⟩
        refine hartu.objective_zero g2 g3 g5 (artificial_feasible (hkind.trans hk) hy) ?_
        intro j hj
        rw [hkind, hk] at hj
        revert hj
        refine Fin.addCases (fun k _ => ?_) (fun k hk => ?_) j
        · simp
        · simp [artificialKind] at hk
      · have hkv : v.kind = artificialKind P columnToRow := e1.trans (hkind.trans hk)
        rcases e3 with ⟨e3, rfl⟩ | ⟨e3, e4⟩
        · rw [e3]
          obtain ⟨t', f1, f2⟩ := fromArtificial_spec hm hP hkv e2
          simp only [solveAfterPhaseOne, f1, bind, Except.bind]
          rcases phaseTwo_spec (R := R) hm fuel f2 with f3 | ⟨a, f3, -, f4⟩
          · exact Or.inl f3
          · exact Or.inr ⟨a, f3, f4⟩
        · rw [e3]
          have hred := e2.redundant_rows hkv
          obtain ⟨t', f1, f2⟩ := fromArtificialRemovingRows_spec hm hP hkv e2 (hdim rows hred)
          cases rows with
          | nil => exact absurd rfl e4
          | cons row rows =>
            simp only [solveAfterPhaseOne, f1, bind, Except.bind]
            rcases phaseTwo_spec (R := R) (hdim _ hred) fuel f2 with f3 | ⟨a, f3, f4, f5⟩
            · exact Or.inl f3
            · refine Or.inr ⟨a, f3, ?_⟩
              cases a with
              | infeasible => exact absurd rfl f4
              | unbounded => exact (Provider.removeRows_unbounded hP hred).1 f5
              | finiteOptimum x =>
                exact ⟨(Provider.removeRows_optimal hP hred _).1 f5.1, f5.2.1,
                  Provider.removeRows_basic hP hred f5.2.2⟩
    · exact (hartu.not_unbounded g2 g5.1 g5.2.2.2 g6).elim

/-- `solve_relaxation` without known initial basis. -/
theorem solveFully_spec {R : ℕ → Type} [PivotRule R] [LawfulRule R] (hm : OkDim BI m) (fuel : ℕ)
    {P : Provider m n} (hP : P.Ok)
    (hdim : ∀ rows, P.toLP.Redundant rows → OkDim BI (keptLen rows)) :
    solveFully BI R fuel P = .error .outOfFuel ∨
      ∃ a, solveFully BI R fuel P = .ok a ∧ Answer P.toLP a := by
  obtain ⟨t, h1, h2, h3, h4, h5⟩ := newFully_spec (BI := BI) hm hP.wf
  unfold solveFully
  simp only [h1, bind, Except.bind]
  exact solve_spec hm fuel hP hdim h2 h3 h4 h5

/-- `solve_relaxation` with a known partial basis. -/
theorem solvePartially_spec {R : ℕ → Type} [PivotRule R] [LawfulRule R] (hm : OkDim BI m)
    (fuel : ℕ) {P : Provider m n} (hP : P.Ok) {pivots : List (Fin m × Fin n)}
    (hpiv : PivotsOk P pivots)
    (hdim : ∀ rows, P.toLP.Redundant rows → OkDim BI (keptLen rows)) :
    solvePartially BI R fuel P pivots = .error .outOfFuel ∨
      ∃ a, solvePartially BI R fuel P pivots = .ok a ∧ Answer P.toLP a := by
  obtain ⟨t, ctr, h1, h2, h3, h4, h5⟩ := newPartially_spec (BI := BI) hm hP.wf hpiv
  unfold solvePartially
  simp only [h1, bind, Except.bind]
  exact solve_spec hm fuel hP hdim h2 h3 h4 h5

end Relp
