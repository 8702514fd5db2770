import Verif.Proof.Termination

/-! # Without degenerate basic solutions, every rule terminates -/

set_option linter.unusedSectionVars false

namespace Relp

open Matrix BasisInverse LawfulBasisInverse Tableau LawfulRule

variable {BI : ℕ → Type} [BasisInverse BI] [LawfulBasisInverse BI] {m n N : ℕ}

theorem Path.length_lt_of_pos {rhs : Fin m → ℚ} {K : ℕ}
    {s : ℕ → Tableau BI m N × Matrix (Fin m) (Fin m) ℚ} {j : ℕ → Fin N} {p : ℕ → Fin m}
    (h : Path rhs K s j p) (hK0 : 0 < K) (hpos : ∀ i < K, (s i).1.carry.b (p i) ≠ 0) : K < N.choose m := by
  by_contra hK
  rw [not_lt] at hK
  have hmaps : ∀ i ∈ (Finset.univ : Finset (Fin (K + 1))),
      Finset.univ.image (s i).1.carry.basisIndices ∈ (Finset.univ : Finset (Fin N)).powersetCard m := by
    intro i _
    rw [Finset.mem_powersetCard, Finset.card_image_of_injective _ (h.exact hK0 (by omega)).injective]
    exact ⟨Finset.subset_univ _, by rw [Finset.card_univ, Fintype.card_fin]⟩
  obtain ⟨a, -, b, -, hab, heq⟩ := Finset.exists_ne_map_eq_of_card_lt_of_maps_to (by
      rw [Finset.card_powersetCard, Finset.card_univ, Finset.card_univ, Fintype.card_fin, Fintype.card_fin]
      omega) hmaps
  wlog hlt : a < b generalizing a b
  · exact this b a hab.symm heq.symm (lt_of_le_of_ne (not_lt.1 hlt) hab.symm)
  have hlt' : (a : ℕ) < b := hlt
  have hbK : (b : ℕ) ≤ K := by omega
  have haK : (a : ℕ) < K := by omega
  have h1 := (h.exact hK0 haK.le).objective_eq_of_columns (h.exact hK0 hbK)
    ((h.kind_eq hbK).trans (h.kind_eq haK.le).symm) fun c hc => by
      have hmem : c ∈ Finset.univ.image (s b).1.carry.basisIndices := by simpa using hc
      rw [← heq] at hmem
      simpa using hmem
  have h2 := h.objective_le (x := a + 1) (y := b) (by omega) hbK
  have h3 := (h.step a haK).objective_le
  exact hpos a haK ((h.step a haK).degenerate (by linarith))

/-- Fewer iterations than there are sets of `m` columns change the basic solution. -/
theorem Path.card_moves_lt {rhs : Fin m → ℚ} {K : ℕ}
    {s : ℕ → Tableau BI m N × Matrix (Fin m) (Fin m) ℚ} {j : ℕ → Fin N} {p : ℕ → Fin m}
    (h : Path rhs K s j p) (hK : 0 < K) :
    ((Finset.range K).filter fun i => (s (i + 1)).1.bfs ≠ (s i).1.bfs).card < N.choose m := by
  set moves := (Finset.range K).filter fun i => (s (i + 1)).1.bfs ≠ (s i).1.bfs with hmoves
  have hnot : K ∉ moves := by
    intro hc
    exact absurd (Finset.mem_range.1 (Finset.mem_filter.1 hc).1) (lt_irrefl _)
  have hne : ∀ a ∈ moves, ∀ b, a < b → b ≤ K →
      Finset.univ.image (s a).1.carry.basisIndices ≠ Finset.univ.image (s b).1.carry.basisIndices := by
    intro a ha b hab hb heq
    obtain ⟨haK, hmove⟩ := Finset.mem_filter.1 ha
    rw [Finset.mem_range] at haK
    have h1 := (h.exact hK haK.le).objective_eq_of_columns (h.exact hK hb)
      ((h.kind_eq hb).trans (h.kind_eq haK.le).symm) fun c hc => by
        have hmem : c ∈ Finset.univ.image (s b).1.carry.basisIndices := by simpa using hc
        rw [← heq] at hmem
        simpa using hmem
    have h2 := h.objective_le (x := a + 1) (y := b) (by omega) hb
    have h3 := (h.step a haK).objective_le
    exact hmove ((h.step a haK).bfs_eq ((h.step a haK).degenerate (by linarith)))
  have hle : ∀ i ∈ insert K moves, i ≤ K := by
    intro i hi
    rcases Finset.mem_insert.1 hi with rfl | hi
    · exact le_rfl
    · exact (Finset.mem_range.1 (Finset.mem_filter.1 hi).1).le
  have hcard : (insert K moves).card ≤ ((Finset.univ : Finset (Fin N)).powersetCard m).card := by
    refine Finset.card_le_card_of_injOn (fun i => Finset.univ.image (s i).1.carry.basisIndices) (fun i hi => ?_) ?_
    · rw [Finset.mem_coe, Finset.mem_powersetCard,
        Finset.card_image_of_injective _ (h.exact hK (hle i hi)).injective]
      exact ⟨Finset.subset_univ _, by rw [Finset.card_univ, Fintype.card_fin]⟩
    have hlt : ∀ a ∈ insert K moves, ∀ b ∈ insert K moves, a < b →
        Finset.univ.image (s a).1.carry.basisIndices ≠ Finset.univ.image (s b).1.carry.basisIndices := by
      intro a ha b hb hab
      have hbK : b ≤ K := hle b hb
      rcases Finset.mem_insert.1 ha with rfl | ha
      · omega
      · exact hne a ha b hab hbK
    intro a ha b hb heq
    rcases lt_trichotomy a b with hab | hab | hab
    · exact absurd heq (hlt a ha b hb hab)
    · exact hab
    · exact absurd heq.symm (hlt b hb a ha hab)
  rw [Finset.card_insert_of_notMem hnot, Finset.card_powersetCard, Finset.card_univ, Fintype.card_fin] at hcard
  omega

/-- `t'` results from bringing some profitable column into the basis of `t`. -/
def Pivots (t t' : Tableau BI m N) : Prop :=
  ∃ j p info change, t.relativeCost j < 0 ∧ t.generateColumn j = .ok info ∧
    t.selectPrimalPivotRow (infoColumn info) = some p ∧
    t.bringIntoBasis j p info (t.relativeCost j) = .ok (t', change)

/-- The tableaus that a loop visits. -/
def Visits (rhs : Fin m → ℚ) (t : Tableau BI m N) (M : Matrix (Fin m) (Fin m) ℚ) (K : ℕ) : Prop :=
  ∃ s : ℕ → Tableau BI m N × Matrix (Fin m) (Fin m) ℚ, s 0 = (t, M) ∧
    ∀ i < K, PStep rhs (s i) (s (i + 1)) ∧ Pivots (s i).1 (s (i + 1)).1

theorem Visits.cons {rhs : Fin m → ℚ} {t t' : Tableau BI m N}
    {M M' : Matrix (Fin m) (Fin m) ℚ} {K : ℕ} (h : Visits rhs t' M' K)
    (hstep : PStep rhs (t, M) (t', M')) (hp : Pivots t t') : Visits rhs t M (K + 1) := by
  obtain ⟨s, h0, h⟩ := h
  refine ⟨fun i => i.casesOn (t, M) s, rfl, fun i hi => ?_⟩
  cases i with
  | zero =>
    change PStep rhs (t, M) (s 0) ∧ Pivots t (s 0).1
    rw [h0]
    exact ⟨hstep, hp⟩
  | succ i => exact h i (by omega)

theorem phaseTwoLoop_visits {R : ℕ → Type} [PivotRule R] [LawfulRule R] (hm : OkDim BI m)
    (fuel : ℕ) {t : Tableau BI m N} {rhs M} {r : R N} (hex : t.Exact rhs M)
    (hb : ∀ i, 0 ≤ t.carry.b i) (hr : RInv r t M)
    (h : phaseTwoLoop fuel r t = .error .outOfFuel) : Visits rhs t M fuel := by
  induction fuel generalizing t M r with
  | zero => exact ⟨fun _ => (t, M), rfl, fun _ hi => absurd hi (Nat.not_lt_zero _)⟩
  | succ fuel ih =>
    rw [phaseTwoLoop] at h
    rcases pivot_cases hm hex hb hr with ⟨r', h1, h2⟩ | ⟨j, r', info, h1, h2, h3, h4, h5⟩ |
      ⟨j, r', info, p, t', change, r'', h1, h2, h3, h4, h5, h6, h7, h8⟩
    · simp only [h1, bind, Except.bind, pure, Except.pure] at h
      cases h
    · simp only [h1, h3, h4, bind, Except.bind, pure, Except.pure] at h
      cases h
    · simp only [h1, h2, h3, h4, h5, bind, Except.bind] at h
      exact (ih h7.exact' h7.nonneg' h8 h).cons ⟨_, _, h7⟩
        ⟨j, p, info, change, h7.profitable, h2, h3, h4⟩

theorem phaseOneLoop_visits {R : ℕ → Type} [PivotRule R] [LawfulRule R] (hm : OkDim BI m)
    (fuel : ℕ) {t : Tableau BI m N} {rhs M} {r : R N} (hex : t.Exact rhs M)
    (hb : ∀ i, 0 ≤ t.carry.b i) (hr : RInv r t M) (hart : ArtInv t)
    (h : phaseOneLoop fuel r t = .error .outOfFuel) : Visits rhs t M fuel := by
  induction fuel generalizing t M r with
  | zero => exact ⟨fun _ => (t, M), rfl, fun _ hi => absurd hi (Nat.not_lt_zero _)⟩
  | succ fuel ih =>
    rw [phaseOneLoop] at h
    rcases pivot_cases hm hex hb hr with ⟨r', h1, h2⟩ | ⟨j, r', info, h1, h2, h3, h4, h5⟩ |
      ⟨j, r', info, p, t', change, r'', h1, h2, h3, h4, h5, h6, h7, h8⟩
    · simp only [h1, bind, Except.bind] at h
      rcases phaseOneExit_spec hm hex hb hart with ⟨g, -⟩ | ⟨_, _, _, -, -, ⟨g, -⟩ | ⟨g, -⟩⟩ <;>
        (rw [g] at h; cases h)
    · simp only [h1, h3, h4, bind, Except.bind, panic] at h
      cases h
    · simp only [h1, h2, h3, h4, h5, bind, Except.bind] at h
      exact (ih h7.exact' h7.nonneg' h8 (hart.update h7.real h7.kind_eq h7.basis_eq) h).cons
        ⟨_, _, h7⟩ ⟨j, p, info, change, h7.profitable, h2, h3, h4⟩

/-- The visited tableaus, and how often the basic solution changes. -/
theorem Visits.stalls {rhs : Fin m → ℚ} {t : Tableau BI m N} {M : Matrix (Fin m) (Fin m) ℚ} {K : ℕ}
    (h : Visits rhs t M K) :
    ∃ s : ℕ → Tableau BI m N, s 0 = t ∧ (∀ i < K, Pivots (s i) (s (i + 1))) ∧
      ((Finset.range K).filter fun i =>
        SVec.val (s (i + 1)).currentBfs ≠ SVec.val (s i).currentBfs).card < max 1 (N.choose m) := by
  obtain ⟨s, h0, h⟩ := h
  refine ⟨fun i => (s i).1, by simp [h0], fun i hi => (h i hi).2, ?_⟩
  have hval : ∀ u : Tableau BI m N, SVec.val u.currentBfs = u.bfs := fun u =>
    funext fun j => val_currentBfs u j
  simp only [hval]
  rcases Nat.eq_zero_or_pos K with rfl | hK
  · have : 0 < Fintype.card (Fin m → Fin N) := Fintype.card_pos_iff.2 ⟨t.carry.basisIndices⟩
    rw [Fintype.card_fun, Fintype.card_fin, Fintype.card_fin] at this
    simpa using this
  · obtain ⟨j₀, p₀, -⟩ := (h 0 hK).1
    have hjp : ∀ i, ∃ jp : Fin N × Fin m, i < K → PivotStep rhs (s i) (s (i + 1)) jp.1 jp.2 := by
      intro i
      by_cases hi : i < K
      · obtain ⟨j, p, hjp⟩ := (h i hi).1
        exact ⟨(j, p), fun _ => hjp⟩
      · exact ⟨(j₀, p₀), fun hc => absurd hc hi⟩
    choose jp hjp using hjp
    exact lt_of_lt_of_le (Path.card_moves_lt (j := fun i => (jp i).1) (p := fun i => (jp i).2) ⟨hjp⟩ hK)
      (le_max_right _ _)

theorem phaseTwo_stalls {R : ℕ → Type} [PivotRule R] [LawfulRule R] (hm : OkDim BI m)
    {P : Provider m n} {t : Tableau BI m n} (h : PhaseTwoStart P t) {fuel : ℕ}
    (hf : phaseTwo R fuel t = .error .outOfFuel) : ∃ M, Visits P.rhs t M fuel := by
  obtain ⟨M, hex⟩ := h.exact
  obtain ⟨r, hr, hinv⟩ := LawfulRule.new_ok (R := R) hm hex
  unfold Relp.phaseTwo at hf
  simp only [hr, bind, Except.bind] at hf
  exact ⟨M, phaseTwoLoop_visits hm fuel hex h.nonneg hinv hf⟩

theorem phaseOne_stalls {R : ℕ → Type} [PivotRule R] [LawfulRule R] (hm : OkDim BI m)
    {rhs : Fin m → ℚ} {M} {t : Tableau BI m N} (hex : t.Exact rhs M) (hart : ArtInv t)
    (hb : ∀ i, 0 ≤ t.carry.b i) {fuel : ℕ}
    (hf : phaseOne R fuel t = .error .outOfFuel) : Visits rhs t M fuel := by
  obtain ⟨r, hr, hinv⟩ := LawfulRule.new_ok (R := R) hm hex
  unfold Relp.phaseOne at hf
  simp only [hr, bind, Except.bind] at hf
  exact phaseOneLoop_visits hm fuel hex hb hinv hart hf

/-- The number of rows with a non-zero value is that of the non-zero variables. -/
theorem Tableau.Exact.card_bfs {rhs : Fin m → ℚ} {t : Tableau BI m N} {M} (h : t.Exact rhs M) :
    (Finset.univ.filter fun j => t.bfs j ≠ 0).card
      = (Finset.univ.filter fun i => t.carry.b i ≠ 0).card := by
  symm
  refine Finset.card_bij (fun i _ => t.carry.basisIndices i) ?_ ?_ ?_
  · intro i hi
    simp only [Finset.mem_filter, Finset.mem_univ, true_and] at hi ⊢
    rw [bfs_basis h]
    exact hi
  · intro a _ b _ hab
    exact h.injective hab
  · intro j hj
    simp only [Finset.mem_filter, Finset.mem_univ, true_and] at hj
    have : ∃ i, t.carry.basisIndices i = j := by
      by_contra hc
      push Not at hc
      apply hj
      unfold bfs
      exact Finset.sum_eq_zero fun i _ => by rw [if_neg (hc i)]
    obtain ⟨i, rfl⟩ := this
    refine ⟨i, ?_, rfl⟩
    simp only [Finset.mem_filter, Finset.mem_univ, true_and]
    rw [bfs_basis h] at hj
    exact hj

theorem ne_zero_of_card {b : Fin m → ℚ} (h : m ≤ (Finset.univ.filter fun i => b i ≠ 0).card)
    (i : Fin m) : b i ≠ 0 := by
  have h1 : (Finset.univ.filter fun i => b i ≠ 0) = Finset.univ := by
    apply Finset.eq_univ_of_card
    refine le_antisymm (Finset.card_le_univ _) ?_
    rw [Fintype.card_fin]
    exact h
  have := Finset.mem_univ i
  rw [← h1] at this
  exact (Finset.mem_filter.1 this).2

theorem nondegenerate_artificial {P : Provider m n} (hnd : P.toLP.Nondegenerate) {k : ℕ}
    {ctr : Fin k → Fin m} {t : Tableau BI m (k + n)} {M} (hk : t.kind = artificialKind P ctr)
    (h : t.Exact P.rhs M) (hb : ∀ i, 0 ≤ t.carry.b i) (i : Fin m) : t.carry.b i ≠ 0 := by
  refine ne_zero_of_card ?_ i
  rw [← h.card_bfs]
  have hf := (bfs_feasible h hb).1
  have := hnd (fun j => t.bfs (Fin.natAdd k j))
    (fun i => ∑ c, if ctr c = i then t.bfs (Fin.castAdd n c) else 0)
    (fun j => bfs_nonneg t hb _) (fun i => Finset.sum_nonneg fun c _ => by
      split_ifs
      · exact bfs_nonneg t hb _
      · exact le_rfl) (by
      rw [show P.toLP.b = (t.lp P.rhs).b from rfl, ← hf]
      ext r
      change ∑ j, SVec.val (P.column j) r * _ + _ = ∑ j, SVec.val (t.kind.column j) r * _
      rw [Fin.sum_univ_add, hk, add_comm]
      congr 1
      · refine Finset.sum_congr rfl fun c _ => ?_
        simp only [artificialKind, Fin.addCases_left]
        rw [SVec.val_standardBasis]
        by_cases hc : ctr c = r
        · subst hc; simp
        · rw [if_neg hc, if_neg (Ne.symm hc), zero_mul]
      · refine Finset.sum_congr rfl fun c _ => ?_
        simp only [artificialKind, Fin.addCases_right])
  refine this.trans ?_
  have hy : (Finset.univ.filter fun i => (∑ c, if ctr c = i then t.bfs (Fin.castAdd n c) else 0) ≠ 0)
      ⊆ (Finset.univ.filter fun c => t.bfs (Fin.castAdd n c) ≠ 0).image ctr := by
    intro r hr
    simp only [Finset.mem_filter, Finset.mem_univ, true_and, Finset.mem_image] at hr ⊢
    obtain ⟨c, -, hc⟩ := Finset.exists_ne_zero_of_sum_ne_zero hr
    by_cases hcr : ctr c = r
    · rw [if_pos hcr] at hc
      exact ⟨c, hc, hcr⟩
    · rw [if_neg hcr] at hc
      exact absurd rfl hc
  have hy' := (Finset.card_le_card hy).trans Finset.card_image_le
  have hsplit : (Finset.univ.filter fun j => t.bfs j ≠ 0).card
      = (Finset.univ.filter fun c : Fin k => t.bfs (Fin.castAdd n c) ≠ 0).card
        + (Finset.univ.filter fun j : Fin n => t.bfs (Fin.natAdd k j) ≠ 0).card := by
    simp only [Finset.card_filter]
    exact Fin.sum_univ_add _
  rw [hsplit]
  omega

theorem nondegenerate_nonArtificial {m' : ℕ} {P : Provider m n} {P' : Provider m' n} (hm : m' ≤ m)
    (hfeas : ∀ y, P'.toLP.Feasible y → P.toLP.Feasible y)
    (hnd : P.toLP.Nondegenerate) {t : Tableau BI m' n} {M} (hk : t.kind = nonArtificialKind P')
    (h : t.Exact P'.rhs M) (hb : ∀ i, 0 ≤ t.carry.b i) (i : Fin m') : t.carry.b i ≠ 0 := by
  refine ne_zero_of_card ?_ i
  rw [← h.card_bfs]
  have hf := bfs_feasible h hb
  have hlp : t.lp P'.rhs = P'.toLP := by unfold Tableau.lp; rw [hk]; rfl
  rw [hlp] at hf
  have := hnd t.bfs 0 (bfs_nonneg t hb) (fun _ => le_rfl) (by rw [add_zero]; exact (hfeas _ hf).1)
  simp only [Pi.zero_apply, ne_eq, not_true_eq_false, Finset.filter_false, Finset.card_empty,
    add_zero] at this
  exact hm.trans this

theorem nondegenerate_bounded {R : ℕ → Type} [PivotRule R] {kind : Kind m N} {rhs : Fin m → ℚ}
    (h : ∀ (t : Tableau BI m N) M, t.kind = kind → t.Exact rhs M → (∀ i, 0 ≤ t.carry.b i) →
      ∀ i, t.carry.b i ≠ 0) : Bounded R BI kind rhs (max 1 (N.choose m)) := by
  intro K s j p h0 hp
  rcases Nat.eq_zero_or_pos K with rfl | hK
  · exact lt_of_lt_of_le Nat.zero_lt_one (le_max_left _ _)
  refine lt_of_lt_of_le ?_ (le_max_right _ _)
  refine hp.toPath.length_lt_of_pos hK fun i hi => ?_
  exact h _ _ ((hp.toPath.kind_eq hi.le).trans h0) (hp.step i hi).exact (hp.step i hi).nonneg _

theorem nondegenerate_allBounded {R : ℕ → Type} [PivotRule R] {P : Provider m n} (hP : P.Ok)
    (hnd : P.toLP.Nondegenerate) : AllBounded R BI P ((m + n).choose m) := by
  have hpos : 1 ≤ (m + n).choose m := Nat.choose_pos (by omega)
  refine ⟨fun {k} hk ctr => ?_, ?_, fun rows hr => ?_⟩
  · refine (nondegenerate_bounded fun t M h1 h2 h3 => ?_).mono
      (max_le hpos (Nat.choose_le_choose m (by omega)))
    exact nondegenerate_artificial hnd h1 h2 h3
  · refine (nondegenerate_bounded fun t M h1 h2 h3 => ?_).mono
      (max_le hpos (Nat.choose_le_choose m (by omega)))
    exact nondegenerate_nonArtificial le_rfl (fun _ h => h) hnd h1 h2 h3
  · refine (nondegenerate_bounded fun t M h1 h2 h3 => ?_).mono
      (max_le hpos (choose_keptLen_le rows n))
    exact nondegenerate_nonArtificial (keptLen_le rows)
      (fun y => (Provider.removeRows_feasible hP hr y).1) hnd h1 h2 h3

/-! ### Both phases -/

/-- One of the two phases is still running after `K` iterations, all of which are pivots, while the
basic solution changed less than `bound` times. -/
def Stalls (R : ℕ → Type) [PivotRule R] (BI : ℕ → Type) [BasisInverse BI] (m n K bound : ℕ) : Prop :=
  ∃ m' N, m' ≤ m ∧ N ≤ m + n ∧ ∃ s : ℕ → Tableau BI m' N,
    (phaseOne R K (s 0) = .error .outOfFuel ∨ phaseTwo R K (s 0) = .error .outOfFuel) ∧
    (∀ i < K, Pivots (s i) (s (i + 1))) ∧
    ((Finset.range K).filter fun i =>
      SVec.val (s (i + 1)).currentBfs ≠ SVec.val (s i).currentBfs).card < bound

theorem Visits.toStalls {R : ℕ → Type} [PivotRule R] {m' : ℕ} {rhs : Fin m' → ℚ}
    {t : Tableau BI m' N} {M : Matrix (Fin m') (Fin m') ℚ} {K : ℕ} (h : Visits rhs t M K)
    (hm : m' ≤ m) (hN : N ≤ m + n) (hbound : N.choose m' ≤ (m + n).choose m)
    (hf : phaseOne R K t = .error .outOfFuel ∨ phaseTwo R K t = .error .outOfFuel) :
    Stalls R BI m n K ((m + n).choose m) := by
  obtain ⟨s, h0, h1, h2⟩ := h.stalls
  exact ⟨m', N, hm, hN, s, by rw [h0]; exact hf, h1,
    lt_of_lt_of_le h2 (max_le (Nat.choose_pos (by omega)) hbound)⟩

theorem solve_stalls {R : ℕ → Type} [PivotRule R] [LawfulRule R] (hm : OkDim BI m)
    {P : Provider m n} (hP : P.Ok)
    (hdim : ∀ rows, P.toLP.Redundant rows → OkDim BI (keptLen rows))
    {nrArtificial : ℕ} (hnr : nrArtificial ≤ m) {columnToRow : Fin nrArtificial → Fin m}
    {t : Tableau BI m (nrArtificial + n)} (hex : t.Exact P.rhs 1) (hart : ArtInv t)
    (hb : t.carry.b = P.rhs) (hk : t.kind = artificialKind P columnToRow) {fuel : ℕ}
    (hf : (do let f ← phaseOne R fuel t; solveAfterPhaseOne R fuel P f) = .error .outOfFuel) :
    Stalls R BI m n fuel ((m + n).choose m) := by
  have hnn : ∀ i, 0 ≤ t.carry.b i := by rw [hb]; exact hP.rhs_nonneg
  by_cases hone : phaseOne R fuel t = .error .outOfFuel
  · exact (phaseOne_stalls hm hex hart hnn hone).toStalls le_rfl (by omega) (Nat.choose_le_choose m (by omega)) (Or.inl hone)
  obtain ⟨r, hr, hinv⟩ := LawfulRule.new_ok (R := R) hm hex
  unfold phaseOne at hone hf
  simp only [hr, bind, Except.bind] at hone hf
  rcases phaseOneLoop_spec hm fuel hex hnn hinv with h1 | ⟨u, Mu, g1, g2, g3, g4⟩
  · exact absurd h1 hone
  · have hkind : u.kind = t.kind := g1.kind_eq
    have hartu : ArtInv u := hart.reach g1
    rcases g4 with ⟨g4, g5⟩ | ⟨j, g5, g6⟩
    · rw [g4] at hf
      rcases phaseOneExit_spec hm g2 g3 hartu with ⟨e1, e2⟩ | ⟨v, Mv, rows, e1, e2, e3⟩
      · rw [e1] at hf
        simp [solveAfterPhaseOne] at hf
      · have hkv : v.kind = artificialKind P columnToRow := e1.trans (hkind.trans hk)
        rcases e3 with ⟨e3, rfl⟩ | ⟨e3, e4⟩
        · rw [e3] at hf
          obtain ⟨t', f1, f2⟩ := fromArtificial_spec hm hP hkv e2
          simp only [solveAfterPhaseOne, f1, bind, Except.bind] at hf
          obtain ⟨M, hM⟩ := phaseTwo_stalls hm f2 hf
          exact hM.toStalls le_rfl (by omega) (Nat.choose_le_choose m (by omega)) (Or.inr hf)
        · rw [e3] at hf
          have hred := e2.redundant_rows hkv
          obtain ⟨t', f1, f2⟩ := fromArtificialRemovingRows_spec hm hP hkv e2 (hdim rows hred)
          cases rows with
          | nil => exact absurd rfl e4
          | cons row rows =>
            simp only [solveAfterPhaseOne, f1, bind, Except.bind] at hf
            obtain ⟨M, hM⟩ := phaseTwo_stalls (hdim _ hred) f2 hf
            exact hM.toStalls (keptLen_le _) (by omega) (choose_keptLen_le _ n) (Or.inr hf)
    · exact (hartu.not_unbounded g2 g5.1 g5.2.2.2 g6).elim

theorem rows_stalls {rule : RuleName} {P : Provider m n} (hP : P.Ok) {start : InitialBasis m n}
    (hs : StartOk P start) {fuel : ℕ}
    (hf : solveRelaxation .rows rule fuel P start = .error .outOfFuel) :
    Stalls rule.type BasisInverseRows m n fuel ((m + n).choose m) := by
  have hm : OkDim BasisInverseRows m := trivial
  cases start with
  | none =>
    change solveFully BasisInverseRows rule.type fuel P = _ at hf
    obtain ⟨t, h1, h2, h3, h4, h5⟩ := newFully_spec (BI := BasisInverseRows) hm hP.wf
    unfold solveFully at hf
    simp only [h1, bind, Except.bind] at hf
    exact solve_stalls hm hP (fun _ _ => trivial) le_rfl h2 h3 h4 h5 hf
  | partially pivots =>
    change solvePartially BasisInverseRows rule.type fuel P pivots = _ at hf
    obtain ⟨t, ctr, h1, h2, h3, h4, h5⟩ := newPartially_spec (BI := BasisInverseRows) hm hP.wf hs
    unfold solvePartially at hf
    simp only [h1, bind, Except.bind] at hf
    exact solve_stalls hm hP (fun _ _ => trivial) (Nat.sub_le _ _) h2 h3 h4 h5 hf
  | fully pivots =>
    change solveFull BasisInverseRows rule.type fuel P pivots = _ at hf
    obtain ⟨basis, -, -, hM, hcols, heq⟩ := solveFull_eq hs
    rw [heq] at hf
    by_cases h0 : m = 0
    · have := carry_fromBasis_zero .rows h0 P basis
      change (Carry.fromBasis P basis : Res (Carry BasisInverseRows m n)) = _ at this
      rw [this] at hf
      simp [bind, Except.bind, panic] at hf
    · obtain ⟨carry, h1, h2⟩ := fromBasis_spec (BI := BasisInverseRows) hm h0 hP.wf hM hcols
      rw [h1] at hf
      simp only [bind, Except.bind] at hf
      obtain ⟨M, hM'⟩ := phaseTwo_stalls hm (fullStart hP h2) hf
      exact hM'.toStalls le_rfl (by omega) (Nat.choose_le_choose m (by omega)) (Or.inr hf)

end Relp
