import Verif.Proof.Bland
import Verif.Proof.Fuel
import Mathlib.Data.Nat.Choose.Bounds

/-! # When the loops of the two phases end -/

set_option linter.unusedSectionVars false

namespace Relp

open Matrix BasisInverse LawfulBasisInverse Tableau LawfulRule

variable {BI : ℕ → Type} [BasisInverse BI] [LawfulBasisInverse BI] {m n N : ℕ}

/-- The iterations of a loop that runs with the pivot rule `R`. -/
structure RulePath (R : ℕ → Type) [PivotRule R] (rhs : Fin m → ℚ) (K : ℕ)
    (s : ℕ → Tableau BI m N × Matrix (Fin m) (Fin m) ℚ) (j : ℕ → Fin N) (p : ℕ → Fin m) :
    Prop extends Path rhs K s j p where
  select : ∀ i < K, ∃ r r' : R N, ∃ c, PivotRule.select r (s i).1 = .ok (some (j i, c), r')

theorem RulePath.cons {R : ℕ → Type} [PivotRule R] {rhs : Fin m → ℚ} {K : ℕ}
    {s : ℕ → Tableau BI m N × Matrix (Fin m) (Fin m) ℚ} {j : ℕ → Fin N} {p : ℕ → Fin m}
    (h : RulePath R rhs K s j p) {s₀ : Tableau BI m N × Matrix (Fin m) (Fin m) ℚ} {j₀ : Fin N}
    {p₀ : Fin m} (hstep : PivotStep rhs s₀ (s 0) j₀ p₀) {r r' : R N} {c}
    (hsel : PivotRule.select r s₀.1 = .ok (some (j₀, c), r')) :
    RulePath R rhs (K + 1) (fun i => i.casesOn s₀ s) (fun i => i.casesOn j₀ j)
      (fun i => i.casesOn p₀ p) := by
  refine ⟨⟨fun i hi => ?_⟩, fun i hi => ?_⟩
  · cases i with
    | zero => exact hstep
    | succ i => exact h.step i (by omega)
  · cases i with
    | zero => exact ⟨r, r', c, hsel⟩
    | succ i => exact h.select i (by omega)

theorem RulePath.nil {R : ℕ → Type} [PivotRule R] {rhs : Fin m → ℚ}
    {s : ℕ → Tableau BI m N × Matrix (Fin m) (Fin m) ℚ} {j : ℕ → Fin N} {p : ℕ → Fin m} :
    RulePath R rhs 0 s j p :=
  ⟨⟨fun _ h => absurd h (Nat.not_lt_zero _)⟩, fun _ h => absurd h (Nat.not_lt_zero _)⟩

/-- The iterations that a phase starting at `t` does. -/
def Iterates (R : ℕ → Type) [PivotRule R] (rhs : Fin m → ℚ) (t : Tableau BI m N)
    (M : Matrix (Fin m) (Fin m) ℚ) (K : ℕ) : Prop :=
  K = 0 ∨ ∃ s j p, s 0 = (t, M) ∧ RulePath R rhs K s j p

theorem Iterates.cons {R : ℕ → Type} [PivotRule R] {rhs : Fin m → ℚ} {t t' : Tableau BI m N}
    {M M' : Matrix (Fin m) (Fin m) ℚ} {K : ℕ} (h : Iterates R rhs t' M' K) {j : Fin N} {p : Fin m}
    (hstep : PivotStep rhs (t, M) (t', M') j p) {r r' : R N} {c}
    (hsel : PivotRule.select r t = .ok (some (j, c), r')) : Iterates R rhs t M (K + 1) := by
  rcases h with rfl | ⟨s, js, ps, h0, h⟩
  · refine Or.inr ⟨_, _, _, rfl, RulePath.cons (s := fun _ => (t', M')) (j := fun _ => j)
      (p := fun _ => p) (s₀ := (t, M)) (p₀ := p) RulePath.nil ?_ hsel⟩
    exact hstep
  · refine Or.inr ⟨_, _, _, rfl, h.cons (s₀ := (t, M)) (p₀ := p) ?_ hsel⟩
    rw [h0]
    exact hstep

theorem phaseTwoLoop_iterates {R : ℕ → Type} [PivotRule R] [LawfulRule R] (hm : OkDim BI m)
    (fuel : ℕ) {t : Tableau BI m N} {rhs M} {r : R N} (hex : t.Exact rhs M)
    (hb : ∀ i, 0 ≤ t.carry.b i) (hr : RInv r t M)
    (h : phaseTwoLoop fuel r t = .error .outOfFuel) : Iterates R rhs t M fuel := by
  induction fuel generalizing t M r with
  | zero => exact Or.inl rfl
  | succ fuel ih =>
    rw [phaseTwoLoop] at h
    rcases pivot_cases hm hex hb hr with ⟨r', h1, h2⟩ | ⟨j, r', info, h1, h2, h3, h4, h5⟩ |
      ⟨j, r', info, p, t', change, r'', h1, h2, h3, h4, h5, h6, h7, h8⟩
    · simp only [h1, bind, Except.bind, pure, Except.pure] at h
      cases h
    · simp only [h1, h3, h4, bind, Except.bind, pure, Except.pure] at h
      cases h
    · simp only [h1, h2, h3, h4, h5, bind, Except.bind] at h
      exact (ih h7.exact' h7.nonneg' h8 h).cons h7 h1

theorem phaseOneLoop_iterates {R : ℕ → Type} [PivotRule R] [LawfulRule R] (hm : OkDim BI m)
    (fuel : ℕ) {t : Tableau BI m N} {rhs M} {r : R N} (hex : t.Exact rhs M)
    (hb : ∀ i, 0 ≤ t.carry.b i) (hr : RInv r t M) (hart : ArtInv t)
    (h : phaseOneLoop fuel r t = .error .outOfFuel) : Iterates R rhs t M fuel := by
  induction fuel generalizing t M r with
  | zero => exact Or.inl rfl
  | succ fuel ih =>
    rw [phaseOneLoop] at h
    rcases pivot_cases hm hex hb hr with ⟨r', h1, h2⟩ | ⟨j, r', info, h1, h2, h3, h4, h5⟩ |
      ⟨j, r', info, p, t', change, r'', h1, h2, h3, h4, h5, h6, h7, h8⟩
    · simp only [h1, bind, Except.bind] at h
      rcases phaseOneExit_spec hm hex hb hart with ⟨g, -⟩ | ⟨_, _, _, -, -, ⟨g, -⟩ | ⟨g, -⟩⟩ <;>
        (rw [g] at h; cases h)
    · simp only [h1, h3, h4, bind, Except.bind, panic] at h
      cases h
    · simp only [h1, h2, h3, h4, h5, bind, Except.bind] at h
      exact (ih h7.exact' h7.nonneg' h8 (hart.update h7.real h7.kind_eq h7.basis_eq) h).cons h7 h1

/-- The number of iterations of every loop that starts at an exact tableau is less than `bound`. -/
def Bounded (R : ℕ → Type) [PivotRule R] (BI : ℕ → Type) [BasisInverse BI] [LawfulBasisInverse BI]
    {m N : ℕ} (kind : Kind m N) (rhs : Fin m → ℚ) (bound : ℕ) : Prop :=
  ∀ (K : ℕ) (s : ℕ → Tableau BI m N × Matrix (Fin m) (Fin m) ℚ) (j : ℕ → Fin N) (p : ℕ → Fin m),
    (s 0).1.kind = kind → RulePath R rhs K s j p → K < bound

theorem Bounded.iterates {R : ℕ → Type} [PivotRule R] {kind : Kind m N} {rhs : Fin m → ℚ}
    {bound : ℕ} (h : Bounded R BI kind rhs bound) (hpos : 0 < bound) {t : Tableau BI m N} {M}
    (hk : t.kind = kind) {K : ℕ} (hK : Iterates R rhs t M K) : K < bound := by
  rcases hK with rfl | ⟨s, j, p, h0, hp⟩
  · exact hpos
  · exact h K s j p (by rw [h0]; exact hk) hp

theorem Bounded.phaseTwo {R : ℕ → Type} [PivotRule R] [LawfulRule R] (hm : OkDim BI m)
    {P : Provider m n} {t : Tableau BI m n} (h : PhaseTwoStart P t) {bound : ℕ}
    (hB : Bounded R BI t.kind P.rhs bound) {fuel : ℕ} (hpos : 0 < fuel) (hf : bound ≤ fuel) :
    phaseTwo R fuel t ≠ .error .outOfFuel := by
  intro hc
  obtain ⟨M, hex⟩ := h.exact
  obtain ⟨r, hr, hinv⟩ := LawfulRule.new_ok (R := R) hm hex
  unfold Relp.phaseTwo at hc
  simp only [hr, bind, Except.bind] at hc
  rcases phaseTwoLoop_iterates hm fuel hex h.nonneg hinv hc with h1 | ⟨s, j, p, h0, hp⟩
  · omega
  · have := hB fuel s j p (by rw [h0]) hp
    omega

theorem Bounded.phaseOne {R : ℕ → Type} [PivotRule R] [LawfulRule R] (hm : OkDim BI m)
    {rhs : Fin m → ℚ} {M} {t : Tableau BI m N} (hex : t.Exact rhs M) (hart : ArtInv t)
    (hb : ∀ i, 0 ≤ t.carry.b i) {bound : ℕ}
    (hB : Bounded R BI t.kind rhs bound) {fuel : ℕ} (hpos : 0 < fuel) (hf : bound ≤ fuel) :
    phaseOne R fuel t ≠ .error .outOfFuel := by
  intro hc
  obtain ⟨r, hr, hinv⟩ := LawfulRule.new_ok (R := R) hm hex
  unfold Relp.phaseOne at hc
  simp only [hr, bind, Except.bind] at hc
  rcases phaseOneLoop_iterates hm fuel hex hb hinv hart hc with h1 | ⟨s, j, p, h0, hp⟩
  · omega
  · have := hB fuel s j p (by rw [h0]) hp
    omega

/-! ### The first profitable column -/

theorem firstProfitable_first {t : Tableau BI m N} {r r' : FirstProfitable N} {j : Fin N} {c}
    (h : PivotRule.select r t = .ok (some (j, c), r')) {k : Fin N} (hk : t.kind.start ≤ (k : ℕ))
    (hb : t.isInBasis k = false) (hc : t.relativeCost k < 0) : j ≤ k := by
  have h' : t.candidates.find? (fun p => decide (p.2 < 0)) = some (j, c) := by
    change Except.ok (t.candidates.find? (fun p => decide (p.2 < 0)), r) = _ at h
    simp only [Except.ok.injEq, Prod.mk.injEq] at h
    exact h.1
  have hsorted : t.candidates.Pairwise fun p q => p.1 < q.1 := by
    unfold candidates candidatesIn
    rw [List.pairwise_map]
    exact (List.pairwise_lt_finRange N).filter _
  obtain ⟨-, as, bs, h2, h3⟩ := List.find?_eq_some_iff_append.1 h'
  have hmem : (k, t.relativeCost k) ∈ t.candidates := mem_candidates.2 ⟨hk, hb, rfl⟩
  rw [h2] at hmem hsorted
  rcases List.mem_append.1 hmem with h4 | h4
  · have := h3 _ h4
    simp [hc] at this
  · rcases List.mem_cons.1 h4 with h5 | h5
    · cases h5; exact le_rfl
    · have := (List.pairwise_cons.1 (List.pairwise_append.1 hsorted).2.1).1 _ h5
      exact this.le

theorem firstProfitable_bounded (kind : Kind m N) (rhs : Fin m → ℚ) :
    Bounded FirstProfitable BI kind rhs (max 1 (N.choose m)) := by
  intro K s j p _ h
  rcases Nat.eq_zero_or_pos K with rfl | hK
  · exact lt_of_lt_of_le Nat.zero_lt_one (le_max_left _ _)
  refine lt_of_lt_of_le ?_ (le_max_right _ _)
  refine h.toPath.length_lt hK fun i hi c h1 h2 h3 => ?_
  obtain ⟨r, r', c', hsel⟩ := h.select i hi
  exact firstProfitable_first hsel h1 h2 h3

/-! ### Both phases -/

/-- All loops that may be executed for the provider `P` have less than `bound` iterations. -/
structure AllBounded (R : ℕ → Type) [PivotRule R] (BI : ℕ → Type) [BasisInverse BI]
    [LawfulBasisInverse BI] (P : Provider m n) (bound : ℕ) : Prop where
  artificial : ∀ {nrArtificial : ℕ}, nrArtificial ≤ m → ∀ columnToRow : Fin nrArtificial → Fin m,
    Bounded R BI (artificialKind P columnToRow) P.rhs bound
  nonArtificial : Bounded R BI (nonArtificialKind P) P.rhs bound
  removed : ∀ rows, P.toLP.Redundant rows →
    Bounded R BI (nonArtificialKind (P.removeRows rows)) (P.removeRows rows).rhs bound

theorem AllBounded.solve {R : ℕ → Type} [PivotRule R] [LawfulRule R] (hm : OkDim BI m)
    {P : Provider m n} (hP : P.Ok)
    (hdim : ∀ rows, P.toLP.Redundant rows → OkDim BI (keptLen rows))
    {nrArtificial : ℕ} (hnr : nrArtificial ≤ m) {columnToRow : Fin nrArtificial → Fin m}
    {t : Tableau BI m (nrArtificial + n)} (hex : t.Exact P.rhs 1) (hart : ArtInv t)
    (hb : t.carry.b = P.rhs) (hk : t.kind = artificialKind P columnToRow) {bound : ℕ}
    (hB : AllBounded R BI P bound) {fuel : ℕ} (hpos : 0 < fuel) (hf : bound ≤ fuel) :
    (do let f ← phaseOne R fuel t; solveAfterPhaseOne R fuel P f) ≠ .error .outOfFuel := by
  have hnn : ∀ i, 0 ≤ t.carry.b i := by rw [hb]; exact hP.rhs_nonneg
  have hone := Bounded.phaseOne (R := R) hm hex hart hnn
    (by rw [hk]; exact hB.artificial hnr columnToRow) hpos hf
  obtain ⟨r, hr, hinv⟩ := LawfulRule.new_ok (R := R) hm hex
  unfold phaseOne at hone ⊢
  simp only [hr, bind, Except.bind] at hone ⊢
  rcases phaseOneLoop_spec hm fuel hex hnn hinv with h1 | ⟨u, Mu, g1, g2, g3, g4⟩
  · exact absurd h1 hone
  · have hkind : u.kind = t.kind := g1.kind_eq
    have hartu : ArtInv u := hart.reach g1
    rcases g4 with ⟨g4, g5⟩ | ⟨j, g5, g6⟩
    · rw [g4]
      rcases phaseOneExit_spec hm g2 g3 hartu with ⟨e1, e2⟩ | ⟨v, Mv, rows, e1, e2, e3⟩
      · rw [e1]
        simp [solveAfterPhaseOne]
      · have hkv : v.kind = artificialKind P columnToRow := e1.trans (hkind.trans hk)
        rcases e3 with ⟨e3, rfl⟩ | ⟨e3, e4⟩
        · rw [e3]
          obtain ⟨t', f1, f2⟩ := fromArtificial_spec hm hP hkv e2
          simp only [solveAfterPhaseOne, f1, bind, Except.bind]
          exact Bounded.phaseTwo hm f2 (by rw [f2.kind]; exact hB.nonArtificial) hpos hf
        · rw [e3]
          have hred := e2.redundant_rows hkv
          obtain ⟨t', f1, f2⟩ := fromArtificialRemovingRows_spec hm hP hkv e2 (hdim rows hred)
          cases rows with
          | nil => exact absurd rfl e4
          | cons row rows =>
            simp only [solveAfterPhaseOne, f1, bind, Except.bind]
            exact Bounded.phaseTwo (hdim _ hred) f2 (by rw [f2.kind]; exact hB.removed _ hred)
              hpos hf
    · exact (hartu.not_unbounded g2 g5.1 g5.2.2.2 g6).elim

theorem AllBounded.rows {rule : RuleName} {P : Provider m n} (hP : P.Ok) {start : InitialBasis m n}
    (hs : StartOk P start) {bound : ℕ} (hB : AllBounded rule.type BasisInverseRows P bound)
    {fuel : ℕ} (hpos : 0 < fuel) (hf : bound ≤ fuel) :
    solveRelaxation .rows rule fuel P start ≠ .error .outOfFuel := by
  have hm : OkDim BasisInverseRows m := trivial
  cases start with
  | none =>
    change solveFully BasisInverseRows rule.type fuel P ≠ _
    obtain ⟨t, h1, h2, h3, h4, h5⟩ := newFully_spec (BI := BasisInverseRows) hm hP.wf
    unfold solveFully
    simp only [h1, bind, Except.bind]
    exact hB.solve hm hP (fun _ _ => trivial) le_rfl h2 h3 h4 h5 hpos hf
  | partially pivots =>
    change solvePartially BasisInverseRows rule.type fuel P pivots ≠ _
    obtain ⟨t, ctr, h1, h2, h3, h4, h5⟩ := newPartially_spec (BI := BasisInverseRows) hm hP.wf hs
    unfold solvePartially
    simp only [h1, bind, Except.bind]
    exact hB.solve hm hP (fun _ _ => trivial) (Nat.sub_le _ _) h2 h3 h4 h5 hpos hf
  | fully pivots =>
    change solveFull BasisInverseRows rule.type fuel P pivots ≠ _
    obtain ⟨basis, -, -, hM, hcols, heq⟩ := solveFull_eq hs
    rw [heq]
    by_cases h0 : m = 0
    · have := carry_fromBasis_zero .rows h0 P basis
      change (Carry.fromBasis P basis : Res (Carry BasisInverseRows m n)) = _ at this
      rw [this]
      simp [bind, Except.bind, panic]
    · obtain ⟨carry, h1, h2⟩ := fromBasis_spec (BI := BasisInverseRows) hm h0 hP.wf hM hcols
      rw [h1]
      exact Bounded.phaseTwo hm (fullStart hP h2) hB.nonArtificial hpos hf

theorem AllBounded.relaxation {inv : InverseName} {rule : RuleName} {P : Provider m n} (hP : P.Ok)
    {start : InitialBasis m n} (hs : StartOk P start) {bound : ℕ}
    (hB : AllBounded rule.type BasisInverseRows P bound)
    {fuel : ℕ} (hpos : 0 < fuel) (hf : bound ≤ fuel) :
    solveRelaxation inv rule fuel P start ≠ .error .outOfFuel := by
  have hrows := hB.rows hP hs hpos hf
  cases inv with
  | rows => exact hrows
  | lu =>
    intro hc
    have := solve_follows rule fuel hP hs
    rw [hc] at this
    exact hrows this

theorem keptLen_le (rows : List (Fin m)) : keptLen rows ≤ m := by
  have := (List.filter_sublist (l := List.finRange m) (p := fun i => i ∉ rows)).length_le
  simpa [keptLen, kept] using this

theorem Bounded.mono {R : ℕ → Type} [PivotRule R] {kind : Kind m N} {rhs : Fin m → ℚ} {a b : ℕ}
    (h : Bounded R BI kind rhs a) (hab : a ≤ b) : Bounded R BI kind rhs b := fun K s j p hk hp =>
  lt_of_lt_of_le (h K s j p hk hp) hab

theorem choose_add_le (n k i : ℕ) : n.choose k ≤ (n + i).choose (k + i) := by
  induction i with
  | zero => exact le_rfl
  | succ i ih =>
    rw [← add_assoc, ← add_assoc, Nat.choose_succ_succ]
    omega

theorem choose_keptLen_le (rows : List (Fin m)) (n : ℕ) : n.choose (keptLen rows) ≤ (m + n).choose m := by
  have hlen := keptLen_le rows
  refine (choose_add_le n (keptLen rows) (m - keptLen rows)).trans ?_
  rw [show keptLen rows + (m - keptLen rows) = m by omega]
  exact Nat.choose_le_choose m (by omega)

theorem firstProfitable_allBounded (P : Provider m n) :
    AllBounded FirstProfitable BI P ((m + n).choose m) := by
  have hpos : 1 ≤ (m + n).choose m := Nat.choose_pos (by omega)
  exact ⟨fun _ _ => (firstProfitable_bounded _ _).mono (max_le hpos (Nat.choose_le_choose m (by omega))),
    (firstProfitable_bounded _ _).mono (max_le hpos (Nat.choose_le_choose m (by omega))),
    fun rows _ => (firstProfitable_bounded _ _).mono (max_le hpos (choose_keptLen_le rows n))⟩

end Relp
