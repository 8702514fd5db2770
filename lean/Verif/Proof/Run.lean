import Verif.Model.Run
import Verif.Proof.SimSolve

/-! # Invariants of the states that a run passes through -/

set_option linter.unusedSectionVars false

namespace Relp

open Matrix BasisInverse LawfulBasisInverse Tableau LawfulRule

instance InverseName.instLawful : (inv : InverseName) → LawfulBasisInverse inv.type
  | .rows => inferInstanceAs (LawfulBasisInverse BasisInverseRows)
  | .lu => inferInstanceAs (LawfulBasisInverse LU)

instance RuleName.instLawful : (rule : RuleName) → LawfulRule rule.type
  | .firstProfitable => inferInstanceAs (LawfulRule FirstProfitable)
  | .firstProfitableWithMemory => inferInstanceAs (LawfulRule FirstProfitableWithMemory)
  | .steepestDescentAlongVariable => inferInstanceAs (LawfulRule SteepestDescentAlongVariable)
  | .steepestDescentAlongObjective => inferInstanceAs (LawfulRule SteepestDescentAlongObjective)

instance RuleName.instSim : (rule : RuleName) → SimRule rule.type
  | .firstProfitable => inferInstanceAs (SimRule FirstProfitable)
  | .firstProfitableWithMemory => inferInstanceAs (SimRule FirstProfitableWithMemory)
  | .steepestDescentAlongVariable => inferInstanceAs (SimRule SteepestDescentAlongVariable)
  | .steepestDescentAlongObjective => inferInstanceAs (SimRule SteepestDescentAlongObjective)

variable {BI : ℕ → Type} [BasisInverse BI] [LawfulBasisInverse BI]
variable {R : ℕ → Type} [PivotRule R] [LawfulRule R] {m n N : ℕ}

/-- What holds at the head of the loop. -/
structure StateInv (rhs : Fin m → ℚ) (s : R N × Tableau BI m N) (M : Matrix (Fin m) (Fin m) ℚ) :
    Prop where
  exact : s.2.Exact rhs M
  nonneg : ∀ i, 0 ≤ s.2.carry.b i
  rule : RInv s.1 s.2 M

theorem Iteration.inv (hm : OkDim BI m) {rhs : Fin m → ℚ} {s s' : R N × Tableau BI m N}
    (h : Iteration s s') {M} (hs : StateInv rhs s M) :
    ∃ M' j p, StateInv rhs s' M' ∧ PivotStep rhs (s.2, M) (s'.2, M') j p := by
  obtain ⟨h1, h2, h3, h4, h5⟩ := h
  rcases pivot_cases hm hs.exact hs.nonneg hs.rule with ⟨q, e1, -⟩ | ⟨j, q, i, e1, -, e2, e3, -⟩ |
    ⟨j, q, i, p, u, c, q', e1, e2, e3, e4, e5, -, e6, e7⟩
  · rw [e1] at h1; cases h1
  · rw [e1] at h1; cases h1
    rw [e2] at h2; cases h2
    rw [e3] at h3; cases h3
  · rw [e1] at h1; cases h1
    rw [e2] at h2; cases h2
    rw [e3] at h3; cases h3
    rw [e4] at h4; cases h4
    rw [e5] at h5; cases h5
    exact ⟨_, _, _, ⟨e6.exact', e6.nonneg', e7⟩, e6⟩

theorem PhaseOneState.inv (hm : OkDim BI m) {P : Provider m n} (hP : P.Ok) {start}
    (hstart : StartOk P start) {nrArtificial : ℕ}
    {s : R (nrArtificial + n) × Tableau BI m (nrArtificial + n)} (h : PhaseOneState P start s) :
    ∃ (columnToRow : Fin nrArtificial → Fin m) (M : Matrix (Fin m) (Fin m) ℚ),
      s.2.kind = artificialKind P columnToRow ∧ ArtInv s.2 ∧ StateInv P.rhs s M := by
  induction h with
  | fully new rule =>
    obtain ⟨t, h1, h2, h3, h4, h5⟩ := newFully_spec (BI := BI) hm hP.wf
    rw [new] at h1; cases h1
    obtain ⟨r, hr, hinv⟩ := LawfulRule.new_ok (R := R) hm h2
    rw [rule] at hr; cases hr
    exact ⟨_, _, h5, h3, h2, by rw [h4]; exact hP.rhs_nonneg, hinv⟩
  | partially new rule =>
    obtain ⟨t, ctr, h1, h2, h3, h4, h5⟩ := newPartially_spec (BI := BI) hm hP.wf hstart
    rw [new] at h1; cases h1
    obtain ⟨r, hr, hinv⟩ := LawfulRule.new_ok (R := R) hm h2
    rw [rule] at hr; cases hr
    exact ⟨_, _, h5, h3, h2, by rw [h4]; exact hP.rhs_nonneg, hinv⟩
  | step before iteration ih =>
    obtain ⟨ctr, M, h1, h2, h3⟩ := ih hstart
    obtain ⟨M', j, p, h4, h5⟩ := iteration.inv hm h3
    exact ⟨ctr, M', h5.kind_eq.trans h1, h2.update h5.real h5.kind_eq h5.basis_eq, h4⟩

theorem PhaseOneResult.inv (hm : OkDim BI m) {P : Provider m n} (hP : P.Ok) {start}
    (hstart : StartOk P start) {nrArtificial : ℕ} {rank : Rank m}
    {carry : Carry BI m (nrArtificial + n)} {basis : Finset (Fin (nrArtificial + n))}
    (h : PhaseOneResult R P start (.feasible rank carry basis)) :
    ∃ (t : Tableau BI m (nrArtificial + n)) (columnToRow : Fin nrArtificial → Fin m)
      (M : Matrix (Fin m) (Fin m) ℚ) (rows : List (Fin m)), t.kind = artificialKind P columnToRow ∧
      t.carry = carry ∧ t.basisColumns = basis ∧ PhaseOneEnd P.rhs t M rows ∧
      rank = if rows = [] then .full else .deficient rows := by
  cases h with
  | mk state select exit =>
    obtain ⟨ctr, M, h1, h2, h3⟩ := state.inv hm hP hstart
    rcases phaseOneExit_spec hm h3.exact h3.nonneg h2 with ⟨e1, -⟩ | ⟨u, M', rows, e1, e2, e3⟩
    · rw [e1] at exit; cases exit
    · rcases e3 with ⟨e3, rfl⟩ | ⟨e3, e4⟩
      · rw [e3] at exit; cases exit
        exact ⟨u, ctr, M', [], e1.trans h1, rfl, rfl, e2, rfl⟩
      · rw [e3] at exit; cases exit
        exact ⟨u, ctr, M', rows, e1.trans h1, rfl, rfl, e2, by rw [if_neg e4]⟩

/-- The provider of phase two: a redundant set of rows is deleted. -/
inductive PhaseTwoProvider (P : Provider m n) : {m' : ℕ} → Provider m' n → Prop
  | same : PhaseTwoProvider P P
  | removed {rows : List (Fin m)} (h : P.toLP.Redundant rows) :
      PhaseTwoProvider P (P.removeRows rows)

theorem RemovalState.inv (hm : OkDim BI m) {P : Provider m n} (hP : P.Ok) {start}
    (hstart : StartOk P start) {nrArtificial : ℕ} {t : Tableau BI m (nrArtificial + n)} {l}
    (h : RemovalState R P start t l) :
    ∃ (columnToRow : Fin nrArtificial → Fin m) (M : Matrix (Fin m) (Fin m) ℚ),
      t.kind = artificialKind P columnToRow ∧ ArtInv t ∧ t.Exact P.rhs M ∧
      (∀ i, 0 ≤ t.carry.b i) ∧
      (∀ q ∈ l, t.carry.basisIndices q.1 = q.2 ∧ (q.2 : ℕ) < t.kind.start) ∧
      (l.map (·.1)).Nodup ∧
      (∀ i, (t.carry.basisIndices i : ℕ) < t.kind.start → t.carry.b i = 0) := by
  induction h with
  | @begin _ _ t state select feasible =>
    obtain ⟨ctr, M, h1, h2, h3⟩ := state.inv hm hP hstart
    refine ⟨ctr, M, h1, h2, h3.exact, h3.nonneg, ?_, ?_, ?_⟩
    · intro q hq
      unfold artificialBasisColumns at hq
      rw [List.mem_filter, List.mem_map] at hq
      obtain ⟨⟨i, -, rfl⟩, hq⟩ := hq
      exact ⟨rfl, by simpa using hq⟩
    · have hs : (t.artificialBasisColumns.map (·.1)).Sublist (List.finRange m) := by
        unfold artificialBasisColumns
        have := (List.filter_sublist (p := fun p : Fin m × Fin _ => decide ((p.2 : ℕ) < t.kind.start))
          (l := (List.finRange m).map fun i => (i, t.carry.basisIndices i))).map (·.1)
        rw [List.map_map] at this
        simpa [Function.comp_def] using this
      exact (List.nodup_finRange m).sublist hs
    · exact fun i hi => h2.b_zero h3.exact h3.nonneg feasible i hi
  | @step t t' row artificial rest removed before step ih =>
    obtain ⟨ctr, M, h1, h2, h3, h4, h5, h6, h7⟩ := ih
    have hpa := h5 (row, artificial) (by simp)
    dsimp only at hpa
    obtain ⟨rfl, hlt⟩ := hpa
    rw [List.map_cons, List.nodup_cons] at h6
    rcases removeArtificialStep_spec hm h3 hlt (h7 row hlt) with ⟨e1, -⟩ |
      ⟨u, j, e1, e2, e3, e4, e5, e6, e7⟩
    · rw [e1] at step
      cases step
      exact ⟨ctr, M, h1, h2, h3, h4, fun q hq => h5 q (by simp [hq]), h6.2, h7⟩
    · rw [e1] at step
      cases step
      refine ⟨ctr, _, e5.trans h1, h2.update e2 e5 e6, e4, by rw [e7]; exact h4, ?_, h6.2, ?_⟩
      · intro q hq
        have hne : q.1 ≠ row := fun he => h6.1 (he ▸ List.mem_map.2 ⟨q, hq, rfl⟩)
        rw [e5, e6, Function.update_of_ne hne]
        exact h5 q (by simp [hq])
      · intro i hi
        rw [e7]
        rw [e5, e6] at hi
        by_cases hip : i = row
        · subst hip; exact h7 i hlt
        · rw [Function.update_of_ne hip] at hi
          exact h7 i hi

/-! ### The relations describe the runs -/

/-- What ends a run of phase two. -/
def EndsWith (s : R N × Tableau BI m N) : OptimizationResult N → Prop
  | .finiteOptimum x => (∃ r', PivotRule.select s.1 s.2 = .ok (none, r')) ∧ x = s.2.currentBfs
  | .unbounded => ∃ j cost r' info, PivotRule.select s.1 s.2 = .ok (some (j, cost), r') ∧
      s.2.generateColumn j = .ok info ∧ s.2.selectPrimalPivotRow (infoColumn info) = none
  | .infeasible => False

omit [LawfulBasisInverse BI] [LawfulRule R] in
theorem phaseTwoLoop_run {fuel : ℕ} {r : R N} {t : Tableau BI m N} {res}
    (h : phaseTwoLoop fuel r t = .ok res) :
    ∃ s', Relation.ReflTransGen Iteration (r, t) s' ∧ EndsWith s' res := by
  induction fuel generalizing r t with
  | zero => cases h
  | succ fuel ih =>
    rw [phaseTwoLoop] at h
    obtain ⟨⟨sel, r'⟩, h1, h⟩ := bind_eq_ok h
    cases sel with
    | none =>
      cases h
      exact ⟨_, .refl, ⟨r', h1⟩, rfl⟩
    | some p =>
      obtain ⟨j, cost⟩ := p
      dsimp only at h
      obtain ⟨info, h2, h⟩ := bind_eq_ok h
      cases h3 : t.selectPrimalPivotRow (infoColumn info) with
      | none =>
        rw [h3] at h
        cases h
        exact ⟨_, .refl, j, cost, r', info, h1, h2, h3⟩
      | some p =>
        rw [h3] at h
        dsimp only at h
        obtain ⟨⟨t', change⟩, h4, h⟩ := bind_eq_ok h
        dsimp only at h
        obtain ⟨r'', h5, h⟩ := bind_eq_ok h
        obtain ⟨s', g1, g2⟩ := ih h
        exact ⟨s', .head (.mk h1 h2 h3 h4 h5) g1, g2⟩

omit [LawfulBasisInverse BI] [LawfulRule R] in
theorem phaseOneLoop_run {fuel : ℕ} {r : R N} {t : Tableau BI m N} {f}
    (h : phaseOneLoop fuel r t = .ok f) :
    ∃ s' r', Relation.ReflTransGen Iteration (r, t) s' ∧
      PivotRule.select s'.1 s'.2 = .ok (none, r') ∧ phaseOneExit s'.2 = .ok f := by
  induction fuel generalizing r t with
  | zero => cases h
  | succ fuel ih =>
    rw [phaseOneLoop] at h
    obtain ⟨⟨sel, r'⟩, h1, h⟩ := bind_eq_ok h
    cases sel with
    | none => exact ⟨_, r', .refl, h1, h⟩
    | some p =>
      obtain ⟨j, cost⟩ := p
      dsimp only at h
      obtain ⟨info, h2, h⟩ := bind_eq_ok h
      cases h3 : t.selectPrimalPivotRow (infoColumn info) with
      | none => rw [h3] at h; cases h
      | some p =>
        rw [h3] at h
        dsimp only at h
        obtain ⟨⟨t', change⟩, h4, h⟩ := bind_eq_ok h
        dsimp only at h
        obtain ⟨r'', h5, h⟩ := bind_eq_ok h
        obtain ⟨s', q, g1, g2⟩ := ih h
        exact ⟨s', q, .head (.mk h1 h2 h3 h4 h5) g1, g2⟩

section

omit [LawfulBasisInverse BI] [LawfulRule R]

theorem PhaseOneState.steps {P : Provider m n} {start} {nrArtificial : ℕ}
    {s s' : R (nrArtificial + n) × Tableau BI m (nrArtificial + n)} (h : PhaseOneState P start s)
    (hs : Relation.ReflTransGen Iteration s s') : PhaseOneState P start s' := by
  induction hs with
  | refl => exact h
  | tail _ h2 ih => exact ih.step h2

theorem PhaseTwoState.steps {P : Provider m n} {start} {m' : ℕ} {Q : Provider m' n}
    {s s' : R n × Tableau BI m' n} (h : PhaseTwoState P start Q s)
    (hs : Relation.ReflTransGen Iteration s s') : PhaseTwoState P start Q s' := by
  induction hs with
  | refl => exact h
  | tail _ h2 ih => exact ih.step h2

/-- How a run ends: in phase one, or in a state of phase two. -/
def RunEnds (BI : ℕ → Type) [BasisInverse BI] (R : ℕ → Type) [PivotRule R] (P : Provider m n)
    (start : InitialBasis m n) (res : OptimizationResult n) : Prop :=
  (res = .infeasible ∧ ∃ nrArtificial, PhaseOneResult (BI := BI) R P start
    (.infeasible : Feasibility BI m (nrArtificial + n))) ∨
  ∃ (m' : ℕ) (Q : Provider m' n) (s : R n × Tableau BI m' n),
    PhaseTwoState P start Q s ∧ EndsWith s res

theorem phaseTwo_run {fuel : ℕ} {P : Provider m n} {start} {m' : ℕ} {Q : Provider m' n}
    {t : Tableau BI m' n} {res} (h : phaseTwo R fuel t = .ok res)
    (hs : ∀ r, PivotRule.new t = .ok r → PhaseTwoState (R := R) P start Q (r, t)) :
    RunEnds BI R P start res := by
  unfold phaseTwo at h
  obtain ⟨r, h1, h⟩ := bind_eq_ok h
  obtain ⟨s', h2, h3⟩ := phaseTwoLoop_run h
  exact Or.inr ⟨m', Q, s', (hs r h1).steps h2, h3⟩

theorem solveAfterPhaseOne_run {fuel : ℕ} {P : Provider m n} {start} {nrArtificial : ℕ}
    {t : Tableau BI m (nrArtificial + n)} {res}
    (h : (do let f ← phaseOne R fuel t; solveAfterPhaseOne R fuel P f) = .ok res)
    (hs : ∀ r, PivotRule.new t = .ok r → PhaseOneState (R := R) P start (r, t)) :
    RunEnds BI R P start res := by
  obtain ⟨f, h1, h⟩ := bind_eq_ok h
  unfold phaseOne at h1
  obtain ⟨r, h0, h1⟩ := bind_eq_ok h1
  obtain ⟨s', r', h2, h3, h4⟩ := phaseOneLoop_run h1
  have hres : PhaseOneResult R P start f := ⟨(hs r h0).steps h2, h3, h4⟩
  match f, hres, h with
  | .infeasible, hres, h =>
    cases h
    exact Or.inl ⟨rfl, nrArtificial, hres⟩
  | .feasible .full carry basis, hres, h =>
    unfold solveAfterPhaseOne at h
    obtain ⟨t', h5, h⟩ := bind_eq_ok h
    exact phaseTwo_run h fun r hr => .full hres h5 hr
  | .feasible (.deficient (row :: rows)) carry basis, hres, h =>
    unfold solveAfterPhaseOne at h
    obtain ⟨t', h5, h⟩ := bind_eq_ok h
    exact phaseTwo_run h fun r hr => .deficient hres h5 hr
  | .feasible (.deficient []) carry basis, .mk h1 h2 h3, h =>
    exfalso
    unfold phaseOneExit at h3
    split_ifs at h3
    · obtain ⟨⟨u, rows⟩, h6, h7⟩ := bind_eq_ok h3
      dsimp only at h7
      split_ifs at h7 with h8
      · cases h7
      · cases h7
        simp at h8
    · cases h3
    · cases h3

theorem phaseOneResult_fully {fuel : ℕ} {P : Provider m n} {t : Tableau BI m (m + n)} {f}
    (hnew : newFully P = .ok t) (h : phaseOne R fuel t = .ok f) : PhaseOneResult R P .none f := by
  unfold phaseOne at h
  obtain ⟨r, h0, h1⟩ := bind_eq_ok h
  obtain ⟨s', r', h2, h3, h4⟩ := phaseOneLoop_run h1
  exact ⟨(PhaseOneState.fully hnew h0).steps h2, h3, h4⟩

theorem phaseOneResult_partially {fuel : ℕ} {P : Provider m n} {pivots : List (Fin m × Fin n)}
    {t : Tableau BI m (m - pivots.length + n)} {f} (hnew : newPartially P pivots = .ok t)
    (h : phaseOne R fuel t = .ok f) : PhaseOneResult R P (.partially pivots) f := by
  unfold phaseOne at h
  obtain ⟨r, h0, h1⟩ := bind_eq_ok h
  obtain ⟨s', r', h2, h3, h4⟩ := phaseOneLoop_run h1
  exact ⟨(PhaseOneState.partially hnew h0).steps h2, h3, h4⟩

/-- Every run that returns a result ends in a state of the relations. -/
theorem solveWith_run {fuel : ℕ} {P : Provider m n} {start : InitialBasis m n} {res}
    (h : solveWith BI R fuel P start = .ok res) : RunEnds BI R P start res := by
  cases start with
  | none =>
    change solveFully BI R fuel P = _ at h
    unfold solveFully at h
    obtain ⟨t, h1, h⟩ := bind_eq_ok h
    exact solveAfterPhaseOne_run h fun r hr => .fully h1 hr
  | partially pivots =>
    change solvePartially BI R fuel P pivots = _ at h
    unfold solvePartially at h
    obtain ⟨t, h1, h⟩ := bind_eq_ok h
    exact solveAfterPhaseOne_run h fun r hr => .partially h1 hr
  | fully pivots =>
    change solveFull BI R fuel P pivots = _ at h
    unfold solveFull at h
    dsimp only at h
    split_ifs at h with hlen
    · obtain ⟨carry, h1, h⟩ := bind_eq_ok h
      exact phaseTwo_run h fun r hr => .known rfl hlen h1 hr
    · cases h

end

end Relp
