import Verif.Proof.Pivoting
import Verif.Props.Solve

/-!
# Properties of every iteration (C10 to C12)

`PhaseOneState P start (r, t)` says that a run on the provider `P` is at the head of the loop of
phase one with pivot rule state `r` and tableau `t`; `PhaseTwoState P start Q (r, t)` the same for
phase two, where `Q` is the problem that phase two works with. `Iteration s s'` says that an iteration
of the loop leads from `s` to `s'`. The two relations describe the runs: see `runs_are_described`.

The properties are stated in terms of the linear programs `P.phaseOneLP columnToRow` (phase one, with
an artificial variable for each of the rows `columnToRow k`) and `Q.toLP` (phase two), and the list of
basis columns `t.carry.basisIndices`. `inv.Supports m` is `True` for the row-wise representation, and
`2 ≤ m` for the LU decomposition.
-/

namespace Relp

open Matrix Tableau

variable {m n : ℕ}

/-- Every result comes from a state of the relations: `Infeasible` from phase one, an optimum from a
state of phase two without profitable column (it is the basic solution of that state), and
`Unbounded` from a state of phase two in which the selected column has no pivot row. -/
theorem runs_are_described (inv : InverseName) (rule : RuleName) (fuel : ℕ) (P : Provider m n)
    (start : InitialBasis m n) (result : OptimizationResult n)
    (h : solveRelaxation inv rule fuel P start = .ok result) :
    RunEnds inv.type rule.type P start result :=
  solveWith_run h

/-! ### Concrete states, which meet the hypotheses -/

namespace Example

/-- Phase one of the example starts with objective value 14, and an iteration lowers it to 2. -/
theorem optimum_phase_one : ∃ (r r' : SteepestDescentAlongObjective (2 + 4))
    (t t' : Tableau InverseName.lu.type 2 (2 + 4)), PhaseOneState optimum .none (r, t) ∧
    Iteration (r, t) (r', t') ∧ t.objectiveFunctionValue = 14 ∧ t'.objectiveFunctionValue = 2 := by
  have h : (do
      let t ← (Tableau.newFully optimum : Res (Tableau InverseName.lu.type 2 (2 + 4)))
      let r ← (PivotRule.new t : Res (SteepestDescentAlongObjective (2 + 4)))
      let (selected, r') ← PivotRule.select r t
      match selected with
      | none => pure false
      | some (j, cost) => do
        let info ← t.generateColumn j
        match t.selectPrimalPivotRow (BasisInverse.infoColumn info) with
        | none => pure false
        | some p => do
          let (t', change) ← t.bringIntoBasis j p info cost
          let _ ← PivotRule.afterUpdate r' change t'
          pure (decide (t.objectiveFunctionValue = 14 ∧ t'.objectiveFunctionValue = 2)))
      = (.ok true : Res Bool) := by decide +kernel
  obtain ⟨t, h1, h⟩ := bind_eq_ok h
  obtain ⟨r, h2, h⟩ := bind_eq_ok h
  obtain ⟨⟨sel, r'⟩, h3, h⟩ := bind_eq_ok h
  cases sel with
  | none => cases h
  | some q =>
    obtain ⟨j, cost⟩ := q
    dsimp only at h
    obtain ⟨info, h4, h⟩ := bind_eq_ok h
    cases h5 : t.selectPrimalPivotRow (BasisInverse.infoColumn info) with
    | none => rw [h5] at h; cases h
    | some p =>
      rw [h5] at h
      dsimp only at h
      obtain ⟨⟨t', change⟩, h6, h⟩ := bind_eq_ok h
      dsimp only at h
      obtain ⟨r'', h7, h⟩ := bind_eq_ok h
      injection h with h
      rw [decide_eq_true_eq] at h
      exact ⟨r, r'', t, t', .fully h1 h2, .mk h3 h4 h5 h6 h7, h⟩

/-- Phase two of the example reaches the optimum. -/
theorem optimum_phase_two : ∃ (m' : ℕ) (Q : Provider m' 4)
    (s : RuleName.steepestDescentAlongVariable.type 4 × Tableau InverseName.rows.type m' 4),
    PhaseTwoState optimum (.fully [(1, 3), (0, 2)]) Q s ∧ s.2.currentBfs = [(0, 4), (1, 2)] := by
  have h : solveRelaxation .rows .steepestDescentAlongVariable 10 optimum
    (.fully [(1, 3), (0, 2)]) = .ok (.finiteOptimum [(0, 4), (1, 2)]) := by decide +kernel
  rcases runs_are_described _ _ _ _ _ _ h with ⟨h1, -⟩ | ⟨m', Q, s, h1, h2⟩
  · cases h1
  · exact ⟨m', Q, s, h1, h2.2.symm⟩

theorem hlen : (List.insertionSort (fun p q : Fin 2 × Fin 4 => p.1 ≤ q.1) [(1, 3), (0, 2)]).length
    = 2 := by decide +kernel

/-- Phase two of the example starts with a profitable column. -/
theorem optimum_phase_two_start : ∃ (r r' : SteepestDescentAlongObjective 4)
    (t : Tableau InverseName.lu.type 2 4) (j : Fin 4) (d : ℚ),
    PhaseTwoState optimum (.fully [(1, 3), (0, 2)]) optimum (r, t) ∧
    PivotRule.select r t = .ok (some (j, d), r') := by
  have h : (do
      let carry ← (Carry.fromBasis optimum (fun i => ((List.insertionSort
        (fun p q : Fin 2 × Fin 4 => p.1 ≤ q.1) [(1, 3), (0, 2)]).get (i.cast hlen.symm)).2) :
        Res (Carry InverseName.lu.type 2 4))
      let r ← (PivotRule.new (⟨carry, ([(1, 3), (0, 2)].map (·.2)).toFinset,
        Tableau.nonArtificialKind optimum⟩ : Tableau InverseName.lu.type 2 4) :
        Res (SteepestDescentAlongObjective 4))
      let (selected, _) ← PivotRule.select r (⟨carry, ([(1, 3), (0, 2)].map (·.2)).toFinset,
        Tableau.nonArtificialKind optimum⟩ : Tableau InverseName.lu.type 2 4)
      pure selected.isSome) = (.ok true : Res Bool) := by decide +kernel
  obtain ⟨carry, h1, h⟩ := bind_eq_ok h
  obtain ⟨r, h2, h⟩ := bind_eq_ok h
  obtain ⟨⟨sel, r'⟩, h3, h⟩ := bind_eq_ok h
  cases sel with
  | none => cases h
  | some q => exact ⟨r, r', _, q.1, q.2, .known rfl hlen h1 h2, h3⟩

end Example

/-! ### C10 -/

/-- **C10, phase one.** At every iteration, the tracked objective value is the sum of the artificial
variables in the current solution, this solution is the (non-negative) basic solution of the current
basis, and an iteration does not increase the objective value. -/
theorem C10_objective_phase_one (inv : InverseName) (rule : RuleName) (P : Provider m n)
    (hP : P.Ok) (start : InitialBasis m n) (hs : StartOk P start) (hm : inv.Supports m)
    {nrArtificial : ℕ} (r : rule.type (nrArtificial + n))
    (t : Tableau inv.type m (nrArtificial + n)) (h : PhaseOneState P start (r, t)) :
    t.objectiveFunctionValue = ∑ k : Fin nrArtificial, SVec.val t.currentBfs (Fin.castAdd n k) ∧
    (∃ columnToRow, (P.phaseOneLP columnToRow).BasicSolution t.carry.basisIndices
      (SVec.val t.currentBfs)) ∧
    (∀ j, 0 ≤ SVec.val t.currentBfs j) ∧
    ∀ r' t', Iteration (r, t) (r', t') → t'.objectiveFunctionValue ≤ t.objectiveFunctionValue := by
  obtain ⟨ctr, M, h1, h2, h3⟩ := h.inv hm.okDim hP hs
  have hex := h3.exact
  dsimp only at h1 hex
  refine ⟨?_, ⟨ctr, ?_⟩, ?_, ?_⟩
  · rw [hex.objective_val, lp_phaseOne h1]
    unfold Spec.LP.objective dotProduct
    rw [Fin.sum_univ_add]
    simp [Provider.phaseOneLP]
  · rw [← lp_phaseOne h1]
    exact hex.basicSolution
  · intro j
    rw [val_currentBfs]
    exact bfs_nonneg t h3.nonneg j
  · intro r' t' hi
    obtain ⟨M', j, p, -, h5⟩ := hi.inv hm.okDim h3
    exact h5.objective_le

/-- **C10, removal of artificial variables.** Throughout the removal of the artificial variables from
the basis, which ends phase one, the tracked objective value and the sum of the artificial variables
in the current solution are zero. -/
theorem C10_objective_removal (inv : InverseName) (rule : RuleName) (P : Provider m n)
    (hP : P.Ok) (start : InitialBasis m n) (hs : StartOk P start) (hm : inv.Supports m)
    {nrArtificial : ℕ} (t : Tableau inv.type m (nrArtificial + n))
    (todo : List (Fin m × Fin (nrArtificial + n))) (h : RemovalState rule.type P start t todo) :
    t.objectiveFunctionValue = 0 ∧
    ∑ k : Fin nrArtificial, SVec.val t.currentBfs (Fin.castAdd n k) = 0 ∧
    (∃ columnToRow, (P.phaseOneLP columnToRow).BasicSolution t.carry.basisIndices
      (SVec.val t.currentBfs)) ∧
    ∀ j, 0 ≤ SVec.val t.currentBfs j := by
  obtain ⟨ctr, M, h1, h2, hex, h4, -, -, h7⟩ := h.inv hm.okDim hP hs
  have hsum : ∑ k : Fin nrArtificial, SVec.val t.currentBfs (Fin.castAdd n k)
      = t.objectiveFunctionValue := by
    rw [hex.objective_val, lp_phaseOne h1]
    unfold Spec.LP.objective dotProduct
    rw [Fin.sum_univ_add]
    simp [Provider.phaseOneLP]
  have hzero : t.objectiveFunctionValue = 0 := by
    rw [h2.objective_eq hex]
    refine Finset.sum_eq_zero fun i _ => ?_
    rcases lt_or_ge (t.carry.basisIndices i : ℕ) t.kind.start with hi | hi
    · rw [h7 i hi, mul_zero]
    · rw [basisCost, h2.cost_real _ hi, zero_mul]
  refine ⟨hzero, hsum.trans hzero, ⟨ctr, ?_⟩, fun j => ?_⟩
  · rw [← lp_phaseOne h1]
    exact hex.basicSolution
  · rw [val_currentBfs]
    exact bfs_nonneg t h4 j

/-- **C10, phase two.** At every iteration, the current solution is a feasible point of the given
problem, the tracked objective value is its objective value, and an iteration does not increase it. -/
theorem C10_objective_phase_two (inv : InverseName) (rule : RuleName) (P : Provider m n)
    (hP : P.Ok) (start : InitialBasis m n) (hs : StartOk P start) {m' : ℕ} (hm : inv.Supports m)
    (hm' : inv.Supports m') (Q : Provider m' n) (r : rule.type n) (t : Tableau inv.type m' n)
    (h : PhaseTwoState P start Q (r, t)) :
    P.toLP.Feasible (SVec.val t.currentBfs) ∧
    t.objectiveFunctionValue = P.toLP.objective (SVec.val t.currentBfs) ∧
    Q.toLP.BasicSolution t.carry.basisIndices (SVec.val t.currentBfs) ∧
    ∀ r' t', Iteration (r, t) (r', t') → t'.objectiveFunctionValue ≤ t.objectiveFunctionValue := by
  obtain ⟨hQ, M, h1, h3⟩ := h.inv hP hs hm hm'
  have hex := h3.exact
  dsimp only at h1 hex
  refine ⟨?_, ?_, ?_, ?_⟩
  · rw [← hQ.feasible hP, ← lp_phaseTwo h1]
    have hv : SVec.val t.currentBfs = t.bfs := funext fun j => val_currentBfs t j
    rw [hv]
    exact bfs_feasible hex h3.nonneg
  · rw [hex.objective_val, lp_phaseTwo h1]
    change Q.cost ⬝ᵥ _ = P.cost ⬝ᵥ _
    rw [hQ.cost]
  · rw [← lp_phaseTwo h1]
    exact hex.basicSolution
  · intro r' t' hi
    obtain ⟨M', j, p, -, h5⟩ := hi.inv hm'.okDim h3
    exact h5.objective_le

example : ∃ (r : SteepestDescentAlongObjective (2 + 4)) (t : Tableau InverseName.lu.type 2 (2 + 4)),
    PhaseOneState Example.optimum .none (r, t) ∧
    ∑ k : Fin 2, SVec.val t.currentBfs (Fin.castAdd 4 k) = 14 := by
  obtain ⟨r, r', t, t', h1, h2, h3, -⟩ := Example.optimum_phase_one
  exact ⟨r, t, h1, h3 ▸ (C10_objective_phase_one .lu .steepestDescentAlongObjective _
    Example.optimum_ok .none trivial (le_refl 2) r t h1).1.symm⟩

example : ∃ (m' : ℕ) (t : Tableau InverseName.rows.type m' 4),
    t.objectiveFunctionValue = Example.optimum.toLP.objective (SVec.val [(0, 4), (1, 2)]) := by
  obtain ⟨m', Q, s, h1, h2⟩ := Example.optimum_phase_two
  exact ⟨m', s.2, h2 ▸ (C10_objective_phase_two .rows .steepestDescentAlongVariable _
    Example.optimum_ok (.fully [(1, 3), (0, 2)]) Example.optimum_full trivial trivial Q s.1 s.2 h1).2.1⟩

/-! ### C12 -/

/-- **C12, phase one.** At every iteration, every pivot rule succeeds, and selects a column that is
not artificial, not in the basis and of negative relative cost, together with this cost; or none, and
then there is no such column. -/
theorem C12_selection_phase_one (inv : InverseName) (rule : RuleName) (P : Provider m n)
    (hP : P.Ok) (start : InitialBasis m n) (hs : StartOk P start) (hm : inv.Supports m)
    {nrArtificial : ℕ} (r : rule.type (nrArtificial + n))
    (t : Tableau inv.type m (nrArtificial + n)) (h : PhaseOneState P start (r, t)) :
    ∃ columnToRow selection r', PivotRule.select r t = .ok (selection, r') ∧
      (P.phaseOneLP columnToRow).IsBasis t.carry.basisIndices ∧
      (P.phaseOneLP columnToRow).CorrectChoice t.carry.basisIndices
        (fun j => nrArtificial ≤ (j : ℕ)) selection := by
  obtain ⟨ctr, M, h1, h2, h3⟩ := h.inv hm.okDim hP hs
  have hex := h3.exact
  dsimp only at h1 hex
  obtain ⟨sel, r', h4, h5⟩ := LawfulRule.select_ok hm.okDim hex h3.rule
  refine ⟨ctr, sel, r', h4, ?_, ?_⟩
  · rw [← lp_phaseOne h1]
    exact fun j => ⟨_, hex.coordinates j⟩
  · rw [← lp_phaseOne h1]
    have := hex.correctChoice h5
    rw [show t.kind.start = nrArtificial by rw [h1]; rfl] at this
    exact this

/-- **C12, phase two.** The same in phase two, where no column is artificial. -/
theorem C12_selection_phase_two (inv : InverseName) (rule : RuleName) (P : Provider m n)
    (hP : P.Ok) (start : InitialBasis m n) (hs : StartOk P start) {m' : ℕ} (hm : inv.Supports m)
    (hm' : inv.Supports m') (Q : Provider m' n) (r : rule.type n) (t : Tableau inv.type m' n)
    (h : PhaseTwoState P start Q (r, t)) :
    ∃ selection r', PivotRule.select r t = .ok (selection, r') ∧
      Q.toLP.IsBasis t.carry.basisIndices ∧
      Q.toLP.CorrectChoice t.carry.basisIndices (fun _ => True) selection := by
  obtain ⟨hQ, M, h1, h3⟩ := h.inv hP hs hm hm'
  have hex := h3.exact
  dsimp only at h1 hex
  obtain ⟨sel, r', h4, h5⟩ := LawfulRule.select_ok hm'.okDim hex h3.rule
  refine ⟨sel, r', h4, ?_, ?_⟩
  · rw [← lp_phaseTwo h1]
    exact fun j => ⟨_, hex.coordinates j⟩
  · rw [← lp_phaseTwo h1]
    have := hex.correctChoice h5
    rw [h1] at this
    simpa [nonArtificialKind] using this

example : ∃ (t : Tableau InverseName.lu.type 2 4),
    Example.optimum.toLP.IsBasis t.carry.basisIndices := by
  obtain ⟨r, -, t, -, -, h, -⟩ := Example.optimum_phase_two_start
  obtain ⟨-, -, -, h', -⟩ := C12_selection_phase_two .lu .steepestDescentAlongObjective _
    Example.optimum_ok (.fully [(1, 3), (0, 2)]) Example.optimum_full (le_refl 2) (le_refl 2)
    Example.optimum r t h
  exact ⟨t, h'⟩

/-! ### C11 -/

theorem steepest_choice {m N : ℕ} {inv : InverseName} {t : Tableau inv.type m N}
    {rhs : Fin m → ℚ} {M : Matrix (Fin m) (Fin m) ℚ} (hex : t.Exact rhs M)
    {r r' : SteepestDescentAlongObjective N} (hr : SteepestDescentAlongObjective.GammaExact r.gamma t M)
    {j : Fin N} {d : ℚ} (hsel : PivotRule.select r t = .ok (some (j, d), r')) :
    (t.lp rhs).SteepestChoice t.carry.basisIndices (fun j => t.kind.start ≤ (j : ℕ)) j d := by
  obtain ⟨sel, h1, h2, h3⟩ := SteepestDescentAlongObjective.select_ok hr
  have h4 : PivotRule.select r t = .ok (sel, r) := h1
  rw [hsel] at h4
  injection h4 with h4
  injection h4 with h4 _
  subst h4
  intro j' d' v v' hp hv hv'
  rw [hex.profitable_iff] at hp
  obtain ⟨g1, g2, g3, g4⟩ := hp
  subst g3
  have h5 := h3 (j, d) rfl j' g1 g2 g4
  rw [hex.coordinates_unique hv, hex.coordinates_unique hv']
  obtain ⟨-, -, h6, -⟩ := h2
  subst h6
  simpa [dotProduct, pow_two] using h5

/-- **C11, phase one.** At every iteration, the steepest-edge rule selects a column that maximises
`cost² / (1 + |column in the current basis|²)` among the profitable ones. -/
theorem C11_steepest_edge_phase_one (inv : InverseName) (P : Provider m n)
    (hP : P.Ok) (start : InitialBasis m n) (hs : StartOk P start) (hm : inv.Supports m)
    {nrArtificial : ℕ} (r r' : SteepestDescentAlongObjective (nrArtificial + n))
    (t : Tableau inv.type m (nrArtificial + n)) (h : PhaseOneState P start (r, t))
    (j : Fin (nrArtificial + n)) (d : ℚ) (hsel : PivotRule.select r t = .ok (some (j, d), r')) :
    ∃ columnToRow, (P.phaseOneLP columnToRow).IsBasis t.carry.basisIndices ∧
      (P.phaseOneLP columnToRow).Profitable t.carry.basisIndices
        (fun j => nrArtificial ≤ (j : ℕ)) j d ∧
      (P.phaseOneLP columnToRow).SteepestChoice t.carry.basisIndices
        (fun j => nrArtificial ≤ (j : ℕ)) j d := by
  obtain ⟨ctr, M, h1, h2, h3⟩ := h.inv hm.okDim hP hs
  have hex := h3.exact
  dsimp only at h1 hex
  have hstart : t.kind.start = nrArtificial := by rw [h1]; rfl
  refine ⟨ctr, ?_, ?_, ?_⟩ <;> rw [← lp_phaseOne h1]
  · exact fun j => ⟨_, hex.coordinates j⟩
  · obtain ⟨sel, q, h4, h5⟩ := LawfulRule.select_ok hm.okDim hex h3.rule
    rw [hsel] at h4
    cases h4
    have := hex.correctChoice h5
    rw [hstart] at this
    exact this
  · have := steepest_choice hex h3.rule hsel
    rw [hstart] at this
    exact this

/-- **C11, phase two.** The same in phase two. -/
theorem C11_steepest_edge_phase_two (inv : InverseName) (P : Provider m n)
    (hP : P.Ok) (start : InitialBasis m n) (hs : StartOk P start) {m' : ℕ} (hm : inv.Supports m)
    (hm' : inv.Supports m') (Q : Provider m' n) (r r' : SteepestDescentAlongObjective n)
    (t : Tableau inv.type m' n) (h : PhaseTwoState P start Q (r, t))
    (j : Fin n) (d : ℚ) (hsel : PivotRule.select r t = .ok (some (j, d), r')) :
    Q.toLP.IsBasis t.carry.basisIndices ∧
      Q.toLP.Profitable t.carry.basisIndices (fun _ => True) j d ∧
      Q.toLP.SteepestChoice t.carry.basisIndices (fun _ => True) j d := by
  obtain ⟨hQ, M, h1, h3⟩ := h.inv hP hs hm hm'
  have hex := h3.exact
  dsimp only at h1 hex
  refine ⟨?_, ?_, ?_⟩ <;> rw [← lp_phaseTwo h1]
  · exact fun j => ⟨_, hex.coordinates j⟩
  · obtain ⟨sel, q, h4, h5⟩ := LawfulRule.select_ok hm'.okDim hex h3.rule
    rw [hsel] at h4
    cases h4
    have := hex.correctChoice h5
    rw [h1] at this
    simpa [nonArtificialKind, Spec.LP.CorrectChoice] using this
  · have := steepest_choice hex h3.rule hsel
    rw [h1] at this
    simpa [nonArtificialKind] using this

example : ∃ (t : Tableau InverseName.lu.type 2 4) (j : Fin 4) (d : ℚ),
    Example.optimum.toLP.SteepestChoice t.carry.basisIndices (fun _ => True) j d ∧ d < 0 := by
  obtain ⟨r, r', t, j, d, h, hsel⟩ := Example.optimum_phase_two_start
  obtain ⟨-, h2, h3⟩ := C11_steepest_edge_phase_two .lu _ Example.optimum_ok
    (.fully [(1, 3), (0, 2)]) Example.optimum_full (le_refl 2) (le_refl 2) Example.optimum r r' t h
    j d hsel
  exact ⟨t, j, d, h3, h2.2.2.2⟩

end Relp
