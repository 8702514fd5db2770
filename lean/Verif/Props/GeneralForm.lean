import Verif.Props.MatrixData
import Verif.Proof.FullSolution
import Verif.Model.SolveGeneral

/-!
# Properties of problems in general form (C27 to C30, C43)

`G.toProgram` is the program that the fields of a `GeneralForm` describe. `G.Consistent` says that the
dimensions match and that nothing has been transformed yet; problems made with `new` are consistent
(`new_consistent`). `Recovers G H y x` says that the values `y` of the variables of `H` give the variables
of `G` the values `x`, by the split, shift and flip recorded in `H`.
-/

namespace Relp

namespace GeneralForm

/-- A problem made with `new` from matching parts is consistent. -/
theorem new_consistent (objective : Objective) (constraints : SparseMatrix)
    (types : List ConstraintType) (b : List ℚ) (vars : List Variable) (names : List String)
    (fixedCost : ℚ) (h1 : b.length = types.length) (h2 : constraints.minor = types.length)
    (h3 : constraints.major = vars.length) (h4 : constraints.data.length = vars.length)
    (h5 : ∀ v ∈ constraints.data, SVec.WF v)
    (h6 : ∀ v ∈ constraints.data, ∀ p ∈ v, p.1 < types.length) (h7 : names.length = vars.length)
    (h8 : ∀ v ∈ vars, v.shift = 0 ∧ v.flipped = false) :
    (new objective constraints types b vars names fixedCost).Consistent ∧
    (new objective constraints types b vars names fixedCost).Acyclic := by
  have ho : ∀ o : ℕ, (new objective constraints types b vars names fixedCost).original[o]? =
      (names[o]?).map fun n => (n, .active o) := by
    intro o
    simp only [new, List.getElem?_map, List.getElem?_zipIdx, Option.map_map, zero_add]
    rfl
  refine ⟨⟨h1, h2, h3, h4, h5, h6, by simp [new], fun o j => ?_, fun q hq j k hc => ?_, h8⟩,
    fun _ => 0, by simp, fun o name c cs h => ?_⟩
  · rw [ho]
    simp only [new, Option.map_eq_some_iff, Prod.mk.injEq]
    constructor
    · intro h
      rw [List.getElem?_eq_some_iff] at h
      obtain ⟨hj, rfl⟩ := h
      rw [List.length_range, ← h7] at hj
      simp only [List.getElem_range]
      exact ⟨_, _, List.getElem?_eq_getElem hj, rfl, by simp⟩
    · rintro ⟨name, n, hn, rfl, h⟩
      have hj := (List.getElem?_eq_some_iff.1 hn).1
      rw [h7] at hj
      have : o = j := by simpa using h
      subst this
      rw [List.getElem?_range hj]
  · obtain ⟨o, h⟩ := List.mem_iff_getElem?.1 hq
    rw [ho] at h
    obtain ⟨n, -, rfl⟩ := Option.map_eq_some_iff.1 h
    cases hc
  · rw [ho] at h
    obtain ⟨n, -, h⟩ := Option.map_eq_some_iff.1 h
    cases h

end GeneralForm

open GeneralForm

/-! ### A concrete problem -/

/-- `minimise 5 + x - y + 2 z` with `x + y ≥ -4`, `-6 ≤ x - z ≤ -2`, `x + y + z = 1`, `y ≤ 3`, `x` free,
`1 ≤ z ≤ 7`. -/
def Example.general : GeneralForm :=
  .new .minimize ⟨[[(0, 1), (1, 1), (2, 1)], [(0, 1), (2, 1)], [(1, -1), (2, 1)]], 3, 3⟩
    [.greater, .range 4, .equal] [-4, -2, 1]
    [⟨.continuous, 1, none, none, 0, false⟩, ⟨.continuous, -1, none, some 3, 0, false⟩,
      ⟨.continuous, 2, some 1, some 7, 0, false⟩] ["x", "y", "z"] 5

theorem Example.general_consistent : Example.general.Consistent ∧ Example.general.Acyclic :=
  GeneralForm.new_consistent _ _ _ _ _ _ _ rfl rfl rfl rfl (by decide +kernel) (by decide +kernel) rfl
    (by decide +kernel)

theorem Example.general_proper : Example.general.Proper :=
  ⟨by decide +kernel, fun r hr => by
    have : r = 4 := by simpa [Example.general, GeneralForm.new] using hr
    rw [this]; norm_num⟩

/-! ### C27 -/

/-- **C27.** Standardising does not abort. Every feasible point of the result gives a feasible point of
the problem; every feasible point of the problem is given by a feasible point of the result, by exactly one
if no variable is split; and objective values differ only by the sign of the non-constant part. -/
theorem C27_standardize (G : GeneralForm) (hG : G.Consistent) :
    ∃ H counts, G.standardize = some (H, counts) ∧
      (∀ y x, H.toProgram.Feasible y → Recovers G H y x → G.toProgram.Feasible x) ∧
      (∀ x, G.toProgram.Feasible x → ∃ y, H.toProgram.Feasible y ∧ Recovers G H y x) ∧
      ((∀ v ∈ G.vars, v.lowerBound ≠ none ∨ v.upperBound ≠ none) →
        ∀ y y' x, Recovers G H y x → Recovers G H y' x → y = y') ∧
      ∀ y x, Recovers G H y x →
        match G.objective with
        | .minimize => H.toProgram.objective y = G.toProgram.objective x
        | .maximize => H.toProgram.objective y - H.fixedCost =
            -(G.toProgram.objective x - H.fixedCost) := by
  obtain ⟨H, counts, h1, h2⟩ := standardize_spec hG
  refine ⟨H, counts, h1, fun y x hy hr => h2.sound hG hy hr, fun x hx => h2.onto hG hx,
    fun hb y y' x hr hr' => h2.injective hG ?_ hr hr', fun y x hr => ?_⟩
  · rw [List.eq_nil_iff_forall_not_mem]
    intro j hj
    obtain ⟨v, hv, a1, a2⟩ := (mem_freeIndices hG.major).1 hj
    rcases hb v (List.mem_of_getElem? hv) with h | h
    · exact h a1
    · exact h a2
  · have := h2.objective_eq hG hr
    rw [this]
    split
    next h => rw [h, sign]; ring
    next h => rw [h, sign]; ring

/-- Every point of the result gives values to the variables of the problem. -/
theorem C27_recovers (G : GeneralForm) (hG : G.Consistent) (H : GeneralForm) (counts : Counts)
    (h : G.standardize = some (H, counts)) (y : Fin H.vars.length → ℚ) :
    ∃ x, Recovers G H y x := by
  obtain ⟨H', counts', h1, h2⟩ := standardize_spec hG
  rw [h] at h1
  cases h1
  exact ⟨_, (recovers_iff hG h2 y _).2 fun _ => rfl⟩

/-- The result has non-negative right-hand sides and variables, and its constraints are sorted by type,
such that `derive_matrix_data` accepts it: it gives a valid problem in tabular form with the same feasible
points, and the same objective without the constant. -/
theorem C27_tabular (G : GeneralForm) (hG : G.Consistent) (hp : G.Proper) (H : GeneralForm)
    (counts : Counts) (h : G.standardize = some (H, counts)) :
    H.objective = .minimize ∧ (∀ v ∈ H.vars, v.lowerBound = some 0) ∧ (∀ x ∈ H.b, 0 ≤ x) ∧
    ∃ M, H.deriveMatrixData counts = some M ∧ M.Valid ∧ ∃ hv : M.vars = H.vars,
      (∀ y, M.toProgram.Feasible y ↔ H.toProgram.Feasible fun j => y (j.cast (by rw [hv]))) ∧
      ∀ y, H.toProgram.objective (fun j => y (j.cast (by rw [hv]))) =
        H.fixedCost + M.toProgram.objective y := by
  obtain ⟨H', counts', h1, h2⟩ := standardize_spec hG
  rw [h] at h1
  cases h1
  obtain ⟨r, d1, d2, d3, d4, d5⟩ := h2.derive
  exact ⟨h2.objective, h2.lower, h2.bNonneg hp, _, d1, d3 hp, rfl, d4, d5⟩

/-- The example has a feasible point, so that the standardised problem has one. -/
theorem Example.general_feasible : Example.general.toProgram.Feasible ![-1, 1, 1] := by
  refine ⟨by decide +kernel, fun j => ?_⟩
  fin_cases j
  · exact ⟨fun l hl => (by cases hl), fun u hu => (by cases hu)⟩
  · refine ⟨fun l hl => (by cases hl), fun u hu => ?_⟩
    have : 3 = u := Option.some.inj hu
    rw [← this]
    exact (by decide +kernel : (1 : ℚ) ≤ 3)
  · refine ⟨fun l hl => ?_, fun u hu => ?_⟩
    · have : 1 = l := Option.some.inj hl
      rw [← this]
      exact (by decide +kernel : (1 : ℚ) ≤ 1)
    · have : 7 = u := Option.some.inj hu
      rw [← this]
      exact (by decide +kernel : (1 : ℚ) ≤ 7)

example : ∃ H counts, Example.general.standardize = some (H, counts) ∧
    ∃ y, H.toProgram.Feasible y ∧ Recovers Example.general H y ![-1, 1, 1] := by
  obtain ⟨H, counts, h1, -, h2, -⟩ := C27_standardize _ Example.general_consistent.1
  exact ⟨H, counts, h1, h2 _ Example.general_feasible⟩

/-! ### C28 -/

/-- **C28.** The full solution of a feasible point of the standardised problem is a feasible point of the
problem, with one value per original variable, where the values of removed variables follow from the
others. -/
theorem C28_full_solution (G : GeneralForm) (hG : G.Consistent) (ha : G.Acyclic) (H : GeneralForm)
    (counts : Counts) (h : G.standardize = some (H, counts)) (y : Fin H.vars.length → ℚ)
    (hy : H.toProgram.Feasible y) (reduced : SparseVector)
    (hr : Spec.Represents reduced (List.ofFn y)) :
    ∃ solution x, H.computeFullSolution reduced = some solution ∧ G.toProgram.Feasible x ∧
      G.Extends x solution.values := by
  obtain ⟨H', counts', h1, h2⟩ := standardize_spec hG
  rw [h] at h1
  cases h1
  obtain ⟨solution, x, s1, s2, s3, -⟩ := computeFull_spec hG ha h2 hr
  exact ⟨solution, x, s1, h2.sound hG hy s2, s3⟩

/-- The hypotheses are met: a feasible point of the standardised example gives a feasible point of the
example. -/
example : ∃ (H : GeneralForm) (reduced : SparseVector) (solution : Solution) (x : Fin 3 → ℚ),
    H.computeFullSolution reduced = some solution ∧ Example.general.toProgram.Feasible x ∧
      Example.general.Extends x solution.values := by
  obtain ⟨H, counts, h1, -, h2, -⟩ := C27_standardize _ Example.general_consistent.1
  obtain ⟨y, hy, -⟩ := h2 _ Example.general_feasible
  obtain ⟨solution, x, h⟩ := C28_full_solution _ Example.general_consistent.1 Example.general_consistent.2 H counts
    h1 y hy _ (Spec.Represents.fromList _)
  exact ⟨H, _, solution, x, h⟩

/-! ### C29 -/

/-- **C29, for minimisation.** The reported objective value is the objective at the reported values. -/
theorem C29_objective_value_partial (G : GeneralForm) (hG : G.Consistent) (ha : G.Acyclic)
    (hmin : G.objective = .minimize) (H : GeneralForm)
    (counts : Counts) (h : G.standardize = some (H, counts)) (y : Fin H.vars.length → ℚ)
    (reduced : SparseVector) (hr : Spec.Represents reduced (List.ofFn y)) :
    ∃ solution x, H.computeFullSolution reduced = some solution ∧ G.Extends x solution.values ∧
      solution.objectiveValue = G.toProgram.objective x := by
  obtain ⟨H', counts', h1, h2⟩ := standardize_spec hG
  rw [h] at h1
  cases h1
  obtain ⟨solution, x, s1, s2, s3, s4⟩ := computeFull_spec hG ha h2 hr
  refine ⟨solution, x, s1, s3, ?_⟩
  rw [s4, h2.objective_eq hG s2, hmin, sign]
  ring

/-- The hypotheses are met. -/
example : ∃ (H : GeneralForm) (reduced : SparseVector) (solution : Solution) (x : Fin 3 → ℚ),
    H.computeFullSolution reduced = some solution ∧ Example.general.Extends x solution.values ∧
      solution.objectiveValue = Example.general.toProgram.objective x := by
  obtain ⟨H, counts, h1, -, h2, -⟩ := C27_standardize _ Example.general_consistent.1
  obtain ⟨y, -, -⟩ := h2 _ Example.general_feasible
  obtain ⟨solution, x, h⟩ := C29_objective_value_partial _ Example.general_consistent.1 Example.general_consistent.2
    rfl H counts h1 y _ (Spec.Represents.fromList _)
  exact ⟨H, _, solution, x, h⟩

/-- For maximisation, the sign of the difference to the objective value at the bounds is wrong. -/
theorem C29_maximize_value (G : GeneralForm) (hG : G.Consistent) (ha : G.Acyclic)
    (hmax : G.objective = .maximize) (H : GeneralForm)
    (counts : Counts) (h : G.standardize = some (H, counts)) (y : Fin H.vars.length → ℚ)
    (reduced : SparseVector) (hr : Spec.Represents reduced (List.ofFn y)) :
    ∃ solution x, H.computeFullSolution reduced = some solution ∧ G.Extends x solution.values ∧
      solution.objectiveValue =
        2 * G.toProgram.objective G.basePoint - G.toProgram.objective x := by
  obtain ⟨H', counts', h1, h2⟩ := standardize_spec hG
  rw [h] at h1
  cases h1
  obtain ⟨solution, x, s1, s2, s3, s4⟩ := computeFull_spec hG ha h2 hr
  refine ⟨solution, x, s1, s3, ?_⟩
  rw [s4, h2.objective_eq hG s2, h2.fixedCost_eq, hmax, sign]
  ring

/-- `maximise x + y` with `x + y ≤ 5`, `1 ≤ x ≤ 3`, `y ≥ 0`. -/
def Example.maximization : GeneralForm :=
  .new .maximize ⟨[[(0, 1)], [(0, 1)]], 2, 1⟩ [.less] [5]
    [⟨.continuous, 1, some 1, some 3, 0, false⟩, ⟨.continuous, 1, some 0, none, 0, false⟩]
    ["x", "y"] 0

/-- The property is false for maximisation: the whole chain of calls reports the value -3 for an optimal
point of value 5, of a consistent problem with proper bounds. -/
theorem C29_maximize_violated :
    Example.maximization.Consistent ∧ Example.maximization.Proper ∧
    Example.maximization.solve .lu .steepestDescentAlongObjective 30 =
      .ok (.finiteOptimum ⟨-3, [("x", 1), ("y", 4)]⟩) ∧
    Example.maximization.toProgram.objective ![1, 4] = 5 := by
  refine ⟨(new_consistent _ _ _ _ _ _ _ rfl rfl rfl rfl (by decide +kernel) (by decide +kernel) rfl
    (by decide +kernel)).1, ⟨by decide +kernel, fun r hr => ?_⟩, by decide +kernel, by decide +kernel⟩
  simp [Example.maximization, GeneralForm.new] at hr

/-! ### C30 -/

/-- `minimise x + y` with `x + y ≤ 5`, `1 ≤ x ≤ 0`, `y ≥ 0`. -/
def Example.crossing : GeneralForm :=
  .new .minimize ⟨[[(0, 1)], [(0, 1)]], 2, 1⟩ [.less] [5]
    [⟨.continuous, 1, some 1, some 0, 0, false⟩, ⟨.continuous, 1, some 0, none, 0, false⟩]
    ["x", "y"] 0

/-- **C30 is false** without `presolve`: a consistent problem in which a variable has an upper bound below
its lower bound has no feasible point, and an optimum is reported for it. -/
theorem C30_crossing_bounds_violated :
    Example.crossing.Consistent ∧ Example.crossing.toProgram.Infeasible ∧
    ∀ inv : InverseName, Example.crossing.solve inv .steepestDescentAlongObjective 30 =
      .ok (.finiteOptimum ⟨1, [("x", 1), ("y", 0)]⟩) := by
  refine ⟨(new_consistent _ _ _ _ _ _ _ rfl rfl rfl rfl (by decide +kernel) (by decide +kernel) rfl
    (by decide +kernel)).1, fun x hx => ?_, fun inv => ?_⟩
  · obtain ⟨h1, h2⟩ := hx.2 ⟨0, by decide⟩
    have h3 : (1 : ℚ) ≤ _ := h1 1 rfl
    have h4 : _ ≤ (0 : ℚ) := h2 0 rfl
    linarith
  · cases inv <;> decide +kernel

/-! ### C43 -/

section Chain

variable (G : GeneralForm) (hG : G.Consistent) (hp : G.Proper)
  (inv : InverseName) (rule : RuleName) (fuel : ℕ)

/-- The chain for a consistent problem does not abort outside of `solve_relaxation`, and ends by solving
the problem in tabular form. -/
theorem solve_eq {G : GeneralForm} (hG : G.Consistent) : ∃ H counts M,
    G.standardize = some (H, counts) ∧ H.deriveMatrixData counts = some M ∧
    Standardized G H counts ∧ G.solve inv rule fuel = solveStandardized inv rule fuel H M := by
  obtain ⟨H, counts, h1, h2⟩ := standardize_spec hG
  obtain ⟨r, d1, -⟩ := h2.derive
  refine ⟨H, counts, _, h1, d1, h2, ?_⟩
  simp only [GeneralForm.solve, h1, orPanic, bind, Except.bind, d1]

include hG hp

/-- **C29**, exactly which objective value is reported with an optimum: the right one for minimisation, twice
the objective value at the bounds minus the right one for maximisation. -/
theorem C29_reported_value (solution : Solution)
    (hz : G.solve inv rule fuel = .ok (.finiteOptimum solution)) (ha : G.Acyclic) :
    ∃ x, G.Best x ∧ G.Extends x solution.values ∧
      solution.objectiveValue = match G.objective with
        | .minimize => G.toProgram.objective x
        | .maximize => 2 * G.toProgram.objective G.basePoint - G.toProgram.objective x := by
  obtain ⟨H, counts, M, h, hM, h2, he⟩ := solve_eq inv rule fuel hG
  rw [hz, solveStandardized] at he
  obtain ⟨r, d1, d2, d3, d4, d5⟩ := h2.derive
  rw [hM] at d1
  cases d1
  cases hs : solveRelaxation inv rule fuel (H.toMatrixData counts r).toProvider
    (H.toMatrixData counts r).initialBasis with
  | error e => rw [hs] at he; cases he
  | ok a =>
    rw [hs] at he
    cases a with
    | infeasible => cases he
    | unbounded => cases he
    | finiteOptimum z =>
      obtain ⟨y, ⟨y1, y2⟩, y3⟩ := C24_optimum inv rule fuel _ (d3 hp) z hs
      obtain ⟨solution', x, s1, s2, s3, s4⟩ := computeFull_spec hG ha h2 y3
      simp only [bind, Except.bind, s1, orPanic, pure, Except.pure, Except.ok.injEq,
        LinearProgramType.finiteOptimum.injEq] at he
      subst he
      have e1 := h2.objective_eq hG s2
      refine ⟨x, ⟨h2.sound hG ((d4 y).1 y1) s2, fun x' hx' => ?_⟩, s3, ?_⟩
      · obtain ⟨y', hy', hr'⟩ := h2.onto hG hx'
        have h3 := y2 y' ((d4 y').2 hy')
        have e2 := h2.objective_eq hG hr'
        have e3 := d5 y
        have e4 := d5 y'
        split
        next hd => rw [hd, sign] at e1 e2; linarith
        next hd => rw [hd, sign] at e1 e2; linarith
      · rw [s4, e1, h2.fixedCost_eq]
        cases G.objective <;> simp only [sign] <;> ring

/-- So for maximisation the reported value is right exactly if the optimal value is the one at the bounds. -/
theorem C29_maximize_iff (solution : Solution) (hmax : G.objective = .maximize)
    (hz : G.solve inv rule fuel = .ok (.finiteOptimum solution)) (ha : G.Acyclic) :
    ∃ x, G.Best x ∧ G.Extends x solution.values ∧
      (solution.objectiveValue = G.toProgram.objective x ↔
        G.toProgram.objective x = G.toProgram.objective G.basePoint) := by
  obtain ⟨x, h1, h2, h3⟩ := C29_reported_value G hG hp inv rule fuel solution hz ha
  refine ⟨x, h1, h2, ?_⟩
  rw [h3, hmax]
  constructor <;> intro h <;> linarith

/-- **C43.** Standardising a problem, solving the result, and mapping the solution back gives values of
the original variables that form an optimal solution of the original problem, in the direction of its
objective. -/
theorem C43_optimum (solution : Solution)
    (hz : G.solve inv rule fuel = .ok (.finiteOptimum solution)) (ha : G.Acyclic) :
    ∃ x, G.Best x ∧ G.Extends x solution.values ∧
      (G.objective = .minimize → solution.objectiveValue = G.toProgram.objective x) := by
  obtain ⟨x, h1, h2, h3⟩ := C29_reported_value G hG hp inv rule fuel solution hz ha
  exact ⟨x, h1, h2, fun hd => by rw [h3, hd]⟩

/-- If `Unbounded` is reported, the original problem is unbounded. -/
theorem C43_unbounded (hz : G.solve inv rule fuel = .ok .unbounded) : G.Unbounded := by
  obtain ⟨H, counts, M, h, hM, h2, he⟩ := solve_eq inv rule fuel hG
  rw [hz, solveStandardized] at he
  obtain ⟨r, d1, d2, d3, d4, d5⟩ := h2.derive
  rw [hM] at d1
  cases d1
  cases hs : solveRelaxation inv rule fuel (H.toMatrixData counts r).toProvider
    (H.toMatrixData counts r).initialBasis with
  | error e => rw [hs] at he; cases he
  | ok a =>
    rw [hs] at he
    cases a with
    | infeasible => cases he
    | finiteOptimum z =>
      simp only [bind, Except.bind] at he
      cases hf : orPanic (H.computeFullSolution
        ((H.toMatrixData counts r).reconstructSolution z.toVector)) with
      | error e => rw [hf] at he; cases he
      | ok s => rw [hf] at he; cases he
    | unbounded =>
      have hu := C24_unbounded inv rule fuel _ (d3 hp) hs
      intro bound
      cases hd : G.objective with
      | minimize =>
        obtain ⟨y, y1, y2⟩ := hu (bound - H.fixedCost)
        obtain ⟨x, hx⟩ := C27_recovers G hG H counts h y
        refine ⟨x, h2.sound hG ((d4 y).1 y1) hx, ?_⟩
        have e1 := h2.objective_eq hG hx
        have e3 := d5 y
        rw [hd, sign] at e1
        change _ < _
        linarith
      | maximize =>
        obtain ⟨y, y1, y2⟩ := hu (H.fixedCost - bound)
        obtain ⟨x, hx⟩ := C27_recovers G hG H counts h y
        refine ⟨x, h2.sound hG ((d4 y).1 y1) hx, ?_⟩
        have e1 := h2.objective_eq hG hx
        have e3 := d5 y
        rw [hd, sign] at e1
        change _ < _
        linarith

/-- If `Infeasible` is reported, the original problem is infeasible. -/
theorem C43_infeasible (hz : G.solve inv rule fuel = .ok .infeasible) : G.toProgram.Infeasible := by
  obtain ⟨H, counts, M, h, hM, h2, he⟩ := solve_eq inv rule fuel hG
  rw [hz, solveStandardized] at he
  obtain ⟨r, d1, d2, d3, d4, d5⟩ := h2.derive
  rw [hM] at d1
  cases d1
  cases hs : solveRelaxation inv rule fuel (H.toMatrixData counts r).toProvider
    (H.toMatrixData counts r).initialBasis with
  | error e => rw [hs] at he; cases he
  | ok a =>
    rw [hs] at he
    cases a with
    | unbounded => cases he
    | finiteOptimum z =>
      simp only [bind, Except.bind] at he
      cases hf : orPanic (H.computeFullSolution
        ((H.toMatrixData counts r).reconstructSolution z.toVector)) with
      | error e => rw [hf] at he; cases he
      | ok s => rw [hf] at he; cases he
    | infeasible =>
      intro x hx
      obtain ⟨y, hy, -⟩ := h2.onto hG hx
      exact C24_infeasible inv rule fuel _ (d3 hp) hs y ((d4 y).2 hy)

/-- With the row-wise basis inverse, the chain never aborts. -/
theorem C43_never_panics (ha : G.Acyclic) (p : Panic) :
    G.solve .rows rule fuel ≠ .error (.panic p) := by
  obtain ⟨H, counts, M, h, hM, h2, he⟩ := solve_eq .rows rule fuel hG
  rw [he, solveStandardized]
  obtain ⟨r, d1, d2, d3, d4, d5⟩ := h2.derive
  rw [hM] at d1
  cases d1
  cases hs : solveRelaxation .rows rule fuel (H.toMatrixData counts r).toProvider
    (H.toMatrixData counts r).initialBasis with
  | error e =>
    intro hc
    simp only [bind, Except.bind, Except.error.injEq] at hc
    rw [hc] at hs
    exact C24_never_panics rule fuel _ (d3 hp) p hs
  | ok a =>
    cases a with
    | unbounded => simp [bind, Except.bind, pure, Except.pure]
    | infeasible => simp [bind, Except.bind, pure, Except.pure]
    | finiteOptimum z =>
      obtain ⟨y, -, y3⟩ := C24_optimum .rows rule fuel _ (d3 hp) z hs
      obtain ⟨solution', x, s1, -⟩ := computeFull_spec hG ha h2 y3
      simp [bind, Except.bind, pure, Except.pure, s1, orPanic]

end Chain

/-- The chain on the example. -/
theorem Example.general_solved : Example.general.solve .lu .steepestDescentAlongObjective 30 =
    .ok (.finiteOptimum ⟨1, [("x", -3), ("y", 3), ("z", 1)]⟩) := by decide +kernel

example : ∃ x, Example.general.Best x ∧
    Example.general.Extends x [("x", -3), ("y", 3), ("z", 1)] ∧
    (Example.general.objective = .minimize → 1 = Example.general.toProgram.objective x) :=
  C43_optimum _ Example.general_consistent.1 Example.general_proper _ _ _ _ Example.general_solved
    Example.general_consistent.2

/-- The value that is reported for `maximization`. The objective value at the bounds is 1. -/
example : ∃ x, Example.maximization.Best x ∧ Example.maximization.Extends x [("x", 1), ("y", 4)] ∧
    (-3 : ℚ) = 2 * 1 - Example.maximization.toProgram.objective x := by
  have hb : Example.maximization.toProgram.objective Example.maximization.basePoint = 1 := by decide +kernel
  have ha : Example.maximization.Acyclic := (new_consistent _ _ _ _ _ _ _ rfl rfl rfl rfl (by decide +kernel)
    (by decide +kernel) rfl (by decide +kernel)).2
  obtain ⟨x, h1, h2, h3⟩ := C29_reported_value _ C29_maximize_violated.1 C29_maximize_violated.2.1 .lu
    .steepestDescentAlongObjective 30 _ C29_maximize_violated.2.2.1 ha
  exact ⟨x, h1, h2, by rw [← hb]; exact h3⟩

end Relp
