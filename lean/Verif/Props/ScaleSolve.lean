import Verif.Proof.ScaleSolve
import Verif.Props.Scale
import Verif.Props.Termination

/-!
# Solving with scaling (C63)
-/

namespace Relp

namespace GeneralForm

open Scaling (Factorization)

/-- A problem in tabular form, found by scaling a standardised problem. -/
structure Scaled (G H : GeneralForm) (counts : Counts) (s : Scaling) (K : GeneralForm) (M : MatrixData) : Prop where
  standardized : Standardized G H counts
  positive : s.Positive H
  back : s.scaleBack K = some H
  derived : K.deriveMatrixData counts = some M
  valid : M.Valid
  length : K.vars.length = H.vars.length
  vars : M.vars.length = H.vars.length
  feasible : ∀ y : Fin M.vars.length → ℚ, M.toProgram.Feasible y ↔
    H.toProgram.Feasible fun j => y (j.cast vars.symm) * s.column j
  objective : ∀ y : Fin M.vars.length → ℚ, M.toProgram.objective y =
    s.costFactor * (H.toProgram.objective (fun j => y (j.cast vars.symm) * s.column j) - H.fixedCost)

section

variable {G : GeneralForm} (hG : G.Consistent) (hp : G.Proper) (factorize : ℚ → Factorization)
  (hf : ∀ v, ∀ q ∈ factorize v, 0 < q.1) (scaleFuel : ℕ) (inv : InverseName) (rule : RuleName) (fuel : ℕ)

include hG hp hf

/-- The chain ends with an error of the computation of a scaling, or by solving a scaled problem. -/
theorem solveScaled_eq : ∃ H counts, G.standardize = some (H, counts) ∧ H.Shaped ∧
    ((∃ e, Scaling.compute factorize scaleFuel H = .error e ∧
      G.solveScaled factorize scaleFuel inv rule fuel = scaleResult (.error e)) ∨
    ∃ K s M, Scaling.compute factorize scaleFuel H = .ok (K, s) ∧ Scaled G H counts s K M ∧
      G.solveScaled factorize scaleFuel inv rule fuel = solveScaledForm inv rule fuel s K M) := by
  obtain ⟨H, counts, h1, h2⟩ := standardize_spec hG
  have ht := h2.tabular
  refine ⟨H, counts, h1, ht.toShaped, ?_⟩
  cases hc : Scaling.compute factorize scaleFuel H with
  | error e =>
    refine Or.inl ⟨e, rfl, ?_⟩
    cases e <;> simp only [solveScaled, h1, orPanic, bind, Except.bind, hc, scaleResult, Relp.panic]
  | ok r =>
    obtain ⟨K, s⟩ := r
    obtain ⟨p1, p2⟩ := Scaling.compute_positive (fun v _ => hf v) ht.toShaped hc
    have e : s.scale H = some (s.scaled (· * ·) (· / ·) H) :=
      Scaling.apply_eq ht.dataLength ht.bLength ht.inRange p1.rows p1.columns
    rw [e] at p2
    cases p2
    have hK := Scaling.scaled_tabular p1 ht
    obtain ⟨r, d1, d2, d3, d4⟩ := hK.derive
    obtain ⟨hn, hprog⟩ := Scaling.scaled_program p1 ht.toShaped
    refine Or.inr ⟨_, s, _, rfl, ⟨h2, p1, ?_, d1, d2 (Scaling.scaled_signs p1 (h2.signs hp)), hn, hn, fun y => ?_,
      fun y => ?_⟩, ?_⟩
    · unfold Scaling.scaleBack
      rw [Scaling.apply_eq hK.dataLength hK.bLength hK.inRange (by simpa [Scaling.scaled] using p1.rows)
        (by simpa [Scaling.scaled] using p1.columns), Scaling.scaled_back p1]
    · exact (d3 y).trans (hprog y).1
    · have e1 := d4 y
      have e2 := (hprog y).2
      rw [e1] at e2
      have e3 : (s.scaled (· * ·) (· / ·) H).fixedCost = H.fixedCost := rfl
      rw [e3, add_sub_cancel_left] at e2
      exact e2
    · simp only [solveScaled, h1, orPanic, bind, Except.bind, hc, scaleResult, d1]

end

namespace Scaled

variable {G H : GeneralForm} {counts : Counts} {s : Scaling} {K : GeneralForm} {M : MatrixData}

/-- Each point is scaled back from one. -/
theorem exists_point (h : Scaled G H counts s K M) (x : Fin H.vars.length → ℚ) :
    ∃ y : Fin M.vars.length → ℚ, (fun j : Fin H.vars.length => y (j.cast h.vars.symm) * s.column j) = x :=
  ⟨fun j => x (j.cast h.vars) / s.column j,
    funext fun j => div_mul_cancel₀ _ (ne_of_gt (h.positive.column_pos j))⟩

theorem answer (h : Scaled G H counts s K M) (hG : G.Consistent) (ha : G.Acyclic) {inv : InverseName}
    {rule : RuleName} {fuel : ℕ} {z : SVec (Fin M.nrColumns)}
    (hz : solveRelaxation inv rule fuel M.toProvider M.initialBasis = .ok (.finiteOptimum z)) :
    ∃ solution x, solveScaledForm inv rule fuel s K M = .ok (.finiteOptimum solution) ∧ G.Best x ∧
      G.Extends x solution.values ∧
      (G.objective = .minimize → solution.objectiveValue = G.toProgram.objective x) := by
  obtain ⟨y, ⟨y1, y2⟩, y3⟩ := C24_optimum inv rule fuel _ h.valid z hz
  have y3' : Spec.Represents (M.reconstructSolution z.toVector)
      (List.ofFn fun j : Fin H.vars.length => y (j.cast h.vars.symm)) := by
    have : List.ofFn y = List.ofFn fun j : Fin H.vars.length => y (j.cast h.vars.symm) := by
      refine List.ext_getElem? fun i => ?_
      rw [List.getElem?_ofFn, List.getElem?_ofFn]
      by_cases hi : i < H.vars.length
      · rw [dif_pos hi, dif_pos (lt_of_lt_of_eq hi h.vars.symm)]
        rfl
      · rw [dif_neg hi, dif_neg (by rw [h.vars]; exact hi)]
    rwa [← this]
  obtain ⟨data, b1, b2⟩ := Scaling.scaleBack_represents h.positive y3'
  obtain ⟨solution, x, s1, s2, s3, s4⟩ := h.standardized.best hG ha ((h.feasible y).1 y1) (fun x' hx' => by
    obtain ⟨y', rfl⟩ := h.exists_point x'
    have := y2 y' ((h.feasible y').2 hx')
    rw [h.objective, h.objective, mul_le_mul_iff_right₀ h.positive.cost, sub_le_sub_iff_right] at this
    exact this) b2
  refine ⟨solution, x, ?_, s2, s3, s4⟩
  simp only [solveScaledForm, hz, bind, Except.bind, b1, h.back, orPanic, s1]
  rfl

end Scaled

section

variable {G : GeneralForm} (hG : G.Consistent) (hp : G.Proper) (factorize : ℚ → Factorization)
  (hf : ∀ v, ∀ q ∈ factorize v, 0 < q.1) (scaleFuel : ℕ) (inv : InverseName) (rule : RuleName) (fuel : ℕ)

include hG hp hf

/-- **C63.** Standardising a problem, scaling the result, solving it, scaling back solution and problem and
computing the values of all variables gives an optimal solution of the original problem. -/
theorem C63_optimum (ha : G.Acyclic) (solution : Solution)
    (hz : G.solveScaled factorize scaleFuel inv rule fuel = .ok (.finiteOptimum solution)) :
    ∃ x, G.Best x ∧ G.Extends x solution.values ∧
      (G.objective = .minimize → solution.objectiveValue = G.toProgram.objective x) := by
  obtain ⟨H, counts, -, -, ⟨e, -, he⟩ | ⟨K, s, M, -, h, he⟩⟩ :=
    solveScaled_eq hG hp factorize hf scaleFuel inv rule fuel
  · rw [he] at hz
    cases e <;> cases hz
  rw [he] at hz
  cases hs : solveRelaxation inv rule fuel M.toProvider M.initialBasis with
  | error e =>
    simp only [solveScaledForm, hs, bind, Except.bind] at hz
    cases hz
  | ok a =>
    cases a with
    | infeasible =>
      simp only [solveScaledForm, hs, bind, Except.bind] at hz
      cases hz
    | unbounded =>
      simp only [solveScaledForm, hs, bind, Except.bind] at hz
      cases hz
    | finiteOptimum z =>
      obtain ⟨solution', x, h1, h2⟩ := h.answer hG ha hs
      rw [hz] at h1
      cases h1
      exact ⟨x, h2⟩

/-- **C63.** If `Unbounded` is reported, the original problem is unbounded. -/
theorem C63_unbounded (ha : G.Acyclic)
    (hz : G.solveScaled factorize scaleFuel inv rule fuel = .ok .unbounded) : G.Unbounded := by
  obtain ⟨H, counts, -, -, ⟨e, -, he⟩ | ⟨K, s, M, -, h, he⟩⟩ :=
    solveScaled_eq hG hp factorize hf scaleFuel inv rule fuel
  · rw [he] at hz
    cases e <;> cases hz
  rw [he] at hz
  cases hs : solveRelaxation inv rule fuel M.toProvider M.initialBasis with
  | error e =>
    simp only [solveScaledForm, hs, bind, Except.bind] at hz
    cases hz
  | ok a =>
    cases a with
    | infeasible =>
      simp only [solveScaledForm, hs, bind, Except.bind] at hz
      cases hz
    | unbounded =>
      refine h.standardized.unbounded hG fun bound => ?_
      obtain ⟨y, y1, y2⟩ := C24_unbounded inv rule fuel _ h.valid hs (s.costFactor * (bound - H.fixedCost))
      rw [h.objective, mul_lt_mul_iff_right₀ h.positive.cost, sub_lt_sub_iff_right] at y2
      exact ⟨_, (h.feasible y).1 y1, y2⟩
    | finiteOptimum z =>
      obtain ⟨solution', x, h1, h2⟩ := h.answer hG ha hs
      rw [hz] at h1
      cases h1

/-- **C63.** If `Infeasible` is reported, the original problem is infeasible. -/
theorem C63_infeasible (ha : G.Acyclic)
    (hz : G.solveScaled factorize scaleFuel inv rule fuel = .ok .infeasible) : G.toProgram.Infeasible := by
  obtain ⟨H, counts, -, -, ⟨e, -, he⟩ | ⟨K, s, M, -, h, he⟩⟩ :=
    solveScaled_eq hG hp factorize hf scaleFuel inv rule fuel
  · rw [he] at hz
    cases e <;> cases hz
  rw [he] at hz
  cases hs : solveRelaxation inv rule fuel M.toProvider M.initialBasis with
  | error e =>
    simp only [solveScaledForm, hs, bind, Except.bind] at hz
    cases hz
  | ok a =>
    cases a with
    | infeasible =>
      intro x hx
      obtain ⟨x', hx', -⟩ := h.standardized.onto hG hx
      obtain ⟨y, rfl⟩ := h.exists_point x'
      exact C24_infeasible inv rule fuel _ h.valid hs y ((h.feasible y).2 hx')
    | unbounded =>
      simp only [solveScaledForm, hs, bind, Except.bind] at hz
      cases hz
    | finiteOptimum z =>
      obtain ⟨solution', x, h1, h2⟩ := h.answer hG ha hs
      rw [hz] at h1
      cases h1

omit hp in
/-- **C63**, partial: a problem with proper bounds is solved: there is one answer, for all sufficient numbers of
iterations, and it is right. Missing: standardised problems without variables or without a number that has
a factor, for which the computation of a scaling aborts (C53). -/
theorem C63_answers_partial (hp : G.Proper) (ha : G.Acyclic)
    (hn : ∀ H counts, G.standardize = some (H, counts) →
      H.vars ≠ [] ∧ ∃ v, H.Number v ∧ factorize v ≠ []) :
    ∃ N result, (∀ scaleFuel ≥ N, ∀ fuel ≥ N,
        G.solveScaled factorize scaleFuel .rows .firstProfitable fuel = .ok result) ∧
      match result with
      | .infeasible => G.toProgram.Infeasible
      | .unbounded => G.Unbounded
      | .finiteOptimum solution => ∃ x, G.Best x ∧ G.Extends x solution.values ∧
        (G.objective = .minimize → solution.objectiveValue = G.toProgram.objective x) := by
  obtain ⟨H, counts, h1, h2, -⟩ := solveScaled_eq hG hp factorize hf 0 .rows .firstProfitable 0
  obtain ⟨n1, n2⟩ := hn H counts h1
  obtain ⟨N₁, K, s, c1, -⟩ := Scaling.compute_ends factorize (fun v _ => hf v) h2 n1 n2
  obtain ⟨H', counts', h1', -, ⟨e, he, -⟩ | ⟨K', s', M, hc, h, -⟩⟩ :=
    solveScaled_eq hG hp factorize hf N₁ .rows .firstProfitable 0
  · cases h1.symm.trans h1'
    rw [c1 N₁ le_rfl] at he
    cases he
  cases h1.symm.trans h1'
  cases hc.symm.trans (c1 N₁ le_rfl)
  obtain ⟨N₂, a, hN⟩ := C07_matrixData_answers M h.valid
  have hform : ∃ result, ∀ fuel ≥ N₂, solveScaledForm .rows .firstProfitable fuel s K M = .ok result := by
    cases a with
    | infeasible =>
      exact ⟨.infeasible, fun fuel hfuel => by
        simp only [solveScaledForm, hN fuel hfuel, bind, Except.bind]; rfl⟩
    | unbounded =>
      exact ⟨.unbounded, fun fuel hfuel => by
        simp only [solveScaledForm, hN fuel hfuel, bind, Except.bind]; rfl⟩
    | finiteOptimum z =>
      obtain ⟨solution, x, h3, -⟩ := h.answer hG ha (hN N₂ le_rfl)
      refine ⟨.finiteOptimum solution, fun fuel hfuel => ?_⟩
      rw [← h3]
      simp only [solveScaledForm, hN fuel hfuel, hN N₂ le_rfl]
  obtain ⟨result, hr⟩ := hform
  have key : ∀ scaleFuel ≥ max N₁ N₂, ∀ fuel ≥ max N₁ N₂,
      G.solveScaled factorize scaleFuel .rows .firstProfitable fuel = .ok result := by
    intro scaleFuel hs fuel hfuel
    obtain ⟨H', counts', h1', -, ⟨e, he, -⟩ | ⟨K', s', M', hc', h', he⟩⟩ :=
      solveScaled_eq hG hp factorize hf scaleFuel .rows .firstProfitable fuel
    · cases h1.symm.trans h1'
      rw [c1 scaleFuel (le_of_max_le_left hs)] at he
      cases he
    cases h1.symm.trans h1'
    cases hc'.symm.trans (c1 scaleFuel (le_of_max_le_left hs))
    have hM : K.deriveMatrixData counts = some M := h.derived
    have hM' : K.deriveMatrixData counts = some M' := h'.derived
    cases hM.symm.trans hM'
    rw [he]
    exact hr fuel (le_of_max_le_right hfuel)
  refine ⟨_, result, key, ?_⟩
  have hk := key _ le_rfl _ le_rfl
  cases result with
  | infeasible => exact C63_infeasible hG hp factorize hf _ _ _ _ ha hk
  | unbounded => exact C63_unbounded hG hp factorize hf _ _ _ _ ha hk
  | finiteOptimum solution => exact C63_optimum hG hp factorize hf _ _ _ _ ha solution hk

end

end GeneralForm

/-- `minimise 323 x + 19 y`, `19 x + 2 y = 29`, `5/19 ≤ x ≤ 7/19`, `11 ≤ y ≤ 13`. -/
def Scaling.Example.shifted : GeneralForm :=
  Relp.Example.problem [[(0, 19)], [(0, 2)]] [.equal] [29]
    [Relp.Example.vari 323 (some (5 / 19)) (some (7 / 19)), Relp.Example.vari 19 (some 11) (some 13)] ["x", "y"]

namespace Scaling.Example

theorem shifted_consistent : shifted.Consistent ∧ shifted.Acyclic :=
  GeneralForm.new_consistent _ _ _ _ _ _ _ rfl rfl rfl rfl
    (by decide +kernel) (by decide +kernel) rfl (by decide +kernel)

theorem shifted_proper : shifted.Proper :=
  ⟨by decide +kernel, fun r hr => by simp [shifted, Relp.Example.problem, GeneralForm.new] at hr⟩

/-- The optimum is found; the first column is scaled by nineteen. -/
example : ∃ x, shifted.Best x ∧ shifted.Extends x [("x", 5 / 19), ("y", 12)] ∧
    (shifted.objective = .minimize → 313 = shifted.toProgram.objective x) :=
  GeneralForm.C63_optimum shifted_consistent.1 shifted_proper factorize factorize_pos 100 .lu
    .steepestDescentAlongObjective 30 shifted_consistent.2 ⟨313, [("x", 5 / 19), ("y", 12)]⟩ (by decide +kernel)

/-- It is also found with the other basis inverse and rule. -/
example : ∃ N result, ∀ scaleFuel ≥ N, ∀ fuel ≥ N,
    shifted.solveScaled factorize scaleFuel .rows .firstProfitable fuel = .ok result := by
  obtain ⟨N, result, h, -⟩ := GeneralForm.C63_answers_partial shifted_consistent.1 factorize factorize_pos
    shifted_proper shifted_consistent.2 (fun H counts h => by
      have e : (shifted.standardize).map (fun r => (decide (r.1.vars = []), r.1.vars.map (·.cost))) =
          some (false, [323, 19]) := by decide +kernel
      rw [h, Option.map_some, Option.some.injEq, Prod.mk.injEq] at e
      refine ⟨by simpa using e.1, 19, ⟨by decide +kernel, Or.inr (Or.inl ?_)⟩, by decide +kernel⟩
      have hm : (19 : ℚ) ∈ H.vars.map (·.cost) := by rw [e.2]; decide +kernel
      obtain ⟨v, hv, hc⟩ := List.mem_map.1 hm
      exact ⟨v, hv, Or.inl hc.symm⟩)
  exact ⟨N, result, h⟩

/-- The problem of C53 is found to be infeasible. -/
example : problem.toProgram.Infeasible :=
  GeneralForm.C63_infeasible problem_consistent
    ⟨by decide +kernel, fun r hr => by simp [problem, Relp.Example.problem, GeneralForm.new] at hr⟩
    factorize factorize_pos 100 .rows .firstProfitable 30
    (GeneralForm.new_consistent _ _ _ _ _ _ _ rfl rfl rfl rfl
      (by decide +kernel) (by decide +kernel) rfl (by decide +kernel)).2 (by decide +kernel)

/-- `minimise -2 x + 3 y`, `4 x - y ≥ 6`, `x ≥ 1`, `y ≥ 0`. -/
def descending : GeneralForm :=
  Relp.Example.problem [[(0, 4)], [(0, -1)]] [.greater] [6]
    [Relp.Example.vari (-2) (some 1) none, Relp.Example.vari 3 (some 0) none] ["x", "y"]

example : descending.Unbounded :=
  GeneralForm.C63_unbounded (GeneralForm.new_consistent _ _ _ _ _ _ _ rfl rfl rfl rfl
      (by decide +kernel) (by decide +kernel) rfl (by decide +kernel)).1
    ⟨by decide +kernel, fun r hr => by simp [descending, Relp.Example.problem, GeneralForm.new] at hr⟩
    factorize factorize_pos 100 .rows .firstProfitable 30
    (GeneralForm.new_consistent _ _ _ _ _ _ _ rfl rfl rfl rfl
      (by decide +kernel) (by decide +kernel) rfl (by decide +kernel)).2 (by decide +kernel)

end Scaling.Example

/-- **C63** (violated in the other order): a problem that is scaled before it is standardised, "before
subsequent algorithms are applied" as the documentation asks for, gets wrong values, as the shift of a variable
is not scaled back: they violate a bound. -/
theorem C63_not_before_standardizing :
    Scaling.Example.shifted.Consistent ∧ Scaling.Example.shifted.Proper ∧
    Scaling.Example.shifted.scaleAndSolve Scaling.Example.factorize 100 .rows .steepestDescentAlongObjective 30 =
      .ok (.finiteOptimum ⟨313, [("x", 5 / 361), ("y", 12)]⟩) ∧
    ¬Scaling.Example.shifted.toProgram.Feasible ![5 / 361, 12] := by
  refine ⟨Scaling.Example.shifted_consistent.1, Scaling.Example.shifted_proper, by decide +kernel, fun h => ?_⟩
  have := (h.2 ⟨0, by decide⟩).1 (5 / 19) rfl
  have e : ¬(5 / 19 : ℚ) ≤ 5 / 361 := by norm_num
  exact e this

end Relp
