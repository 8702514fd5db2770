import Verif.Proof.ScaleSearch
import Verif.Proof.ScaleCount
import Verif.Proof.PresolveDecide
import Verif.Props.Presolve

/-!
# Properties of scaling (C36, C53, C54)

`s.Positive G` (Spec/Scale.lean) says that the scaling `s` has a positive factor for each row and column of
`G`, and a positive factor for the costs. `s.column j` is the factor of column `j`.
-/

namespace Relp

namespace Scaling

namespace Example

/-- `minimise 323 x + 19 y`, `19 x + 2 y = 3`, `5/19 ≤ x ≤ 7/19`, `11 ≤ y ≤ 13`: the problem of the test
`test_scale_variable` (scale/rational/test.rs:138-177). -/
def problem : GeneralForm :=
  Relp.Example.problem [[(0, 19)], [(0, 2)]] [.equal] [3]
    [Relp.Example.vari 323 (some (5 / 19)) (some (7 / 19)), Relp.Example.vari 19 (some 11) (some 13)] ["x", "y"]

theorem problem_consistent : problem.Consistent :=
  (GeneralForm.new_consistent _ _ _ _ _ _ _ rfl rfl rfl rfl
    (by decide +kernel) (by decide +kernel) rfl (by decide +kernel)).1

/-- What it is scaled to. -/
def grown : GeneralForm :=
  Relp.Example.problem [[(0, 361)], [(0, 2)]] [.equal] [3]
    [Relp.Example.vari 6137 (some (5 / 361)) (some (7 / 361)), Relp.Example.vari 19 (some 11) (some 13)] ["x", "y"]

/-- What it could be scaled to. -/
def shrunk : GeneralForm :=
  Relp.Example.problem [[(0, 1)], [(0, 2)]] [.equal] [3]
    [Relp.Example.vari 17 (some 5) (some 7), Relp.Example.vari 19 (some 11) (some 13)] ["x", "y"]

/-- Factors that are all different. -/
def scaling : Scaling := ⟨1 / 3, [5], [2 / 19, 7]⟩

theorem scaling_positive : scaling.Positive problem :=
  ⟨rfl, rfl, by decide +kernel, by decide +kernel, by decide +kernel⟩

/-- The exponent of `p` in a natural number. -/
def exponent (p : ℕ) : (fuel : ℕ) → ℕ → ℤ
  | 0, _ => 0
  | fuel + 1, n => if n ≠ 0 ∧ n % p = 0 then exponent p fuel (n / p) + 1 else 0

/-- Factorisation with the primes up to nineteen. -/
def factorize (v : ℚ) : Factorization :=
  [2, 3, 5, 7, 11, 13, 17, 19].filterMap fun p =>
    let k := exponent p 20 v.num.natAbs - exponent p 20 v.den
    if k = 0 then none else some (p, k)

theorem factorize_pos (v : ℚ) : ∀ q ∈ factorize v, 0 < q.1 := by
  intro q hq
  obtain ⟨p, hp, e⟩ := List.mem_filterMap.1 hq
  dsimp only at e
  split_ifs at e
  cases e
  have : ∀ p ∈ [2, 3, 5, 7, 11, 13, 17, 19], 0 < p := by decide
  exact this p hp

/-- `minimise x + y + z`, `4 x + 2 y + 6 z = 2`, `3 x + y + z ≤ 1`, `0 ≤ x ≤ 1`, `y, z ≥ 1`. -/
def evenRow : GeneralForm :=
  Relp.Example.problem [[(0, 4), (1, 3)], [(0, 2), (1, 1)], [(0, 6), (1, 1)]] [.equal, .less] [2, 1]
    [Relp.Example.vari 1 (some 0) (some 1), Relp.Example.vari 1 (some 1) none, Relp.Example.vari 1 (some 1) none]
    ["x", "y", "z"]

theorem evenRow_consistent : evenRow.Consistent :=
  (GeneralForm.new_consistent _ _ _ _ _ _ _ rfl rfl rfl rfl
    (by decide +kernel) (by decide +kernel) rfl (by decide +kernel)).1

/-- What it is scaled to. -/
def evenRowScaled : GeneralForm :=
  Relp.Example.problem [[(0, 2), (1, 3)], [(0, 1), (1, 1)], [(0, 3), (1, 1)]] [.equal, .less] [1, 1]
    [Relp.Example.vari 1 (some 0) (some 1), Relp.Example.vari 1 (some 1) none, Relp.Example.vari 1 (some 1) none]
    ["x", "y", "z"]

theorem exact_of_numbers {G : GeneralForm} {l : List ℚ} (hl : ∀ v, G.Number v → v ∈ l)
    (h : ∀ v ∈ l, ((factorize v).Pairwise fun a b => a.1 < b.1) ∧ (∀ q ∈ factorize v, q.2 ≠ 0) ∧
      |v| = ((factorize v).map fun q => (q.1 : ℚ) ^ q.2).prod) : Exact factorize G where
  sorted := fun v hv => (h v (hl v hv)).1
  prime := by
    intro v _ q hq
    obtain ⟨p, hp, e⟩ := List.mem_filterMap.1 hq
    dsimp only at e
    split_ifs at e
    cases e
    exact (by decide +kernel : ∀ p ∈ [2, 3, 5, 7, 11, 13, 17, 19], Nat.Prime p) p hp
  nonzero := fun v hv => (h v (hl v hv)).2.1
  product := fun v hv => (h v (hl v hv)).2.2

theorem problem_exact : Exact factorize problem := by
  refine exact_of_numbers (l := [3, 323, 19, 5 / 19, 7 / 19, 11, 13, 2]) ?_ (by decide +kernel)
  rintro v ⟨_, hv⟩
  simp only [problem, Relp.Example.problem, GeneralForm.new, Relp.Example.vari, List.mem_cons, List.not_mem_nil,
    or_false, exists_eq_or_imp, exists_eq_left, Option.some.injEq, reduceCtorEq] at hv ⊢
  grind

theorem evenRow_exact : Exact factorize evenRow := by
  refine exact_of_numbers (l := [1, 2, 3, 4, 6]) ?_ (by decide +kernel)
  rintro v ⟨_, hv⟩
  simp only [evenRow, Relp.Example.problem, GeneralForm.new, Relp.Example.vari, List.mem_cons, List.not_mem_nil,
    or_false, exists_eq_or_imp, exists_eq_left, Option.some.injEq, reduceCtorEq] at hv ⊢
  grind

end Example

variable {s : Scaling} {G : GeneralForm}

/-- **C36** (equivalent): scaling by positive factors succeeds, gives a consistent problem for the same
direction of optimisation, whose feasible points are those `y` for which the point with coordinates
`y j * s.column j` is feasible in the problem before; objective values, apart from the fixed cost, are
multiplied by the cost factor. -/
theorem C36_equivalent (h : s.Positive G) (hG : G.Consistent) :
    ∃ H, s.scale G = some H ∧ H.Consistent ∧ H.objective = G.objective ∧ H.fixedCost = G.fixedCost ∧
      ∃ hn : H.vars.length = G.vars.length, ∀ y : Fin H.vars.length → ℚ,
        (H.toProgram.Feasible y ↔ G.toProgram.Feasible fun j => y (j.cast hn.symm) * s.column j) ∧
        H.toProgram.objective y - H.fixedCost =
          s.costFactor * (G.toProgram.objective (fun j => y (j.cast hn.symm) * s.column j) - G.fixedCost) := by
  refine ⟨s.scaled (· * ·) (· / ·) G, apply_eq hG.dataLength hG.bLength hG.inRange h.rows h.columns,
    scaled_consistent h hG, rfl, rfl, ?_⟩
  exact scaled_program h hG.shaped

/-- **C36** (optima): the best points of the scaled problem are those that are scaled back to best points of
the problem before. -/
theorem C36_best (h : s.Positive G) (hG : G.Consistent) {H : GeneralForm} (hs : s.scale G = some H) :
    ∃ hn : H.vars.length = G.vars.length, ∀ y : Fin H.vars.length → ℚ,
      H.Best y ↔ G.Best fun j => y (j.cast hn.symm) * s.column j := by
  obtain ⟨H', hs', _, hobj, hfix, hn, key⟩ := C36_equivalent h hG
  rw [hs'] at hs
  cases hs
  refine ⟨hn, fun y => ?_⟩
  have hc := h.cost
  have hback : ∀ x : Fin G.vars.length → ℚ, ∃ z : Fin H.vars.length → ℚ,
      (fun j : Fin G.vars.length => z (j.cast hn.symm) * s.column j) = x := fun x =>
    ⟨fun j => x (j.cast hn) / s.column j, funext fun j => div_mul_cancel₀ _ (ne_of_gt (h.column_pos j))⟩
  have hle : ∀ y z : Fin H.vars.length → ℚ, H.toProgram.objective y ≤ H.toProgram.objective z ↔
      G.toProgram.objective (fun j => y (j.cast hn.symm) * s.column j) ≤
        G.toProgram.objective (fun j => z (j.cast hn.symm) * s.column j) := by
    intro y z
    rw [← sub_le_sub_iff_right H.fixedCost, (key y).2, (key z).2, mul_le_mul_iff_right₀ hc, sub_le_sub_iff_right]
  unfold GeneralForm.Best
  rw [hobj]
  refine and_congr (key y).1 ⟨fun hb x hx => ?_, fun hb z hz => ?_⟩
  · obtain ⟨z, rfl⟩ := hback x
    have := hb z ((key z).1.2 hx)
    revert this
    cases G.objective with
    | minimize => exact (hle y z).1
    | maximize => exact (hle z y).1
  · have := hb _ ((key z).1.1 hz)
    revert this
    cases G.objective with
    | minimize => exact (hle y z).2
    | maximize => exact (hle z y).2

/-- **C36** (infeasible): the scaled problem has no feasible point exactly if the problem before has none. -/
theorem C36_infeasible (h : s.Positive G) (hG : G.Consistent) {H : GeneralForm} (hs : s.scale G = some H) :
    H.toProgram.Infeasible ↔ G.toProgram.Infeasible := by
  obtain ⟨H', hs', _, _, _, hn, key⟩ := C36_equivalent h hG
  rw [hs'] at hs
  cases hs
  refine ⟨fun hi x hx => hi (fun j => x (j.cast hn) / s.column j) ((key _).1.2 ?_), fun hi y hy => hi _ ((key y).1.1 hy)⟩
  have : (fun j : Fin G.vars.length => x ((j.cast hn.symm).cast hn) / s.column (j.cast hn.symm).val * s.column j) = x :=
    funext fun j => div_mul_cancel₀ _ (ne_of_gt (h.column_pos j))
  rw [this]
  exact hx

/-- **C36** (unbounded): the scaled problem has arbitrarily good feasible points exactly if the problem before
has. -/
theorem C36_unbounded (h : s.Positive G) (hG : G.Consistent) {H : GeneralForm} (hs : s.scale G = some H) :
    H.Unbounded ↔ G.Unbounded := by
  obtain ⟨H', hs', _, hobj, hfix, hn, key⟩ := C36_equivalent h hG
  rw [hs'] at hs
  cases hs
  have hc := h.cost
  unfold GeneralForm.Unbounded
  rw [hobj]
  constructor
  · intro hu M
    obtain ⟨y, hy, hlt⟩ := hu (s.costFactor * (M - G.fixedCost) + H.fixedCost)
    refine ⟨_, (key y).1.1 hy, ?_⟩
    have e := (key y).2
    revert hlt
    cases G.objective with
    | minimize =>
      dsimp only
      intro hlt
      rw [← sub_lt_iff_lt_add, e, mul_lt_mul_iff_right₀ hc, sub_lt_sub_iff_right] at hlt
      exact hlt
    | maximize =>
      dsimp only
      intro hlt
      rw [← lt_sub_iff_add_lt, e, mul_lt_mul_iff_right₀ hc, sub_lt_sub_iff_right] at hlt
      exact hlt
  · intro hu M
    obtain ⟨x, hx, hlt⟩ := hu ((M - H.fixedCost) / s.costFactor + G.fixedCost)
    have hx' : (fun j : Fin G.vars.length =>
        x ((j.cast hn.symm).cast hn) / s.column (j.cast hn.symm).val * s.column j) = x :=
      funext fun j => div_mul_cancel₀ _ (ne_of_gt (h.column_pos j))
    obtain ⟨k1, k2⟩ := key fun j => x (j.cast hn) / s.column j
    rw [hx'] at k1 k2
    refine ⟨_, k1.2 hx, ?_⟩
    revert hlt
    cases G.objective with
    | minimize =>
      dsimp only
      intro hlt
      rw [← sub_lt_iff_lt_add, lt_div_iff₀ hc, mul_comm, ← k2] at hlt
      exact sub_lt_sub_iff_right _ |>.1 hlt
    | maximize =>
      dsimp only
      intro hlt
      rw [← lt_sub_iff_add_lt, div_lt_iff₀ hc, mul_comm, ← k2] at hlt
      exact sub_lt_sub_iff_right _ |>.1 hlt

/-- **C36** (reversible): scaling back restores the problem exactly. -/
theorem C36_reversible (h : s.Positive G) (hG : G.Consistent) {H : GeneralForm} (hs : s.scale G = some H) :
    s.scaleBack H = some G := by
  have e : s.scale G = some (s.scaled (· * ·) (· / ·) G) :=
    apply_eq hG.dataLength hG.bLength hG.inRange h.rows h.columns
  rw [e] at hs
  cases hs
  have hH := scaled_consistent h hG
  unfold scaleBack
  rw [apply_eq hH.dataLength hH.bLength hH.inRange (by simpa [scaled] using h.rows)
    (by simpa [scaled] using h.columns), scaled_back h]

/-- **C36** (solutions): scaling back a sparse solution vector multiplies each value by the factor of its
column, which is the correspondence of `C36_equivalent`. -/
theorem C36_solution (h : s.Positive G) {y : SVec ℕ} (hy : SVec.WF y) (hr : ∀ p ∈ y, p.1 < G.vars.length) :
    ∃ x, s.scaleBackVector y = some x ∧ SVec.WF x ∧ ∀ j, SVec.val x j = SVec.val y j * s.column j := by
  refine ⟨_, scaleBackVector_eq (by rw [h.columns]; exact hr), ⟨?_, ?_⟩, fun j => ?_⟩
  · exact List.pairwise_map.2 hy.sorted
  · intro q hq
    obtain ⟨p, hp, rfl⟩ := List.mem_map.1 hq
    exact mul_ne_zero (hy.nonzero p hp) (ne_of_gt (h.column_pos _))
  · clear hy hr
    induction y with
    | nil => simp
    | cons p v ih =>
      rw [List.map_cons, SVec.val_cons, SVec.val_cons, ih, add_mul]
      congr 1
      by_cases hp : p.1 = j
      · subst hp
        simp
      · simp [hp]

/-- The hypotheses are met, and the scaled problem differs from the problem before. -/
example : ∃ H, Example.scaling.scale Example.problem = some H ∧ H ≠ Example.problem ∧
    H.b = [15] ∧ H.constraints.data = [[(0, 10)], [(0, 70)]] ∧
    Example.scaling.scaleBack H = some Example.problem := by
  obtain ⟨H, h, _⟩ := C36_equivalent Example.scaling_positive Example.problem_consistent
  have hb := C36_reversible Example.scaling_positive Example.problem_consistent h
  have e : (Example.scaling.scale Example.problem).map (fun H => (H.b, H.constraints.data)) =
      some ([15], [[(0, 10)], [(0, 70)]]) := by decide +kernel
  rw [h, Option.map_some, Option.some.injEq, Prod.mk.injEq] at e
  refine ⟨H, h, ?_, e.1, e.2, hb⟩
  rintro rfl
  have : Example.problem.b ≠ [15] := by decide +kernel
  exact this e.1

example : Example.scaling.scaleBackVector [(0, 19), (1, 1)] = some [(0, 2), (1, 7)] := by decide +kernel

/-- **C53** (partial): for a problem with variables, in which a number has a factor, the computation of a
scaling ends without aborting, whatever the factorisation is; the scaling it returns has positive factors
for this problem, and the problem it returns is the problem scaled by it, so that all statements of C36
hold. Missing: problems without variables or without factors, for which it aborts (below). -/
theorem C53_scale_partial (factorize : ℚ → Factorization) (hf : ∀ v, G.Number v → ∀ q ∈ factorize v, 0 < q.1)
    (hG : G.Consistent) (hv : G.vars ≠ []) (hn : ∃ v, G.Number v ∧ factorize v ≠ []) :
    ∃ N H s, (∀ fuel ≥ N, compute factorize fuel G = .ok (H, s)) ∧ s.Positive G ∧ s.scale G = some H :=
  compute_ends factorize hf hG.shaped hv hn

/-- The hypotheses are met. -/
example : ∃ N H s, (∀ fuel ≥ N, compute Example.factorize fuel Example.problem = .ok (H, s)) ∧
    s.Positive Example.problem ∧ s.scale Example.problem = some H :=
  C53_scale_partial _ (fun v _ => Example.factorize_pos v) Example.problem_consistent (by decide +kernel)
    ⟨3, ⟨by decide +kernel, Or.inl (by decide +kernel)⟩, by decide +kernel⟩

/-- The scaling that the test `test_scale_variable` expects. -/
example : (compute Example.factorize 100 Example.problem).map (·.2) = .ok ⟨1, [1], [19, 1]⟩ := by decide +kernel

/-- **C53** (violated, no factors): the computation aborts for all problems of which no number has factors,
such as all problems with numbers zero, one and minus one. -/
theorem C53_not_without_factors (factorize : ℚ → Factorization) (hG : G.Consistent)
    (hn : ∀ v, G.Number v → factorize v = []) (fuel : ℕ) : compute factorize fuel G = .error .panic :=
  compute_no_factors factorize hG.shaped hn fuel

/-- `minimise x`, `x - y ≤ 1` with `x, y ≥ 0` is such a problem. -/
example (fuel : ℕ) : compute Example.factorize fuel (Relp.Example.problem [[(0, 1)], [(0, -1)]] [.less] [1]
    [Relp.Example.vari 1 (some 0) none, Relp.Example.vari 0 (some 0) none] ["x", "y"]) = .error .panic := by
  refine C53_not_without_factors _ (GeneralForm.new_consistent _ _ _ _ _ _ _ rfl rfl rfl rfl
    (by decide +kernel) (by decide +kernel) rfl (by decide +kernel)).1 ?_ fuel
  rintro v ⟨h0, hv⟩
  have h1 : v = 1 ∨ v = -1 := by
    simp only [GeneralForm.new, Relp.Example.vari, List.mem_cons, List.not_mem_nil, or_false,
      exists_eq_or_imp, exists_eq_left, Option.some.injEq, reduceCtorEq] at hv
    grind
  rcases h1 with rfl | rfl <;> decide +kernel

/-- **C53** (violated, no variables): the computation aborts for all problems without variables of which a
number has a factor. -/
theorem C53_not_without_variables (factorize : ℚ → Factorization) (hG : G.Consistent) (hv : G.vars = [])
    (hn : ∃ v, G.Number v ∧ factorize v ≠ []) (fuel : ℕ) : compute factorize (fuel + 1) G = .error .panic :=
  compute_no_vars factorize hG.shaped hv hn fuel

/-- A problem without variables and with the constraint `0 ≤ 2`. -/
example (fuel : ℕ) : compute Example.factorize (fuel + 1) (Relp.Example.problem [] [.less] [2] [] []) =
    .error .panic :=
  C53_not_without_variables _ (GeneralForm.new_consistent _ _ _ _ _ _ _ rfl rfl rfl rfl
    (by simp) (by simp) rfl (by simp)).1 rfl ⟨2, ⟨by decide +kernel, Or.inl (by decide +kernel)⟩, by decide +kernel⟩ fuel

/-- **C54** (violated): scaling the problem of the test `test_scale_variable`, in which a factor nineteen can be
removed from a column and its bounds, adds that factor to them instead: the column has coefficient `361` and
cost `6137` where `1` and `17` were possible. -/
theorem C54_not_smaller :
    (∀ fuel ≥ 100, compute Example.factorize fuel Example.problem = .ok (Example.grown, ⟨1, [1], [19, 1]⟩)) ∧
      Example.problem.constraints.data = [[(0, 19)], [(0, 2)]] ∧
      Example.grown.constraints.data = [[(0, 361)], [(0, 2)]] ∧
      Example.problem.vars.map (·.cost) = [323, 19] ∧ Example.grown.vars.map (·.cost) = [6137, 19] ∧
      Positive ⟨1, [1], [1 / 19, 1]⟩ Example.problem ∧
      scale ⟨1, [1], [1 / 19, 1]⟩ Example.problem = some Example.shrunk ∧
      Example.shrunk.constraints.data = [[(0, 1)], [(0, 2)]] ∧ Example.shrunk.vars.map (·.cost) = [17, 19] :=
  ⟨fun fuel hfuel => compute_mono hfuel (by decide +kernel), rfl, rfl, rfl, rfl,
    ⟨rfl, rfl, by decide +kernel, by decide +kernel, by decide +kernel⟩, by decide +kernel, rfl, rfl⟩

/-- **C54** (with inverted column factors, partial): let the computation return a scaling, for an exact
factorisation of the numbers of the problem. If the column factors of the scaling are replaced by their inverses,
then scaling the problem by it makes no prime occur more often in the numerators and denominators of its numbers
than before. Missing: the column factors that are returned are the inverses of these (`C54_not_smaller`). -/
theorem C54_inverted_partial {factorize : ℚ → Factorization} {H : GeneralForm} (hf : Exact factorize G)
    (hG : G.Consistent) (hv : G.vars ≠ []) {fuel : ℕ} (h : compute factorize fuel G = .ok (H, s)) :
    ∃ K, s.invertColumns.scale G = some K ∧ ∀ p : ℕ, p.Prime → K.primeCount p ≤ G.primeCount p := by
  have hs := (compute_positive (fun v hv q hq => (hf.prime v hv q hq).pos) hG.shaped h).1
  refine ⟨_, apply_eq hG.dataLength hG.bLength hG.inRange hs.rows ?_, fun p hp =>
    invertColumns_primeCount hf hG.shaped hv h hp⟩
  simpa [invertColumns] using hs.columns

/-- The hypotheses are met, by the problem for which the factors that are returned are wrong: the problem scaled
by the inverted factors is the one that was possible. -/
example : ∃ K, scale ⟨1, [1], [19⁻¹, 1⁻¹]⟩ Example.problem = some K ∧
    ∀ p : ℕ, p.Prime → K.primeCount p ≤ Example.problem.primeCount p :=
  C54_inverted_partial Example.problem_exact Example.problem_consistent (by decide +kernel)
    (C54_not_smaller.1 100 le_rfl)

/-- **C54** (rows, partial): let the computation return a scaling with all column factors one, for an exact
factorisation of the numbers of the problem. Then no prime occurs more often in the numerators and denominators
of the numbers of the scaled problem than in those of the problem before. Missing: scalings with other column
factors, for which this does not hold (`C54_not_smaller`). -/
theorem C54_rows_partial {factorize : ℚ → Factorization} {H : GeneralForm} (hf : Exact factorize G)
    (hG : G.Consistent) (hv : G.vars ≠ []) {fuel : ℕ} (h : compute factorize fuel G = .ok (H, s))
    (h1 : ∀ c ∈ s.columnFactors, c = 1) (p : ℕ) (hp : p.Prime) : H.primeCount p ≤ G.primeCount p := by
  obtain ⟨K, hK, hle⟩ := C54_inverted_partial hf hG hv h
  have hi : s.invertColumns = s := by
    unfold invertColumns
    have : s.columnFactors.map (·⁻¹) = s.columnFactors := by
      conv_rhs => rw [← List.map_id s.columnFactors]
      exact List.map_congr_left fun c hc => by rw [h1 c hc]; simp
    rw [this]
  rw [hi, (compute_positive (fun v hv q hq => (hf.prime v hv q hq).pos) hG.shaped h).2] at hK
  cases hK
  exact hle p hp

/-- The hypotheses are met: the factor two of the first row is removed, and occurs once in the numbers of the scaled
problem instead of five times. -/
example : compute Example.factorize 100 Example.evenRow = .ok (Example.evenRowScaled, ⟨1, [1 / 2, 1], [1, 1, 1]⟩) ∧
    ∀ p : ℕ, p.Prime → Example.evenRowScaled.primeCount p ≤ Example.evenRow.primeCount p := by
  have h : compute Example.factorize 100 Example.evenRow =
      .ok (Example.evenRowScaled, ⟨1, [1 / 2, 1], [1, 1, 1]⟩) := by decide +kernel
  exact ⟨h, C54_rows_partial Example.evenRow_exact Example.evenRow_consistent (by decide +kernel) h (by decide +kernel)⟩

end Scaling

end Relp
