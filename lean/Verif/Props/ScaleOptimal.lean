import Verif.Props.Scale

/-!
# Where the search for a scaling ends (C75)

`H.primeCount p` (Spec/Scale.lean) counts how often the prime `p` occurs in the numbers of the problem `H`. The
column factors that are returned are the inverses of those that were searched for (`C54_not_smaller`), so this is
about the scaling with inverted column factors.
-/

namespace Relp

namespace Scaling

variable {s t : Scaling} {G H K L : GeneralForm} {factorize : ℚ → Factorization} {fuel : ℕ}

theorem scale_scaled (hG : G.Consistent) (hr : s.rowFactors.length = G.constraintTypes.length)
    (hc : s.columnFactors.length = G.vars.length) (h : s.scale G = some H) :
    H = s.scaled (· * ·) (· / ·) G := by
  unfold scale at h
  rw [apply_eq hG.dataLength hG.bLength hG.inRange hr hc] at h
  exact (Option.some.inj h).symm

/-- **C75** (rows, partial): let the computation return a scaling, for an exact factorisation of the numbers of the
problem. Changing the factor of a single constraint row makes no prime occur less often in the numbers of the
scaled problem. Missing: the same for the factor of the cost row, which does not hold (`C75_not_cost`), and the
column factors that are returned are not those that were searched for. -/
theorem C75_rows_partial (hf : Exact factorize G) (hG : G.Consistent) (hv : G.vars ≠ [])
    (h : compute factorize fuel G = .ok (H, s)) (hK : s.invertColumns.scale G = some K)
    (ht : t.Positive G) (ho : s.invertColumns.OtherRow t) (hL : t.scale G = some L) (p : ℕ) (hp : p.Prime) :
    K.primeCount p ≤ L.primeCount p := by
  have hs := (compute_positive (fun v hv q hq => (hf.prime v hv q hq).pos) hG.shaped h).1
  rw [scale_scaled hG ht.rows ht.columns hL,
    scale_scaled (s := s.invertColumns) hG hs.rows (by simpa [invertColumns] using hs.columns) hK]
  obtain ⟨h1, h2, i, h3⟩ := ho
  have hpos : ∀ k, 0 < s.row k := fun k => by
    unfold row
    rw [List.getD_eq_getElem?_getD]
    cases hk : s.rowFactors[k]? with
    | none => exact one_pos
    | some r => exact hs.row r (List.mem_of_getElem? hk)
  have hpos' : ∀ k, 0 < t.row k := fun k => by
    unfold row
    rw [List.getD_eq_getElem?_getD]
    cases hk : t.rowFactors[k]? with
    | none => exact one_pos
    | some r => exact ht.row r (List.mem_of_getElem? hk)
  by_cases hi : i < G.constraintTypes.length
  · have e : t = { s.invertColumns with rowFactors := s.rowFactors.set i (s.row i * (t.row i / s.row i)) } := by
      have hrows : t.rowFactors = s.rowFactors.set i (s.row i * (t.row i / s.row i)) := by
        rw [mul_div_cancel₀ _ (hpos i).ne']
        refine List.ext_getElem (by rw [ht.rows, List.length_set, hs.rows]) fun k hk hk' => ?_
        rw [List.getElem_set]
        have hk2 : k < s.rowFactors.length := by simpa using hk'
        split_ifs with hki
        · subst hki
          unfold row
          rw [List.getD_eq_getElem _ _ hk]
        · have : t.row k = s.row k := h3 k (Ne.symm hki)
          unfold row at this
          rw [List.getD_eq_getElem _ _ hk, List.getD_eq_getElem _ _ hk2] at this
          exact this
      cases t
      simp only at h1 h2 hrows
      simp only [Scaling.mk.injEq]
      exact ⟨h1, hrows, h2⟩
    rw [e]
    exact row_primeCount hf hG.shaped hv h hp hi (div_ne_zero (hpos' i).ne' (hpos i).ne')
  · have e : t = s.invertColumns := by
      have hrows : t.rowFactors = s.rowFactors := by
        refine List.ext_getElem (by rw [ht.rows, hs.rows]) fun k hk hk' => ?_
        have : t.row k = s.row k := h3 k (by rintro rfl; exact hi (by rw [← ht.rows]; exact hk))
        unfold row at this
        rw [List.getD_eq_getElem _ _ hk, List.getD_eq_getElem _ _ hk'] at this
        exact this
      cases t
      simp only at h1 h2 hrows
      cases s
      simp only [invertColumns, Scaling.mk.injEq] at h1 h2 hrows ⊢
      exact ⟨h1, hrows, h2⟩
    rw [e]

/-- **C75** (columns, partial): let the computation return a scaling, for an exact factorisation of the numbers of
the problem. Changing the factor of a single column makes no prime occur less often in the numbers of the scaled
problem. Missing: as in `C75_rows_partial`. -/
theorem C75_columns_partial (hf : Exact factorize G) (hG : G.Consistent) (hv : G.vars ≠ [])
    (h : compute factorize fuel G = .ok (H, s)) (hK : s.invertColumns.scale G = some K)
    (ht : t.Positive G) (ho : s.invertColumns.OtherColumn t) (hL : t.scale G = some L) (p : ℕ) (hp : p.Prime) :
    K.primeCount p ≤ L.primeCount p := by
  have hs := (compute_positive (fun v hv q hq => (hf.prime v hv q hq).pos) hG.shaped h).1
  have hlen : s.invertColumns.columnFactors.length = G.vars.length := by
    simpa [invertColumns] using hs.columns
  rw [scale_scaled hG ht.rows ht.columns hL, scale_scaled (s := s.invertColumns) hG hs.rows hlen hK]
  obtain ⟨h1, h2, j, h3⟩ := ho
  have hpos : ∀ k, 0 < s.invertColumns.column k := fun k => by
    unfold column
    rw [List.getD_eq_getElem?_getD]
    cases hk : s.invertColumns.columnFactors[k]? with
    | none => exact one_pos
    | some r =>
      have := List.mem_of_getElem? hk
      obtain ⟨c, hc, rfl⟩ := List.mem_map.1 this
      exact inv_pos.2 (hs.column c hc)
  have hpos' : ∀ k, 0 < t.column k := fun k => by
    unfold column
    rw [List.getD_eq_getElem?_getD]
    cases hk : t.columnFactors[k]? with
    | none => exact one_pos
    | some r => exact ht.column r (List.mem_of_getElem? hk)
  by_cases hj : j < G.vars.length
  · have e : t = { s with
          columnFactors := (s.invertColumns.columnFactors.set j
            (s.invertColumns.column j * (t.column j / s.invertColumns.column j))) } := by
      have hcols : t.columnFactors = s.invertColumns.columnFactors.set j
          (s.invertColumns.column j * (t.column j / s.invertColumns.column j)) := by
        rw [mul_div_cancel₀ _ (hpos j).ne']
        refine List.ext_getElem (by rw [ht.columns, List.length_set, hlen]) fun k hk hk' => ?_
        rw [List.getElem_set]
        have hk2 : k < s.invertColumns.columnFactors.length := by simpa using hk'
        split_ifs with hkj
        · subst hkj
          unfold column
          rw [List.getD_eq_getElem _ _ hk]
        · have := h3 k (Ne.symm hkj)
          unfold column at this
          rw [List.getD_eq_getElem _ _ hk, List.getD_eq_getElem _ _ hk2] at this
          exact this
      cases t
      simp only at h1 h2 hcols
      simp only [Scaling.mk.injEq]
      exact ⟨h1, h2, hcols⟩
    rw [e]
    exact column_primeCount hf hG.shaped hv h hp hj (div_ne_zero (hpos' j).ne' (hpos j).ne')
  · have e : t = s.invertColumns := by
      have hcols : t.columnFactors = s.invertColumns.columnFactors := by
        refine List.ext_getElem (by rw [ht.columns, hlen]) fun k hk hk' => ?_
        have := h3 k (by rintro rfl; exact hj (by rw [← ht.columns]; exact hk))
        unfold column at this
        rw [List.getD_eq_getElem _ _ hk, List.getD_eq_getElem _ _ hk'] at this
        exact this
      cases t
      simp only at h1 h2 hcols
      cases s
      simp only [invertColumns, Scaling.mk.injEq] at h1 h2 hcols ⊢
      exact ⟨h1, h2, hcols⟩
    rw [e]

/-! ### The cost row -/

namespace Example

/-- `minimise x + y + z`, `x ≤ 1`, `x ≥ 0`, `-2 ≤ y, z ≤ 2`. -/
def wide : GeneralForm :=
  Relp.Example.problem [[(0, 1)], [], []] [.less] [1]
    [Relp.Example.vari 1 (some 0) none, Relp.Example.vari 1 (some (-2)) (some 2),
      Relp.Example.vari 1 (some (-2)) (some 2)] ["x", "y", "z"]

theorem wide_consistent : wide.Consistent :=
  (GeneralForm.new_consistent _ _ _ _ _ _ _ rfl rfl rfl rfl
    (by decide +kernel) (by decide +kernel) rfl (by decide +kernel)).1

theorem wide_exact : Exact Example.factorize wide := by
  refine exact_of_numbers (l := [1, 2, -2]) ?_ (by decide +kernel)
  rintro v ⟨_, hv⟩
  simp only [wide, Relp.Example.problem, GeneralForm.new, Relp.Example.vari, List.mem_cons, List.not_mem_nil,
    or_false, exists_eq_or_imp, exists_eq_left, Option.some.injEq, reduceCtorEq] at hv ⊢
  grind

/-- The problem with costs `a`, `b`, `b` and bounds that are one. -/
def narrow (a b : ℚ) : GeneralForm :=
  Relp.Example.problem [[(0, 1)], [], []] [.less] [1]
    [Relp.Example.vari a (some 0) none, Relp.Example.vari b (some (-1)) (some 1),
      Relp.Example.vari b (some (-1)) (some 1)] ["x", "y", "z"]

theorem narrow_count (a b : ℚ) : (narrow a b).primeCount 2 = |padicValRat 2 a| + 2 * |padicValRat 2 b| := by
  simp [narrow, Relp.Example.problem, GeneralForm.new, Relp.Example.vari, GeneralForm.primeCount, padicValRat.neg]
  ring

end Example

/-- **C75** (violated for the cost row): the factor of the cost row is chosen before the factors of two of the
columns are, and is not looked at again: halving it would reduce the number of times that two occurs in the
numbers of the scaled problem from two to one. -/
theorem C75_not_cost : ∃ (factorize : ℚ → Factorization) (G H : GeneralForm) (s t : Scaling) (K L : GeneralForm),
    Exact factorize G ∧ G.Consistent ∧ G.vars ≠ [] ∧ (∀ fuel ≥ 100, compute factorize fuel G = .ok (H, s)) ∧
      s.invertColumns.scale G = some K ∧ t.Positive G ∧ s.invertColumns.OtherCost t ∧ t.scale G = some L ∧
      K.primeCount 2 = 2 ∧ L.primeCount 2 = 1 := by
  have : Fact (Nat.Prime 2) := ⟨Nat.prime_two⟩
  have h2 : padicValRat 2 (2 : ℚ) = 1 := by
    have := padicValRat.self (p := 2) (by omega)
    exact_mod_cast this
  refine ⟨Example.factorize, Example.wide,
    Relp.Example.problem [[(0, 1)], [], []] [.less] [1]
      [Relp.Example.vari 1 (some 0) none, Relp.Example.vari (1 / 2) (some (-4)) (some 4),
        Relp.Example.vari (1 / 2) (some (-4)) (some 4)] ["x", "y", "z"],
    ⟨1, [1], [1, 1 / 2, 1 / 2]⟩, ⟨1 / 2, [1], [1⁻¹, (1 / 2)⁻¹, (1 / 2)⁻¹]⟩,
    Example.narrow 1 2, Example.narrow (1 / 2) 1, Example.wide_exact, Example.wide_consistent,
    by decide +kernel, fun fuel hfuel => compute_mono hfuel (by decide +kernel), by decide +kernel,
    ⟨rfl, rfl, by decide +kernel, by decide +kernel, by decide +kernel⟩, ⟨rfl, rfl⟩, by decide +kernel, ?_, ?_⟩
  · rw [Example.narrow_count, h2]
    simp
  · rw [Example.narrow_count, one_div, padicValRat.inv, h2]
    simp

/-- The hypotheses of `C75_rows_partial` and `C75_columns_partial` are met, by the problem of C54: the factor of its
row is tripled, that of its second column halved. -/
example : (∃ K L, Scaling.scale ⟨1, [1], [19⁻¹, 1⁻¹]⟩ Example.problem = some K ∧
      Scaling.scale ⟨1, [3], [19⁻¹, 1⁻¹]⟩ Example.problem = some L ∧
      ∀ p : ℕ, p.Prime → K.primeCount p ≤ L.primeCount p) ∧
    ∃ K L, Scaling.scale ⟨1, [1], [19⁻¹, 1⁻¹]⟩ Example.problem = some K ∧
      Scaling.scale ⟨1, [1], [19⁻¹, 1 / 2]⟩ Example.problem = some L ∧
      ∀ p : ℕ, p.Prime → K.primeCount p ≤ L.primeCount p := by
  have hK : Scaling.scale ⟨1, [1], [19⁻¹, 1⁻¹]⟩ Example.problem = some Example.shrunk := by decide +kernel
  constructor
  · refine ⟨Example.shrunk, _, hK, rfl, fun p hp => ?_⟩
    refine C75_rows_partial (t := ⟨1, [3], [19⁻¹, 1⁻¹]⟩) Example.problem_exact Example.problem_consistent
      (by decide +kernel) (C54_not_smaller.1 100 le_rfl) hK
      ⟨rfl, rfl, by decide +kernel, by decide +kernel, by decide +kernel⟩ ⟨rfl, rfl, 0, fun k hk => ?_⟩ rfl p hp
    obtain ⟨k, rfl⟩ := Nat.exists_eq_succ_of_ne_zero hk
    rfl
  · refine ⟨Example.shrunk, _, hK, rfl, fun p hp => ?_⟩
    refine C75_columns_partial (t := ⟨1, [1], [19⁻¹, 1 / 2]⟩) Example.problem_exact Example.problem_consistent
      (by decide +kernel) (C54_not_smaller.1 100 le_rfl) hK
      ⟨rfl, rfl, by decide +kernel, by decide +kernel, by decide +kernel⟩ ⟨rfl, rfl, 1, fun k hk => ?_⟩ rfl p hp
    rcases k with _ | _ | k
    · rfl
    · exact absurd rfl hk
    · rfl

end Scaling

end Relp
