import Verif.Proof.MpsConvert
import Verif.Proof.PresolveDecide

/-!
# Properties of the conversion of MPS programs (C38, C39, C40, C52)

`Mps.Feasible`, `Mps.VariableHolds`, `Mps.RowHolds` and `Mps.objectiveValue` (Spec/Mps.lean) state what an MPS
program means according to its documentation. `flatten p.bounds` is the list of all bounds, with the index
of their variable; likewise for right-hand sides and ranges.
-/

namespace Relp

namespace Mps

namespace Example

/-- ```
minimise x - 2 y + 3 z
2 ≤ x + y ≤ 6, y + z ≤ 5 and y + z ≤ 4, x - z = 1
x ≥ 0, x ≤ 4, y free, -1 ≤ z ≤ 8, z ≤ 7
``` -/
def program : Mps where
  name := "EXAMPLE".toList
  objective := .minimize
  costRowName := "COST".toList
  costValues := [(0, 1), (1, -2), (2, 3)]
  rows := [⟨"R1".toList, .greater⟩, ⟨"R2".toList, .less⟩, ⟨"R3".toList, .equal⟩]
  columns := [⟨"X".toList, .continuous, [(0, 1), (2, 1)]⟩, ⟨"Y".toList, .continuous, [(0, 1), (1, 1)]⟩,
    ⟨"Z".toList, .continuous, [(1, 1), (2, -1)]⟩]
  rhss := [⟨"RHS".toList, [(0, 2), (1, 5), (2, 1)]⟩, ⟨"RHS2".toList, [(1, 4)]⟩]
  ranges := [⟨"RNG".toList, [(0, 4)]⟩]
  bounds := [⟨"BND".toList, [(0, .upperContinuous 4), (1, .free), (2, .lowerContinuous (-1)),
    (2, .upperContinuous 8), (2, .upperContinuous 7)]⟩]

theorem program_wellFormed : program.WellFormed :=
  ⟨by decide +kernel, by decide +kernel, by decide +kernel, by decide +kernel, by decide +kernel,
    by decide +kernel, by decide +kernel⟩

theorem program_rangesMeant : RangesMeant program := by
  intro i r row hr hi
  have : i = 0 ∧ r = 4 := by simpa [program, flatten] using hr
  obtain ⟨rfl, rfl⟩ := this
  exact Or.inr (Or.inl ⟨2, by decide +kernel⟩)

/-- What it is converted to. -/
def general : GeneralForm :=
  .new .minimize ⟨[[(0, 1), (2, 1)], [(0, 1), (1, 1)], [(1, 1), (2, -1)]], 3, 3⟩
    [.range 4, .less, .equal] [6, 4, 1]
    [⟨.continuous, 1, some 0, some 4, 0, false⟩, ⟨.continuous, -2, none, none, 0, false⟩,
      ⟨.continuous, 3, some (-1), some 7, 0, false⟩] ["X", "Y", "Z"] 0

theorem program_toGeneralForm : program.toGeneralForm = .ok general := by decide +kernel

theorem program_bounds : ∀ j < program.columns.length, ∃ x, VariableHolds program j x := by
  intro j hj
  refine ⟨1, ?_⟩
  have : j = 0 ∨ j = 1 ∨ j = 2 := by
    have : program.columns.length = 3 := rfl
    omega
  rcases this with rfl | rfl | rfl <;>
    refine ⟨fun t ht => ?_, fun _ => by norm_num⟩ <;> simp [program, flatten] at ht
  · subst ht; simp only [BoundType.Holds]; norm_num
  · subst ht; trivial
  · rcases ht with rfl | rfl | rfl <;> simp only [BoundType.Holds] <;> norm_num

end Example

/-! ### C38 -/

/-- **C38.** The interval of a variable is the intersection of all its bounds, with the default lower bound
zero exactly if only upper bounds or none are given. It is integer if its column is, or one of its bounds
is. -/
theorem C38_bounds (p : Mps) (G : GeneralForm) (h : p.toGeneralForm = .ok G) (j : ℕ) (column : Column)
    (hj : p.columns[j]? = some column) :
    ∃ v, G.vars[j]? = some v ∧
      (∀ x, (∀ l ∈ v.lowerBound, l ≤ x) ∧ (∀ u ∈ v.upperBound, x ≤ u) ↔
        (∀ t, (j, t) ∈ flatten p.bounds → t.Holds x) ∧
        ((∀ t, (j, t) ∈ flatten p.bounds → t.IsUpper) → 0 ≤ x)) ∧
      (v.variableType = .integer ↔ column.variableType = .integer ∨ ∃ t, (j, t) ∈ flatten p.bounds ∧
        (t = .binary ∨ ∃ b, t = .lowerInteger b ∨ t = .upperInteger b)) := by
  obtain ⟨v, v1, -, -, -, v2, v3⟩ := (toGeneralForm_vars h).2.2.2 j column hj
  refine ⟨v, v1, v3, ?_⟩
  rw [v2]
  unfold integral
  simp only [mem_valuesOf]

/-- **C38.** A variable that is declared free and also has a bound is rejected. -/
theorem C38_free_rejected (p : Mps) (hw : p.WellFormed)
    (hs : ∀ j a b, (j, .semiContinuous a b) ∉ flatten p.bounds) (j : ℕ) (t : BoundType)
    (h1 : (j, .free) ∈ flatten p.bounds) (h2 : (j, t) ∈ flatten p.bounds) (h3 : t ≠ .free) :
    p.toGeneralForm = .error .inconsistency := by
  match h : p.toGeneralForm with
  | .ok G => exact absurd ((toGeneralForm_vars h).2.1 j t h1 h2) h3
  | .error e =>
    rcases toGeneralForm_error h with ⟨rfl, -⟩ | ⟨-, ⟨q, h4, h5⟩ | ⟨j, a, b, h4⟩ | ⟨q, h4, h5⟩⟩
    · rfl
    · exact absurd (hw.boundsInRange q h4) (not_lt.2 h5)
    · exact absurd h4 (hs j a b)
    · exact absurd (hw.rhssInRange q h4) (not_lt.2 h5)

example : ∃ v : Variable, Example.general.vars[2]? = some v ∧ v.lowerBound = some (-1 : ℚ) ∧ v.upperBound = some (7 : ℚ) ∧
    ∀ x, (∀ l ∈ v.lowerBound, l ≤ x) ∧ (∀ u ∈ v.upperBound, x ≤ u) ↔
        (∀ t, (2, t) ∈ flatten Example.program.bounds → t.Holds x) ∧
        ((∀ t, (2, t) ∈ flatten Example.program.bounds → t.IsUpper) → 0 ≤ x) := by
  obtain ⟨v, h1, h2, -⟩ := C38_bounds _ _ Example.program_toGeneralForm 2 _ rfl
  cases h1
  exact ⟨_, rfl, rfl, rfl, h2⟩

example : ({ Example.program with bounds := [⟨[], [(1, .free), (0, .fixed 1), (1, .upperContinuous 3)]⟩] } :
    Mps).toGeneralForm = .error .inconsistency := by
  refine C38_free_rejected _ ?_ ?_ 1 (.upperContinuous 3) (by decide +kernel) (by decide +kernel) (by simp)
  · exact ⟨by decide +kernel, by decide +kernel, by decide +kernel, by decide +kernel, by decide +kernel,
      by decide +kernel, by decide +kernel⟩
  · simp [flatten]

/-! ### C39 -/

/-- **C39**, partial: a row with a range denotes the interval of the documented table, for each right-hand
side `b` that is given for it. Missing: rows without a right-hand side, unless they are `≤` rows with a
positive range or the range is zero; the property is false for them, see `C39_not_without_rhs`. -/
theorem C39_ranges_partial (p : Mps) (G : GeneralForm) (h : p.toGeneralForm = .ok G) (i : ℕ) (row : Row)
    (hi : p.rows[i]? = some row) (r b : ℚ) (hr : (i, r) ∈ flatten p.ranges)
    (hb : (i, b) ∈ flatten p.rhss ∨ (∀ v, (i, v) ∉ flatten p.rhss) ∧ b = 0 ∧
      (r = 0 ∨ row.relation = .less ∧ 0 < r)) :
    ∃ t c, G.constraintTypes[i]? = some t ∧ G.b[i]? = some c ∧ ∀ x, t.Holds c x ↔
      match row.relation with
      | .greater => b ≤ x ∧ x ≤ b + |r|
      | .less => b - |r| ≤ x ∧ x ≤ b
      | .equal => if 0 ≤ r then b ≤ x ∧ x ≤ b + |r| else b - |r| ≤ x ∧ x ≤ b := by
  obtain ⟨t, c, t1, t2, t3, -⟩ := (toGeneralForm_rows h).2.2 i row hi
  obtain ⟨a1, a2, -⟩ := toGeneralForm_accepted h
  have hu : ∀ r', (i, r') ∈ flatten p.ranges → r' = r := fun r' hr' => by
    have := List.inj_on_of_nodup_map a1 hr' hr rfl
    exact (Prod.mk.inj this).2
  have hm : ∀ r', (i, r') ∈ flatten p.ranges →
      r' = 0 ∨ (∃ b, (i, b) ∈ flatten p.rhss) ∨ row.relation = .less ∧ 0 < r' := by
    intro r' hr'
    rw [hu r' hr']
    rcases hb with hb | ⟨-, -, h0 | h0⟩
    · exact Or.inr (Or.inl ⟨b, hb⟩)
    · exact Or.inl h0
    · exact Or.inr (Or.inr h0)
  refine ⟨t, c, t1, t2, fun x => ?_⟩
  rw [(t3 hm).1 x]
  have hR : RowHolds p i row.relation x ↔ RangeHolds row.relation r b x := by
    constructor
    · intro hh
      refine (hh b ?_).1 r hr
      rcases hb with hb | ⟨h1, h2, -⟩
      · exact Or.inl hb
      · exact Or.inr ⟨h1, h2⟩
    · intro hh b' hb'
      have : b' = b := by
        rcases hb with hb | ⟨h1, h2, -⟩ <;> rcases hb' with hb' | ⟨h1', h2'⟩
        · exact a2 i r _ _ hr hb' hb
        · exact absurd hb (h1' b)
        · exact absurd hb' (h1 b')
        · rw [h2, h2']
      rw [this]
      exact ⟨fun r' hr' => by rw [hu r' hr']; exact hh, fun hc => absurd hr (hc r)⟩
  exact hR

example : ∃ t c, Example.general.constraintTypes[0]? = some t ∧ Example.general.b[0]? = some c ∧
    ∀ x, t.Holds c x ↔ 2 ≤ x ∧ x ≤ 2 + |4| :=
  C39_ranges_partial _ _ Example.program_toGeneralForm 0 _ rfl 4 2 (by decide +kernel) (Or.inl (by decide +kernel))

/-- A program of three rows, of all types, with a range each but no right-hand sides. -/
def Example.withoutRhs (r : ℚ) : Mps where
  name := []
  objective := .minimize
  costRowName := "COST".toList
  costValues := [(0, 1)]
  rows := [⟨"R1".toList, .greater⟩, ⟨"R2".toList, .equal⟩, ⟨"R3".toList, .less⟩]
  columns := [⟨"X".toList, .continuous, [(0, 1), (1, 1), (2, 1)]⟩]
  rhss := []
  ranges := [⟨[], [(0, r), (1, r), (2, r)]⟩]
  bounds := [⟨[], [(0, .free)]⟩]

/-- **C39 is false** without right-hand side, which stands for zero: rows `≥` and `=` with range 4 should
denote `[0, 4]`, but get `[-4, 0]`; and with range -4, all rows get constraints that no value satisfies, while
the documentation allows zero in all of them. -/
theorem C39_not_without_rhs :
    (∃ G, (Example.withoutRhs 4).toGeneralForm = .ok G ∧
      G.constraintTypes = [.range 4, .range 4, .range 4] ∧ G.b = [0, 0, 0] ∧
      ¬(ConstraintType.range 4).Holds 0 3 ∧
      RowHolds (Example.withoutRhs 4) 0 .greater 3 ∧ RowHolds (Example.withoutRhs 4) 1 .equal 3) ∧
    ∃ G, (Example.withoutRhs (-4)).toGeneralForm = .ok G ∧
      G.constraintTypes = [.range (-4), .range (-4), .range (-4)] ∧ G.b = [0, 0, 0] ∧
      (∀ x, ¬(ConstraintType.range (-4)).Holds 0 x) ∧
      RowHolds (Example.withoutRhs (-4)) 0 .greater 0 ∧ RowHolds (Example.withoutRhs (-4)) 1 .equal 0 ∧
      RowHolds (Example.withoutRhs (-4)) 2 .less 0 := by
  refine ⟨⟨_, rfl, rfl, by decide +kernel, by decide +kernel, ?_, ?_⟩, _, rfl, rfl, by decide +kernel, ?_, ?_, ?_, ?_⟩
  · rintro b (h | ⟨-, rfl⟩)
    · cases h
    · simp [RangeHolds, flatten, Example.withoutRhs]; norm_num
  · rintro b (h | ⟨-, rfl⟩)
    · cases h
    · simp [RangeHolds, flatten, Example.withoutRhs]; norm_num
  · rintro x ⟨h1, h2⟩
    linarith
  all_goals
    rintro b (h | ⟨-, rfl⟩)
    · cases h
    · simp [RangeHolds, flatten, Example.withoutRhs]

/-! ### C40 -/

/-- **C40.** Of several right-hand sides for a row without a range, a `≥` row gets the largest, a `≤` row the
smallest, and for an equality they are all the same. A right-hand side that is not given is zero. -/
theorem C40_rhs (p : Mps) (G : GeneralForm) (h : p.toGeneralForm = .ok G) (i : ℕ) (row : Row)
    (hi : p.rows[i]? = some row) (hr : ∀ r, (i, r) ∉ flatten p.ranges) :
    G.constraintTypes[i]? = some (match row.relation with
      | .less => .less
      | .equal => .equal
      | .greater => .greater) ∧
    ∃ b, G.b[i]? = some b ∧ ((i, b) ∈ flatten p.rhss ∨ (∀ v, (i, v) ∉ flatten p.rhss) ∧ b = 0) ∧
      ∀ b', (i, b') ∈ flatten p.rhss →
        match row.relation with
        | .less => b ≤ b'
        | .equal => b = b'
        | .greater => b' ≤ b := by
  obtain ⟨t, c, t1, t2, t3, t4⟩ := (toGeneralForm_rows h).2.2 i row hi
  obtain ⟨rfl, h2⟩ := t4 hr
  refine ⟨?_, c, t2, h2, fun b' hb' => ?_⟩
  · rw [t1]
    cases row.relation <;> rfl
  · have hc : row.relation.toConstraintType.Holds c c := by
      cases row.relation
      · exact le_rfl
      · rfl
      · exact le_rfl
    have := (((t3 fun r h => absurd h (hr r)).1 c).1 hc b' (Or.inl hb')).2 hr
    revert this
    cases row.relation <;> exact id

/-- **C40.** Different right-hand sides for an equality are rejected. -/
theorem C40_rejected (p : Mps) (hw : p.WellFormed)
    (hs : ∀ j a b, (j, .semiContinuous a b) ∉ flatten p.bounds) (i : ℕ) (row : Row)
    (hi : p.rows[i]? = some row) (he : row.relation = .equal) (v w : ℚ) (hv : (i, v) ∈ flatten p.rhss)
    (hw' : (i, w) ∈ flatten p.rhss) (hne : v ≠ w) : p.toGeneralForm = .error .inconsistency := by
  match h : p.toGeneralForm with
  | .ok G => exact absurd ((toGeneralForm_accepted h).2.2.1 i row v w hi he hv hw') hne
  | .error e =>
    rcases toGeneralForm_error h with ⟨rfl, -⟩ | ⟨-, ⟨q, h4, h5⟩ | ⟨j, a, b, h4⟩ | ⟨q, h4, h5⟩⟩
    · rfl
    · exact absurd (hw.boundsInRange q h4) (not_lt.2 h5)
    · exact absurd h4 (hs j a b)
    · exact absurd (hw.rhssInRange q h4) (not_lt.2 h5)

example : ∃ b, Example.general.b[1]? = some b ∧ b = 4 ∧ ∀ b', (1, b') ∈ flatten Example.program.rhss → b ≤ b' := by
  obtain ⟨-, b, h1, h2, h3⟩ := C40_rhs _ _ Example.program_toGeneralForm 1 _ rfl (by simp [Example.program, flatten])
  cases h1
  exact ⟨_, rfl, rfl, h3⟩

example : ({ Example.program with rhss := [⟨[], [(2, 1)]⟩, ⟨[], [(2, 2)]⟩] } : Mps).toGeneralForm =
    .error .inconsistency := by
  refine C40_rejected _ ?_ ?_ 2 _ rfl rfl 1 2 (by decide +kernel) (by decide +kernel) (by norm_num)
  · exact ⟨by decide +kernel, by decide +kernel, by decide +kernel, by decide +kernel, by decide +kernel,
      by decide +kernel, by decide +kernel⟩
  · simp [flatten, Example.program]

/-! ### C52 -/

/-- **C52**, partial: the problem that an MPS program is converted to has the same feasible points, the same
objective values and the same direction, and is consistent. Missing: ranges without right-hand side, see
`C39_not_without_rhs`, and programs with several cost entries for a column, see `C52_not_costs`. -/
theorem C52_conversion_partial (p : Mps) (G : GeneralForm) (h : p.toGeneralForm = .ok G) (hw : p.WellFormed)
    (hm : RangesMeant p) :
    G.Consistent ∧ G.objective = p.objective ∧
    ∃ hn : G.vars.length = p.columns.length, ∀ x : Fin p.columns.length → ℚ,
      (G.toProgram.Feasible (fun j => x (j.cast hn)) ↔ p.Feasible x) ∧
      G.toProgram.objective (fun j => x (j.cast hn)) = p.objectiveValue x := by
  refine ⟨(toGeneralForm_consistent h hw).1, ?_, toGeneralForm_program h hw hm⟩
  obtain ⟨vars, types, b, -, -, rfl⟩ := toGeneralForm_eq h
  rfl

/-- A well-formed program without semi-continuous variables is rejected exactly if a variable is free and
bounded, a row has two ranges, or different right-hand sides with a range or as equality, or, by a defect,
two equal right-hand sides as equality with a positive range. It never aborts. -/
theorem C52_rejected (p : Mps) (hw : p.WellFormed)
    (hs : ∀ j a b, (j, .semiContinuous a b) ∉ flatten p.bounds) :
    ((∃ G, p.toGeneralForm = .ok G) ∨ p.toGeneralForm = .error .inconsistency) ∧
    (p.toGeneralForm = .error .inconsistency ↔
      (∃ j t, (j, .free) ∈ flatten p.bounds ∧ (j, t) ∈ flatten p.bounds ∧ t ≠ .free) ∨
      (¬((flatten p.ranges).map (·.1)).Nodup) ∨
      (∃ i r v w, (i, r) ∈ flatten p.ranges ∧ (i, v) ∈ flatten p.rhss ∧ (i, w) ∈ flatten p.rhss ∧ v ≠ w) ∨
      ∃ i row, p.rows[i]? = some row ∧ row.relation = .equal ∧
        ((∃ v w, (i, v) ∈ flatten p.rhss ∧ (i, w) ∈ flatten p.rhss ∧ v ≠ w) ∨
        2 ≤ ((flatten p.rhss).filter fun q => q.1 = i).length ∧ ∃ r, 0 < r ∧ (i, r) ∈ flatten p.ranges)) := by
  match h : p.toGeneralForm with
  | .ok G =>
    refine ⟨Or.inl ⟨G, rfl⟩, ⟨fun hc => (nomatch hc), fun hc => ?_⟩⟩
    exfalso
    obtain ⟨-, f1, -⟩ := toGeneralForm_vars h
    obtain ⟨a1, a2, a3, a4⟩ := toGeneralForm_accepted h
    rcases hc with ⟨j, t, h1, h2, h3⟩ | h1 | ⟨i, r, v, w, h1, h2, h3, h4⟩ | ⟨i, row, h1, h2, ⟨v, w, h3, h4, h5⟩ | ⟨h3, r, h4, h5⟩⟩
    · exact h3 (f1 j t h1 h2)
    · exact h1 a1
    · exact h4 (a2 i r v w h1 h2 h3)
    · exact h5 (a3 i row v w h1 h2 h3 h4)
    · have := a4 i row r h1 h2 h4 h5
      unfold valuesOf at this
      rw [List.length_map] at this
      omega
  | .error e =>
    rcases toGeneralForm_error h with ⟨rfl, h1⟩ | ⟨-, ⟨q, h4, h5⟩ | ⟨j, a, b, h4⟩ | ⟨q, h4, h5⟩⟩
    · refine ⟨Or.inr rfl, fun _ => ?_, fun _ => rfl⟩
      unfold valuesOf at h1
      simp only [List.length_map] at h1
      exact h1
    · exact absurd (hw.boundsInRange q h4) (not_lt.2 h5)
    · exact absurd h4 (hs j a b)
    · exact absurd (hw.rhssInRange q h4) (not_lt.2 h5)

/-- Two equal right-hand sides for an equality with a range are rejected, contrary to the intention that
only different ones are. -/
theorem C52_not_repeated_rhs :
    ({ Example.program with
      rhss := [⟨[], [(2, 1)]⟩, ⟨[], [(2, 1)]⟩], ranges := [⟨[], [(2, 4)]⟩] } : Mps).toGeneralForm =
        .error .inconsistency ∧
    ∃ G, ({ Example.program with
      rhss := [⟨[], [(2, 1)]⟩], ranges := [⟨[], [(2, 4)]⟩] } : Mps).toGeneralForm = .ok G :=
  ⟨by decide +kernel, _, rfl⟩

/-- **C52 is false** if a column has several entries in the cost row: all costs of later columns are
lost. -/
theorem C52_not_costs :
    ∃ G, ({ Example.program with costValues := [(0, 1), (0, 1), (1, -2), (2, 3)] } : Mps).toGeneralForm = .ok G ∧
      G.vars.map (·.cost) = [1, 0, 0] :=
  ⟨_, rfl, by decide +kernel⟩

/-- A semi-continuous bound aborts. -/
theorem C52_not_semiContinuous :
    ({ Example.program with bounds := [⟨[], [(0, .semiContinuous 1 3)]⟩] } : Mps).toGeneralForm = .error .panic := by
  decide +kernel

/-- A feasible point of the best objective value in the direction of optimisation. -/
def Best (p : Mps) (x : Fin p.columns.length → ℚ) : Prop :=
  p.Feasible x ∧ ∀ y, p.Feasible y →
    match p.objective with
    | .minimize => p.objectiveValue x ≤ p.objectiveValue y
    | .maximize => p.objectiveValue y ≤ p.objectiveValue x

/-- A best point of the converted program, with values for all variables, is one of the MPS program. -/
theorem best_of_converted {p : Mps} {G : GeneralForm} (h : p.toGeneralForm = .ok G) (hw : p.WellFormed)
    (hm : RangesMeant p) {y : Fin G.vars.length → ℚ} (hy : G.Best y) {values : List (String × ℚ)}
    (he : G.Extends y values) :
    ∃ x, p.Best x ∧ values = List.ofFn (fun j => (String.ofList p.columns[j].name, x j)) ∧
      G.toProgram.objective y = p.objectiveValue x := by
  obtain ⟨-, ho, hn, hx⟩ := C52_conversion_partial p G h hw hm
  obtain ⟨y1, y2⟩ := hy
  have ey : ∀ y, (G.toProgram.Feasible y ↔ p.Feasible fun j => y (j.cast hn.symm)) ∧
      G.toProgram.objective y = p.objectiveValue fun j => y (j.cast hn.symm) :=
    fun y => hx fun j => y (j.cast hn.symm)
  refine ⟨fun j => y (j.cast hn.symm), ⟨?_, fun z hz => ?_⟩, ?_, (ey y).2⟩
  · exact (ey y).1.1 y1
  · have := y2 _ ((hx z).1.2 hz)
    rw [(hx z).2, ho, (ey y).2] at this
    exact this
  · have hlen : values.length = p.columns.length := by
      have := congrArg List.length he.names
      rw [List.length_map, List.length_map] at this
      obtain ⟨vars, types, b, -, -, rfl⟩ := toGeneralForm_eq h
      simpa [GeneralForm.new] using this
    refine List.ext_getElem (by rw [hlen, List.length_ofFn]) fun j h1 h2 => ?_
    rw [List.getElem_ofFn]
    have hj : j < p.columns.length := hlen ▸ h1
    have hj' : j < G.vars.length := hn ▸ hj
    have e1 := he.active ⟨j, hj'⟩ j (by
      obtain ⟨vars, types, b, -, -, rfl⟩ := toGeneralForm_eq h
      show (List.range _)[j]? = some j
      exact List.getElem?_range hj')
    rw [List.getElem?_eq_getElem h1, Option.map_some, Option.some.injEq] at e1
    have e2 := congrArg (·[j]?) he.names
    simp only [List.getElem?_map, List.getElem?_eq_getElem h1, Option.map_some] at e2
    have e3 : (G.original[j]?).map (·.1) = some (String.ofList p.columns[j].name) := by
      obtain ⟨vars, types, b, -, -, rfl⟩ := toGeneralForm_eq h
      simp [GeneralForm.new, List.getElem?_eq_getElem hj]
    rw [e3, Option.some.injEq] at e2
    exact Prod.ext e2 e1

/-- If the converted program has arbitrarily good points, so has the MPS program. -/
theorem unbounded_of_converted {p : Mps} {G : GeneralForm} (h : p.toGeneralForm = .ok G) (hw : p.WellFormed)
    (hm : RangesMeant p) (hu : G.Unbounded) (M : ℚ) :
    ∃ x, p.Feasible x ∧
      match p.objective with
      | .minimize => p.objectiveValue x < M
      | .maximize => M < p.objectiveValue x := by
  obtain ⟨-, ho, hn, hx⟩ := C52_conversion_partial p G h hw hm
  obtain ⟨y, y1, y2⟩ := hu M
  have ey : ∀ y, (G.toProgram.Feasible y ↔ p.Feasible fun j => y (j.cast hn.symm)) ∧
      G.toProgram.objective y = p.objectiveValue fun j => y (j.cast hn.symm) :=
    fun y => hx fun j => y (j.cast hn.symm)
  refine ⟨fun j => y (j.cast hn.symm), ?_, ?_⟩
  · exact (ey y).1.1 y1
  · rw [ho, (ey y).2] at y2
    exact y2

/-- If the converted program is infeasible, so is the MPS program. -/
theorem infeasible_of_converted {p : Mps} {G : GeneralForm} (h : p.toGeneralForm = .ok G) (hw : p.WellFormed)
    (hm : RangesMeant p) (hi : G.toProgram.Infeasible) (x : Fin p.columns.length → ℚ) : ¬p.Feasible x := by
  obtain ⟨-, ho, hn, hx⟩ := C52_conversion_partial p G h hw hm
  exact fun hf => hi _ ((hx x).1.2 hf)

/-- **C52**, partial: an optimum that is found for the converted program is one of the MPS program, with a
value for each column, by its name, in their order. -/
theorem C52_optimum_partial (p : Mps) (G : GeneralForm) (h : p.toGeneralForm = .ok G) (hw : p.WellFormed)
    (hm : RangesMeant p) (hv : ∀ j < p.columns.length, ∃ x, VariableHolds p j x)
    (inv : InverseName) (rule : RuleName) (fuel : ℕ) (solution : GeneralForm.Solution)
    (hz : G.solve inv rule fuel = .ok (.finiteOptimum solution)) :
    ∃ x, p.Best x ∧ solution.values = List.ofFn (fun j => (String.ofList p.columns[j].name, x j)) ∧
      (p.objective = .minimize → solution.objectiveValue = p.objectiveValue x) := by
  obtain ⟨hc, ha⟩ := toGeneralForm_consistent h hw
  obtain ⟨-, ho, -⟩ := C52_conversion_partial p G h hw hm
  obtain ⟨y, y1, y2, y3⟩ := C43_optimum G hc (toGeneralForm_proper h hm hv) inv rule fuel solution hz ha
  obtain ⟨x, x1, x2, x3⟩ := best_of_converted h hw hm y1 y2
  exact ⟨x, x1, x2, fun hmin => by rw [y3 (ho.trans hmin), x3]⟩

/-- **C52**, partial: a program that is said to be unbounded, is. -/
theorem C52_unbounded_partial (p : Mps) (G : GeneralForm) (h : p.toGeneralForm = .ok G) (hw : p.WellFormed)
    (hm : RangesMeant p) (hv : ∀ j < p.columns.length, ∃ x, VariableHolds p j x)
    (inv : InverseName) (rule : RuleName) (fuel : ℕ) (hz : G.solve inv rule fuel = .ok .unbounded) (M : ℚ) :
    ∃ x, p.Feasible x ∧
      match p.objective with
      | .minimize => p.objectiveValue x < M
      | .maximize => M < p.objectiveValue x :=
  unbounded_of_converted h hw hm
    (C43_unbounded G (toGeneralForm_consistent h hw).1 (toGeneralForm_proper h hm hv) inv rule fuel hz) M

/-- **C52**, partial: a program that is said to be infeasible, is. -/
theorem C52_infeasible_partial (p : Mps) (G : GeneralForm) (h : p.toGeneralForm = .ok G) (hw : p.WellFormed)
    (hm : RangesMeant p) (hv : ∀ j < p.columns.length, ∃ x, VariableHolds p j x)
    (inv : InverseName) (rule : RuleName) (fuel : ℕ) (hz : G.solve inv rule fuel = .ok .infeasible)
    (x : Fin p.columns.length → ℚ) : ¬p.Feasible x :=
  infeasible_of_converted h hw hm
    (C43_infeasible G (toGeneralForm_consistent h hw).1 (toGeneralForm_proper h hm hv) inv rule fuel hz) x

/-- The example satisfies all hypotheses, and is solved. -/
example : ∃ x : Fin 3 → ℚ, Example.program.Best x ∧
    [("X", (0 : ℚ)), ("Y", 5), ("Z", -1)] =
      List.ofFn (fun j : Fin 3 => (String.ofList Example.program.columns[j].name, x j)) ∧
    (-13 : ℚ) = Example.program.objectiveValue x := by
  have hz : Example.general.solve .lu .steepestDescentAlongObjective 30 =
      .ok (.finiteOptimum ⟨-13, [("X", 0), ("Y", 5), ("Z", -1)]⟩) := by decide +kernel
  obtain ⟨x, h1, h2, h3⟩ := C52_optimum_partial _ _ Example.program_toGeneralForm Example.program_wellFormed
    Example.program_rangesMeant Example.program_bounds _ _ _ _ hz
  exact ⟨x, h1, h2, h3 rfl⟩

/-- `minimise x` with `x ≤ b`, for a free or a nonnegative variable. -/
def Example.single (b : ℚ) (bounds : List (ℕ × BoundType)) : Mps where
  name := []
  objective := .minimize
  costRowName := "COST".toList
  costValues := [(0, 1)]
  rows := [⟨"R".toList, .less⟩]
  columns := [⟨"X".toList, .continuous, [(0, 1)]⟩]
  rhss := [⟨[], [(0, b)]⟩]
  ranges := []
  bounds := [⟨[], bounds⟩]

example (M : ℚ) : ∃ x, (Example.single 3 [(0, .free)]).Feasible x ∧
    (Example.single 3 [(0, .free)]).objectiveValue x < M := by
  refine C52_unbounded_partial _ (.new .minimize ⟨[[(0, 1)]], 1, 1⟩ [.less] [3]
    [⟨.continuous, 1, none, none, 0, false⟩] ["X"] 0) (by decide +kernel) ?_ ?_ ?_ .lu
    .steepestDescentAlongObjective 30 (by decide +kernel) M
  · exact ⟨by decide +kernel, by decide +kernel, by decide +kernel, by decide +kernel, by decide +kernel,
      by decide +kernel, by decide +kernel⟩
  · intro i r row hr
    cases hr
  · intro j hj
    refine ⟨0, fun t ht => ?_, fun _ => le_rfl⟩
    simp [Example.single, flatten] at ht
    rw [ht.2]
    trivial

example (x : Fin 1 → ℚ) : ¬(Example.single (-1) []).Feasible x := by
  refine C52_infeasible_partial (Example.single (-1) []) (.new .minimize ⟨[[(0, 1)]], 1, 1⟩ [.less] [-1]
    [⟨.continuous, 1, some 0, none, 0, false⟩] ["X"] 0) (by decide +kernel) ?_ ?_ ?_ .lu
    .steepestDescentAlongObjective 30 (by decide +kernel) x
  · exact ⟨by decide +kernel, by decide +kernel, by decide +kernel, by decide +kernel, by decide +kernel,
      by decide +kernel, by decide +kernel⟩
  · intro i r row hr
    cases hr
  · intro j hj
    refine ⟨0, fun t ht => ?_, fun _ => le_rfl⟩
    simp [Example.single, flatten] at ht

end Mps

end Relp
