import Verif.Spec.Scale
import Verif.Proof.Vector
import Verif.Spec.GeneralForm

/-!
# Scaling of a problem
-/

namespace Relp

/-- The dimensions of a problem match. -/
structure GeneralForm.Shaped (G : GeneralForm) : Prop where
  bLength : G.b.length = G.constraintTypes.length
  dataLength : G.constraints.data.length = G.vars.length
  wf : ∀ v ∈ G.constraints.data, SVec.WF v
  inRange : ∀ v ∈ G.constraints.data, ∀ p ∈ v, p.1 < G.constraintTypes.length

theorem GeneralForm.Consistent.shaped {G : GeneralForm} (h : G.Consistent) : G.Shaped :=
  ⟨h.bLength, h.dataLength, h.wf, h.inRange⟩

namespace Scaling

variable {s : Scaling} {op inverseOp : ℚ → ℚ → ℚ}

theorem row_getElem? {i : ℕ} (h : i < s.rowFactors.length) : s.rowFactors[i]? = some (s.row i) := by
  unfold row
  rw [List.getD_eq_getElem _ _ h, List.getElem?_eq_getElem h]

theorem column_getElem? {j : ℕ} (h : j < s.columnFactors.length) :
    s.columnFactors[j]? = some (s.column j) := by
  unfold column
  rw [List.getD_eq_getElem _ _ h, List.getElem?_eq_getElem h]

theorem scaleBackVector_eq {v : SVec ℕ} (h : ∀ p ∈ v, p.1 < s.columnFactors.length) :
    s.scaleBackVector v = some (v.map fun p => (p.1, p.2 * s.column p.1)) := by
  unfold scaleBackVector
  induction v with
  | nil => rfl
  | cons p v ih =>
    rw [List.mapM_cons, ih fun q hq => h q (by simp [hq]), column_getElem? (h p (by simp))]
    rfl

/-- A scaled column. -/
def scaledColumn (s : Scaling) (op : ℚ → ℚ → ℚ) (j : ℕ) (column : SVec ℕ) : SVec ℕ :=
  column.map fun p => (p.1, op p.2 (s.row p.1 * s.column j))

/-- A scaled variable. -/
def scaledVariable (s : Scaling) (op inverseOp : ℚ → ℚ → ℚ) (j : ℕ) (v : Variable) : Variable :=
  { v with
    cost := op v.cost (s.costFactor * s.column j)
    lowerBound := v.lowerBound.map fun bound => inverseOp bound (s.column j)
    upperBound := v.upperBound.map fun bound => inverseOp bound (s.column j) }

/-- A scaled constraint type. -/
def scaledType (s : Scaling) (op : ℚ → ℚ → ℚ) (i : ℕ) : ConstraintType → ConstraintType
  | .range r => .range (op r (s.row i))
  | t => t

theorem scaleColumn_eq {j : ℕ} {column : SVec ℕ} {v : Variable}
    (h : ∀ p ∈ column, p.1 < s.rowFactors.length) :
    s.scaleColumn op inverseOp (s.column j) column v =
      some (s.scaledColumn op j column, s.scaledVariable op inverseOp j v) := by
  unfold scaleColumn
  have : (column.mapM fun p => do
      let rowFactor ← s.rowFactors[p.1]?
      pure (p.1, op p.2 (rowFactor * s.column j))) = some (s.scaledColumn op j column) := by
    induction column with
    | nil => rfl
    | cons p column ih =>
      rw [List.mapM_cons, ih fun q hq => h q (by simp [hq]), row_getElem? (h p (by simp))]
      rfl
  rw [this]
  rfl

theorem scaleColumns_eq {j : ℕ} {columns : List (SVec ℕ)} {vars : List Variable}
    (hl : vars.length = columns.length) (hj : j + columns.length ≤ s.columnFactors.length)
    (h : ∀ column ∈ columns, ∀ p ∈ column, p.1 < s.rowFactors.length) :
    s.scaleColumns op inverseOp j columns vars =
      some (columns.mapIdx fun k => s.scaledColumn op (j + k),
        vars.mapIdx fun k => s.scaledVariable op inverseOp (j + k)) := by
  induction columns generalizing j vars with
  | nil =>
    rw [List.length_nil, List.length_eq_zero_iff] at hl
    subst hl
    rfl
  | cons column columns ih =>
    cases vars with
    | nil => cases hl
    | cons v vars =>
      rw [List.length_cons, List.length_cons, Nat.add_right_cancel_iff] at hl
      rw [List.length_cons] at hj
      rw [scaleColumns, column_getElem? (by omega)]
      simp only [bind, Option.bind, scaleColumn_eq (h column (by simp)),
        ih (j := j + 1) hl (by omega) fun c hc => h c (by simp [hc]), List.mapIdx_cons, Nat.add_zero,
        Nat.add_assoc, Nat.add_comm 1]
      rfl

theorem scaleRows_eq {i : ℕ} {b : List ℚ} {types : List ConstraintType}
    (hl : types.length = b.length) (hi : i + b.length ≤ s.rowFactors.length) :
    s.scaleRows op i b types =
      some (b.mapIdx fun k v => op v (s.row (i + k)), types.mapIdx fun k => s.scaledType op (i + k)) := by
  induction b generalizing i types with
  | nil =>
    rw [List.length_nil, List.length_eq_zero_iff] at hl
    subst hl
    rfl
  | cons v b ih =>
    cases types with
    | nil => cases hl
    | cons t types =>
      rw [List.length_cons, List.length_cons, Nat.add_right_cancel_iff] at hl
      rw [List.length_cons] at hi
      rw [scaleRows, row_getElem? (by omega)]
      simp only [bind, Option.bind, ih (i := i + 1) hl (by omega), List.mapIdx_cons, Nat.add_zero,
        Nat.add_assoc, Nat.add_comm 1]
      cases t <;> rfl

/-- A scaled problem. -/
def scaled (s : Scaling) (op inverseOp : ℚ → ℚ → ℚ) (G : GeneralForm) : GeneralForm :=
  { G with
    constraints := { G.constraints with data := G.constraints.data.mapIdx fun k => s.scaledColumn op k }
    vars := G.vars.mapIdx fun k => s.scaledVariable op inverseOp k
    b := G.b.mapIdx fun k v => op v (s.row k)
    constraintTypes := G.constraintTypes.mapIdx fun k => s.scaledType op k }

theorem apply_eq {G : GeneralForm} (hc : G.constraints.data.length = G.vars.length)
    (hb : G.b.length = G.constraintTypes.length)
    (hi : ∀ v ∈ G.constraints.data, ∀ p ∈ v, p.1 < G.constraintTypes.length)
    (h1 : s.rowFactors.length = G.constraintTypes.length) (h2 : s.columnFactors.length = G.vars.length) :
    s.apply op inverseOp G = some (s.scaled op inverseOp G) := by
  unfold apply
  rw [scaleColumns_eq hc.symm (by omega) (by rw [h1]; exact hi), scaleRows_eq hb.symm (by omega)]
  simp only [Nat.zero_add]
  rfl

theorem getD_pos {l : List ℚ} (h : ∀ r ∈ l, 0 < r) (i : ℕ) : 0 < l.getD i 1 := by
  rw [List.getD_eq_getElem?_getD]
  match hi : l[i]? with
  | none => exact zero_lt_one
  | some r => exact h r (List.mem_of_getElem? hi)

variable {G : GeneralForm}

theorem Positive.row_pos (h : s.Positive G) (i : ℕ) : 0 < s.row i := getD_pos h.row i

theorem Positive.column_pos (h : s.Positive G) (j : ℕ) : 0 < s.column j := getD_pos h.column j

theorem scaled_back (h : s.Positive G) : s.scaled (· / ·) (· * ·) (s.scaled (· * ·) (· / ·) G) = G := by
  have hr := fun i => ne_of_gt (h.row_pos i)
  have hc := fun j => ne_of_gt (h.column_pos j)
  have h0 := ne_of_gt h.cost
  obtain ⟨objective, fixedCost, ⟨data, major, minor⟩, types, b, vars, original, fromActive⟩ := G
  unfold scaled
  simp only [List.mapIdx_mapIdx, GeneralForm.mk.injEq, SparseMatrix.mk.injEq, and_true, true_and]
  refine ⟨?_, ?_, ?_, ?_⟩
  · refine List.ext_getElem (by simp) fun k h1 h2 => ?_
    rw [List.getElem_mapIdx]
    simp only [Function.comp, scaledColumn, List.map_map]
    refine (List.map_congr_left fun p _ => ?_).trans (List.map_id _)
    exact Prod.ext rfl (mul_div_cancel_right₀ _ (mul_ne_zero (hr _) (hc _)))
  · refine List.ext_getElem (by simp) fun k h1 h2 => ?_
    rw [List.getElem_mapIdx]
    cases ht : types[k] with
    | range r => simp [Function.comp, scaledType, mul_div_cancel_right₀ _ (hr k)]
    | equal => rfl
    | less => rfl
    | greater => rfl
  · refine List.ext_getElem (by simp) fun k h1 h2 => ?_
    rw [List.getElem_mapIdx]
    exact mul_div_cancel_right₀ _ (hr k)
  · refine List.ext_getElem (by simp) fun k h1 h2 => ?_
    rw [List.getElem_mapIdx]
    rcases hv : vars[k] with ⟨t, cost, lower, upper, shift, flipped⟩
    simp only [Function.comp, scaledVariable, Option.map_map, div_mul_cancel₀ _ (hc k),
      mul_div_cancel_right₀ _ (mul_ne_zero h0 (hc k)), Variable.mk.injEq, and_true, true_and]
    constructor
    · cases lower <;> simp [Function.comp, div_mul_cancel₀ _ (hc k)]
    · cases upper <;> simp [Function.comp, div_mul_cancel₀ _ (hc k)]

theorem val_scaledColumn (j : ℕ) (v : SVec ℕ) (i : ℕ) :
    SVec.val (s.scaledColumn (· * ·) j v) i = SVec.val v i * (s.row i * s.column j) := by
  induction v with
  | nil => simp [scaledColumn]
  | cons p v ih =>
    unfold scaledColumn at ih ⊢
    rw [List.map_cons, SVec.val_cons, SVec.val_cons, ih, add_mul]
    congr 1
    by_cases hp : p.1 = i
    · subst hp
      simp
    · simp [hp]

theorem scaled_shaped (h : s.Positive G) (hG : G.Shaped) :
    (s.scaled (· * ·) (· / ·) G).Shaped where
  bLength := by simpa [scaled] using hG.bLength
  dataLength := by simpa [scaled] using hG.dataLength
  wf := by
    intro v hv
    obtain ⟨k, hk, rfl⟩ := List.getElem_of_mem hv
    have hk' : k < G.constraints.data.length := by simpa [scaled] using hk
    have hw := hG.wf _ (List.getElem_mem hk')
    have e : (s.scaled (· * ·) (· / ·) G).constraints.data[k] =
        s.scaledColumn (· * ·) k G.constraints.data[k] := by simp [scaled]
    rw [e]
    unfold scaledColumn
    refine ⟨?_, ?_⟩
    · exact List.pairwise_map.2 hw.sorted
    · intro q hq
      obtain ⟨p, hp, rfl⟩ := List.mem_map.1 hq
      exact mul_ne_zero (hw.nonzero p hp) (mul_ne_zero (ne_of_gt (h.row_pos _)) (ne_of_gt (h.column_pos _)))
  inRange := by
    intro v hv p hp
    obtain ⟨k, hk, rfl⟩ := List.getElem_of_mem hv
    have hk' : k < G.constraints.data.length := by simpa [scaled] using hk
    have hw := hG.inRange _ (List.getElem_mem hk')
    have e : (s.scaled (· * ·) (· / ·) G).constraints.data[k] =
        s.scaledColumn (· * ·) k G.constraints.data[k] := by simp [scaled]
    rw [e] at hp
    obtain ⟨q, hq, rfl⟩ := List.mem_map.1 hp
    have := hw q hq
    simpa [scaled] using this

theorem scaled_consistent (h : s.Positive G) (hG : G.Consistent) :
    (s.scaled (· * ·) (· / ·) G).Consistent where
  bLength := (scaled_shaped h hG.shaped).bLength
  minor := by simpa [scaled] using hG.minor
  major := by simpa [scaled] using hG.major
  dataLength := (scaled_shaped h hG.shaped).dataLength
  wf := (scaled_shaped h hG.shaped).wf
  inRange := (scaled_shaped h hG.shaped).inRange
  activeLength := by simpa [scaled] using hG.activeLength
  active := hG.active
  notSplit := hG.notSplit
  fresh := by
    intro v hv
    obtain ⟨k, hk, rfl⟩ := List.getElem_of_mem hv
    have hk' : k < G.vars.length := by simpa [scaled] using hk
    have e : (s.scaled (· * ·) (· / ·) G).vars[k] =
        s.scaledVariable (· * ·) (· / ·) k G.vars[k] := by simp [scaled]
    rw [e]
    exact hG.fresh G.vars[k] (List.getElem_mem hk')

theorem scaledType_holds {i : ℕ} (hr : 0 < s.row i) (t : ConstraintType) (b x : ℚ) :
    (s.scaledType (· * ·) i t).Holds (b * s.row i) (x * s.row i) ↔ t.Holds b x := by
  cases t with
  | equal => exact mul_left_inj' (ne_of_gt hr)
  | less => exact mul_le_mul_iff_left₀ hr
  | greater => exact mul_le_mul_iff_left₀ hr
  | range r =>
    show b * s.row i - r * s.row i ≤ x * s.row i ∧ x * s.row i ≤ b * s.row i ↔ b - r ≤ x ∧ x ≤ b
    rw [← sub_mul, mul_le_mul_iff_left₀ hr, mul_le_mul_iff_left₀ hr]

open Matrix in
theorem scaled_program (h : s.Positive G) (hG : G.Shaped) :
    ∃ hn : (s.scaled (· * ·) (· / ·) G).vars.length = G.vars.length,
      ∀ y : Fin (s.scaled (· * ·) (· / ·) G).vars.length → ℚ,
        ((s.scaled (· * ·) (· / ·) G).toProgram.Feasible y ↔
          G.toProgram.Feasible fun j => y (j.cast hn.symm) * s.column j) ∧
        (s.scaled (· * ·) (· / ·) G).toProgram.objective y - G.fixedCost =
          s.costFactor * (G.toProgram.objective (fun j => y (j.cast hn.symm) * s.column j) - G.fixedCost) := by
  have hn : (s.scaled (· * ·) (· / ·) G).vars.length = G.vars.length := by simp [scaled]
  have hm : (s.scaled (· * ·) (· / ·) G).constraintTypes.length = G.constraintTypes.length := by simp [scaled]
  refine ⟨hn, fun y => ⟨and_congr ?_ ?_, ?_⟩⟩
  · have key : ∀ (i : ℕ) (h1 : i < (s.scaled (· * ·) (· / ·) G).constraintTypes.length)
        (h2 : i < G.constraintTypes.length),
        (((s.scaled (· * ·) (· / ·) G).toProgram.relation ⟨i, h1⟩).Holds
          ((s.scaled (· * ·) (· / ·) G).toProgram.b ⟨i, h1⟩)
          (((s.scaled (· * ·) (· / ·) G).toProgram.A *ᵥ y) ⟨i, h1⟩) ↔
        (G.toProgram.relation ⟨i, h2⟩).Holds (G.toProgram.b ⟨i, h2⟩)
          ((G.toProgram.A *ᵥ fun j => y (j.cast hn.symm) * s.column j) ⟨i, h2⟩)) := by
      intro i h1 h2
      have e1 : (s.scaled (· * ·) (· / ·) G).toProgram.relation ⟨i, h1⟩ =
          s.scaledType (· * ·) i (G.toProgram.relation ⟨i, h2⟩) := by
        show (G.constraintTypes.mapIdx fun k => s.scaledType (· * ·) k)[i]'(by simpa using h2) = _
        rw [List.getElem_mapIdx]
        rfl
      have e2 : (s.scaled (· * ·) (· / ·) G).toProgram.b ⟨i, h1⟩ = G.toProgram.b ⟨i, h2⟩ * s.row i := by
        have hb : i < G.b.length := by rw [hG.bLength]; exact h2
        show (G.b.mapIdx fun k v => v * s.row k).getD i 0 = G.b.getD i 0 * s.row i
        rw [List.getD_eq_getElem _ _ (by simpa using hb), List.getElem_mapIdx, List.getD_eq_getElem _ _ hb]
      have e3 : ((s.scaled (· * ·) (· / ·) G).toProgram.A *ᵥ y) ⟨i, h1⟩ =
          (G.toProgram.A *ᵥ fun j => y (j.cast hn.symm) * s.column j) ⟨i, h2⟩ * s.row i := by
        unfold Matrix.mulVec dotProduct
        rw [Finset.sum_mul]
        refine Fintype.sum_equiv (finCongr hn) _ _ fun j => ?_
        have hj : j.val < G.constraints.data.length := by
          rw [hG.dataLength]
          exact lt_of_lt_of_eq j.2 hn
        show SVec.val ((G.constraints.data.mapIdx fun k => s.scaledColumn (· * ·) k).getD j.val []) i * y j =
          SVec.val (G.constraints.data.getD j.val []) i * (y j * s.column j.val) * s.row i
        rw [List.getD_eq_getElem _ _ (by simpa using hj), List.getElem_mapIdx, List.getD_eq_getElem _ _ hj,
          val_scaledColumn]
        ring
      rw [e1, e2, e3, scaledType_holds (h.row_pos i)]
    constructor
    · intro hf i
      exact (key i (lt_of_lt_of_eq i.2 hm.symm) i.2).1 (hf _)
    · intro hf i
      exact (key i i.2 (lt_of_lt_of_eq i.2 hm)).2 (hf _)
  · have key : ∀ (j : ℕ) (h1 : j < (s.scaled (· * ·) (· / ·) G).vars.length) (h2 : j < G.vars.length),
        (((∀ l ∈ (s.scaled (· * ·) (· / ·) G).toProgram.lower ⟨j, h1⟩, l ≤ y ⟨j, h1⟩) ∧
          ∀ u ∈ (s.scaled (· * ·) (· / ·) G).toProgram.upper ⟨j, h1⟩, y ⟨j, h1⟩ ≤ u) ↔
        ((∀ l ∈ G.toProgram.lower ⟨j, h2⟩, l ≤ y ⟨j, h1⟩ * s.column j) ∧
          ∀ u ∈ G.toProgram.upper ⟨j, h2⟩, y ⟨j, h1⟩ * s.column j ≤ u)) := by
      intro j h1 h2
      have e : (s.scaled (· * ·) (· / ·) G).vars[j]'h1 = s.scaledVariable (· * ·) (· / ·) j G.vars[j] := by
        simp [scaled]
      have e1 : (s.scaled (· * ·) (· / ·) G).toProgram.lower ⟨j, h1⟩ =
          (G.toProgram.lower ⟨j, h2⟩).map fun bound => bound / s.column j := congrArg (·.lowerBound) e
      have e2 : (s.scaled (· * ·) (· / ·) G).toProgram.upper ⟨j, h1⟩ =
          (G.toProgram.upper ⟨j, h2⟩).map fun bound => bound / s.column j := congrArg (·.upperBound) e
      rw [e1, e2]
      have hc := h.column_pos j
      simp only [Option.mem_def, Option.map_eq_some_iff, forall_exists_index, and_imp,
        forall_apply_eq_imp_iff₂, div_le_iff₀ hc, le_div_iff₀ hc]
    constructor
    · intro hf j
      exact (key j (lt_of_lt_of_eq j.2 hn.symm) j.2).1 (hf _)
    · intro hf j
      exact (key j j.2 (lt_of_lt_of_eq j.2 hn)).2 (hf _)
  · unfold Spec.Program.objective dotProduct
    have e0 : (s.scaled (· * ·) (· / ·) G).toProgram.constant = G.fixedCost := rfl
    have e1 : G.toProgram.constant = G.fixedCost := rfl
    rw [e0, e1, add_sub_cancel_left, add_sub_cancel_left, Finset.mul_sum]
    refine Fintype.sum_equiv (finCongr hn) _ _ fun j => ?_
    have hj : j.val < G.vars.length := lt_of_lt_of_eq j.2 hn
    have e : (s.scaled (· * ·) (· / ·) G).toProgram.c j = G.vars[j.val].cost * (s.costFactor * s.column j.val) := by
      show ((s.scaled (· * ·) (· / ·) G).vars[j.val]'j.2).cost = _
      simp [scaled, scaledVariable]
    rw [e]
    show _ = s.costFactor * (G.vars[j.val].cost * (y j * s.column j.val))
    ring

end Scaling

end Relp
