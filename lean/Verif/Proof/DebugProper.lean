import Verif.Proof.DebugBelowForm
import Verif.Proof.DebugStart
import Verif.Proof.Filter
import Verif.Proof.General

/-! # Bounds that cross in a debug build: helper lemmas -/

namespace Relp

namespace MatrixData

variable {M : MatrixData}

theorem length_rightHandSide (hb : M.b.length = M.nrEquality + M.nrRange + M.nrUpper + M.nrLower)
    (hr : M.ranges.length = M.nrRange) : M.rightHandSide.length = M.nrRows := by
  have e : M.nrRows = M.variableBoundEnd + M.nrRange := by
    unfold nrRows nrVariableBounds nrConstraints variableBoundEnd nrBounds
    omega
  have d1 : M.rangeEnd = M.equalityEnd + M.nrRange := rfl
  have d2 : M.upperEnd = M.rangeEnd + M.nrUpper := rfl
  have d3 : M.lowerEnd = M.upperEnd + M.nrLower := rfl
  have d4 : M.variableBoundEnd = M.lowerEnd + M.nrBounds := rfl
  have d0 : M.equalityEnd = M.nrEquality := rfl
  have d5 : M.boundToVariable.length = M.nrBounds := rfl
  simp only [rightHandSide, List.length_append, List.length_map]
  omega

theorem valid_of_rhs (h1 : M.constraints.data.length = M.vars.length) (h2 : M.constraints.major = M.vars.length)
    (h3 : ∀ v ∈ M.constraints.data, SVec.WF v) (h4 : ∀ v ∈ M.constraints.data, ∀ p ∈ v,
      p.1 < M.nrEquality + M.nrRange + M.nrUpper + M.nrLower)
    (h5 : M.b.length = M.nrEquality + M.nrRange + M.nrUpper + M.nrLower) (h6 : M.ranges.length = M.nrRange)
    (h : ∀ i, 0 ≤ M.toProvider.rhs i) : M.Valid := by
  have hall : ∀ x ∈ M.rightHandSide, 0 ≤ x := by
    intro x hx
    obtain ⟨i, hi, rfl⟩ := List.mem_iff_getElem.1 hx
    have := h ⟨i, by rwa [← length_rightHandSide h5 h6]⟩
    change 0 ≤ M.rightHandSide.getD i 0 at this
    rwa [List.getD_eq_getElem _ _ hi] at this
  refine ⟨h1, h2, h3, h4, h5, h6, fun x hx => hall x ?_, fun x hx => hall x ?_, fun v hv u hu => ?_⟩
  · exact List.mem_append_left _ (List.mem_append_left _ hx)
  · exact List.mem_append_right _ hx
  · obtain ⟨j, hj⟩ := List.mem_iff_getElem?.1 hv
    obtain ⟨k, hk⟩ := (boundIndices_isSome _ _ _ hj).1 (by rw [Option.mem_def.1 hu]; rfl)
    rw [boundIndices_inverse] at hk
    refine hall u (List.mem_append_left _ (List.mem_append_right _ (List.mem_map.2
      ⟨j, List.mem_of_getElem? hk, ?_⟩)))
    rw [hj, Option.bind_some, Option.mem_def.1 hu, Option.getD_some]

end MatrixData

namespace GeneralForm

variable {G : GeneralForm}

/-- If the right-hand side of the tabular form has no negative value, no bounds cross and no range is
negative. -/
theorem Standardized.proper (hG : G.Consistent) {H : GeneralForm} {counts : Counts} (h : Standardized G H counts)
    {M : MatrixData} (hM : H.deriveMatrixData counts = some M) (hr : ∀ i, 0 ≤ M.toProvider.rhs i) :
    G.Proper := by
  obtain ⟨types, t1, rfl, t3⟩ := h.types
  obtain ⟨r, r1, r2⟩ := mapM_rangeOf (l := types.filter fun t => rank t = 1) (by
    intro t ht
    simpa using (List.mem_filter.1 ht).2)
  have hsum : countRank types 0 + countRank types 1 + countRank types 2 + countRank types 3 =
      H.constraintTypes.length := by
    rw [t1, sortedTypes_length, ← offset_four (types := types), offset_succ, offset_three]
  simp only [deriveMatrixData, t1, sorted_slice, r1] at hM
  cases hM
  have hv : (H.toMatrixData ⟨countRank types 0, countRank types 1, countRank types 2, countRank types 3⟩ r).Valid := MatrixData.valid_of_rhs h.dataLength h.major h.wf
    (fun c hc p hpc => lt_of_lt_of_eq (h.inRange c hc p hpc) hsum.symm) (h.bLength.trans hsum.symm) (by
      have := filter_length (types := types) 1
      rw [r2, List.length_map] at this
      exact this) hr
  refine ⟨fun v hv' l hl u hu => ?_, fun q hq => hv.ranges_nonneg q ?_⟩
  · have hb : H.BoundsHold fun _ => 0 := by
      intro j w hw
      have hmem := List.mem_of_getElem? hw
      refine ⟨fun l hl => ?_, fun u hu => hv.upper_nonneg w hmem u hu⟩
      rw [h.lower w hmem] at hl
      cases hl
      exact le_refl _
    rw [h.bounds] at hb
    obtain ⟨j, hj, rfl⟩ := List.mem_iff_getElem.1 hv'
    have hf : j ∉ G.freeIndices := by
      rw [mem_freeIndices hG.major]
      rintro ⟨w, hw, h1, -⟩
      rw [List.getElem?_eq_getElem hj] at hw
      cases hw
      rw [h1] at hl
      cases hl
    have := hb j _ (split_vars hG hj)
    rw [if_neg hf] at this
    exact (this.1 l hl).trans (this.2 u hu)
  · have : ConstraintType.range q ∈ types.filter fun t => rank t = 1 :=
      List.mem_filter.2 ⟨(t3 q).2 hq, by simp [rank]⟩
    rw [r2] at this
    obtain ⟨q', hq', e⟩ := List.mem_map.1 this
    cases e
    exact hq'

theorem standardizeDebug_some {H : GeneralForm} {counts : Counts} (h : G.standardizeDebug = .ok (H, counts)) :
    G.standardize = some (H, counts) := by
  have := (standardizeDebug_below G).elim h
  cases hs : G.standardize with
  | none => rw [hs] at this; cases this
  | some p => rw [hs] at this; cases this; rfl

/-- A debug build gives no answer for a problem with bounds that cross or a negative range. -/
theorem solveDebug_proper (hG : G.Consistent) {inv : InverseName} {rule : RuleName} {fuel : ℕ}
    {answer : LinearProgramType} (h : G.solveDebug inv rule fuel = .ok answer) : G.Proper := by
  unfold solveDebug at h
  obtain ⟨⟨H, counts⟩, h1, h⟩ := bind_eq_ok h
  obtain ⟨M, h2, h⟩ := bind_eq_ok h
  unfold solveStandardizedDebug at h
  obtain ⟨a, h3, -⟩ := bind_eq_ok h
  obtain ⟨H', counts', h4, h5⟩ := standardize_spec hG
  rw [standardizeDebug_some h1] at h4
  cases h4
  have h6 := (deriveMatrixDataDebug_below H counts).elim h2
  have h7 : H.deriveMatrixData counts = some M := by
    cases hs : H.deriveMatrixData counts with
    | none => rw [hs] at h6; cases h6
    | some p => rw [hs] at h6; cases h6; rfl
  refine h5.proper hG h7 ?_
  have hw : ∀ j, SVec.WF (M.toProvider.column j) := by
    obtain ⟨types, t1, rfl, t3⟩ := h5.types
    obtain ⟨r, r1, r2⟩ := mapM_rangeOf (l := types.filter fun t => rank t = 1) (by
      intro t ht
      simpa using (List.mem_filter.1 ht).2)
    have hsum : countRank types 0 + countRank types 1 + countRank types 2 + countRank types 3 =
        H.constraintTypes.length := by
      rw [t1, sortedTypes_length, ← offset_four (types := types), offset_succ, offset_three]
    simp only [deriveMatrixData, t1, sorted_slice, r1] at h7
    cases h7
    exact fun j => SVec.wf_toFin (MatrixData.wf_tuples h5.wf
      (fun c hc p hpc => lt_of_lt_of_eq (h5.inRange c hc p hpc) hsum.symm) j j.2)
  cases inv with
  | rows =>
    have h8 : solveWithDebug DebugRows rule.type fuel M.toProvider M.initialBasis = .ok a := h3
    exact (partially_says hw h8).1
  | lu =>
    have h8 : solveWithDebug DebugLU rule.type fuel M.toProvider M.initialBasis = .ok a := h3
    exact (partially_says hw h8).1

end GeneralForm

end Relp
