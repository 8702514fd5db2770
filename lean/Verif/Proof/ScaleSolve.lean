import Verif.Model.SolveScaled
import Verif.Proof.ScaleSearch
import Verif.Props.GeneralForm

/-!
# Solving a scaled problem
-/

namespace Relp

open Scaling (Factorization Stop)

namespace GeneralForm

/-- Kind of the constraint at a position if constraints are sorted by kind. -/
def rankAt (counts : Counts) (i : ℕ) : ℕ :=
  if i < counts.equality then 0
  else if i < counts.equality + counts.range then 1
  else if i < counts.equality + counts.range + counts.upper then 2
  else 3

/-- A problem of which the tabular form can be derived. -/
structure Tabular (K : GeneralForm) (counts : Counts) : Prop extends K.Shaped where
  major : K.constraints.major = K.vars.length
  sum : counts.equality + counts.range + counts.upper + counts.lower = K.constraintTypes.length
  types : ∀ (i : ℕ) t, K.constraintTypes[i]? = some t → rank t = rankAt counts i
  lower : ∀ v ∈ K.vars, v.lowerBound = some 0

/-- Numbers have the signs that the tabular form needs. -/
structure Signs (K : GeneralForm) : Prop where
  b : ∀ x ∈ K.b, 0 ≤ x
  upper : ∀ v ∈ K.vars, ∀ u ∈ v.upperBound, 0 ≤ u
  ranges : ∀ r, .range r ∈ K.constraintTypes → 0 ≤ r

variable {G H K : GeneralForm} {counts : Counts}

theorem Standardized.tabular (h : Standardized G H counts) : Tabular H counts := by
  obtain ⟨types, t1, rfl, t3⟩ := h.types
  obtain ⟨r, r1, r2⟩ := mapM_rangeOf (l := types.filter fun t => rank t = 1) (by
    intro t ht
    simpa using (List.mem_filter.1 ht).2)
  refine ⟨⟨h.bLength, h.dataLength, h.wf, h.inRange⟩, h.major, ?_, fun i t ht => ?_, h.lower⟩
  · rw [t1, sortedTypes_length, ← offset_four (types := types), offset_succ, offset_three]
  · rw [t1] at ht
    rw [sorted_types r2 ht]
    unfold rankAt
    split_ifs <;> rfl

theorem Standardized.signs (h : Standardized G H counts) (hp : G.Proper) : Signs H := by
  obtain ⟨types, t1, rfl, t3⟩ := h.types
  refine ⟨h.bNonneg hp, h.upper hp, fun r hr => hp.ranges r ((t3 r).1 ?_)⟩
  rw [t1, sortedTypes_eq] at hr
  simp only [List.mem_append, List.mem_filter] at hr
  tauto

theorem Tabular.derive (h : Tabular K counts) :
    ∃ ranges, K.deriveMatrixData counts = some (K.toMatrixData counts ranges) ∧
      (K.Signs → (K.toMatrixData counts ranges).Valid) ∧
      (∀ y : Fin K.vars.length → ℚ,
        (K.toMatrixData counts ranges).toProgram.Feasible y ↔ K.toProgram.Feasible y) ∧
      ∀ y : Fin K.vars.length → ℚ, K.toProgram.objective y =
        K.fixedCost + (K.toMatrixData counts ranges).toProgram.objective y := by
  have hsum := h.sum
  set slice := (K.constraintTypes.take (counts.equality + counts.range)).drop counts.equality with hslice
  have hget : ∀ i < counts.range, slice[i]? = K.constraintTypes[counts.equality + i]? := by
    intro i hi
    rw [hslice, List.getElem?_drop, List.getElem?_take_of_lt (by omega)]
  have hlen : slice.length = counts.range := by
    rw [hslice, List.length_drop, List.length_take]
    omega
  obtain ⟨r, r1, r2⟩ := mapM_rangeOf (l := slice) (by
    intro t ht
    obtain ⟨i, hi, rfl⟩ := List.getElem_of_mem ht
    have e := hget i (by omega)
    rw [List.getElem?_eq_getElem hi] at e
    have := h.types _ _ e.symm
    rw [this]
    unfold rankAt
    rw [if_neg (by omega), if_pos (by omega)])
  have hrel : ∀ (i : ℕ) t, K.constraintTypes[i]? = some t → (K.toMatrixData counts r).relationOf i = t := by
    intro i t ht
    have hr := h.types i t ht
    show (if i < counts.equality then ConstraintType.equal
      else if i < counts.equality + counts.range then .range (r.getD (i - counts.equality) 0)
      else if i < counts.equality + counts.range + counts.upper then .less
      else .greater) = t
    unfold rankAt at hr
    by_cases h0 : i < counts.equality
    · rw [if_pos h0] at hr ⊢
      cases t <;> simp [rank] at hr
      rfl
    rw [if_neg h0] at hr ⊢
    by_cases h1 : i < counts.equality + counts.range
    · rw [if_pos h1]
      have e := hget (i - counts.equality) (by omega)
      rw [show counts.equality + (i - counts.equality) = i by omega, ht, r2, List.getElem?_map] at e
      obtain ⟨q, hq, rfl⟩ := Option.map_eq_some_iff.1 e
      rw [List.getD_eq_getElem?_getD, hq]
      rfl
    rw [if_neg h1] at hr ⊢
    by_cases h2 : i < counts.equality + counts.range + counts.upper
    · rw [if_pos h2] at hr ⊢
      cases t <;> simp [rank] at hr
      rfl
    · rw [if_neg h2] at hr ⊢
      cases t <;> simp [rank] at hr
      rfl
  refine ⟨r, ?_, fun hp => ?_, fun y => ?_, fun y => ?_⟩
  · simp only [deriveMatrixData, ← hslice, r1]
    rfl
  · refine ⟨h.dataLength, h.major, h.wf, ?_, ?_, ?_, hp.b, ?_, hp.upper⟩
    · intro c hc p hpc
      exact lt_of_lt_of_eq (h.inRange c hc p hpc) hsum.symm
    · exact h.bLength.trans hsum.symm
    · rw [r2, List.length_map] at hlen
      exact hlen
    · intro q hq
      refine hp.ranges q ?_
      have : ConstraintType.range q ∈ slice := by
        rw [r2]; exact List.mem_map.2 ⟨q, hq, rfl⟩
      exact List.mem_of_mem_take (List.mem_of_mem_drop this)
  · constructor
    · rintro ⟨a1, a2⟩
      refine ⟨fun i => ?_, fun j => ?_⟩
      · have := a1 ⟨i, lt_of_lt_of_eq i.2 hsum.symm⟩
        have e := hrel i _ (List.getElem?_eq_getElem i.2)
        simp only [MatrixData.toProgram, e] at this
        exact this
      · refine ⟨fun l hl => ?_, (a2 j).2⟩
        have h0 := h.lower _ (List.getElem_mem j.2)
        have hl' : l ∈ K.vars[j].lowerBound := hl
        have hl2 : l ∈ some (0 : ℚ) := h0 ▸ hl'
        exact (a2 j).1 l hl2
    · rintro ⟨a1, a2⟩
      refine ⟨fun i => ?_, fun j => ?_⟩
      · have hi : i.val < K.constraintTypes.length := lt_of_lt_of_eq i.2 hsum
        have := a1 ⟨i, hi⟩
        have e := hrel i _ (List.getElem?_eq_getElem hi)
        simp only [MatrixData.toProgram, e]
        exact this
      · refine ⟨fun l hl => ?_, (a2 j).2⟩
        have h0 := h.lower _ (List.getElem_mem j.2)
        refine (a2 j).1 l ?_
        change l ∈ K.vars[j].lowerBound
        have : K.vars[j].lowerBound = some 0 := h0
        rw [this]; exact hl
  · simp only [Spec.Program.objective]
    change K.fixedCost + _ = K.fixedCost + (0 + _)
    rw [zero_add]
    rfl

/-! ### From the standardised problem to the original one -/

theorem Standardized.best (hG : G.Consistent) (ha : G.Acyclic) (h : Standardized G H counts)
    {y : Fin H.vars.length → ℚ} (y1 : H.toProgram.Feasible y)
    (y2 : ∀ y', H.toProgram.Feasible y' → H.toProgram.objective y ≤ H.toProgram.objective y')
    {reduced : SparseVector} (hr : Spec.Represents reduced (List.ofFn y)) :
    ∃ solution x, H.computeFullSolution reduced = some solution ∧ G.Best x ∧ G.Extends x solution.values ∧
      (G.objective = .minimize → solution.objectiveValue = G.toProgram.objective x) := by
  obtain ⟨solution, x, s1, s2, s3, s4⟩ := computeFull_spec hG ha h hr
  have e1 := h.objective_eq hG s2
  refine ⟨solution, x, s1, ⟨h.sound hG y1 s2, fun x' hx' => ?_⟩, s3, fun hd => ?_⟩
  · obtain ⟨y', hy', hr'⟩ := h.onto hG hx'
    have h3 := y2 y' hy'
    have e2 := h.objective_eq hG hr'
    split
    next hd => rw [hd, sign] at e1 e2; linarith
    next hd => rw [hd, sign] at e1 e2; linarith
  · rw [hd, sign] at e1
    rw [s4, e1]
    ring

theorem Standardized.unbounded (hG : G.Consistent) (h : Standardized G H counts)
    (hu : ∀ bound, ∃ y, H.toProgram.Feasible y ∧ H.toProgram.objective y < bound) : G.Unbounded := by
  intro bound
  have key : ∀ b, ∃ y x, H.toProgram.Feasible y ∧ H.toProgram.objective y < b ∧ Recovers G H y x := by
    intro b
    obtain ⟨y, y1, y2⟩ := hu b
    exact ⟨y, fun j => G.merge (H.point (MatrixData.extendFin y)) j, y1, y2, (recovers_iff hG h y _).2 fun _ => rfl⟩
  cases hd : G.objective with
  | minimize =>
    obtain ⟨y, x, y1, y2, hx⟩ := key bound
    refine ⟨x, h.sound hG y1 hx, ?_⟩
    have e1 := h.objective_eq hG hx
    rw [hd, sign] at e1
    change _ < _
    linarith
  | maximize =>
    obtain ⟨y, x, y1, y2, hx⟩ := key (H.fixedCost - (bound - H.fixedCost))
    refine ⟨x, h.sound hG y1 hx, ?_⟩
    have e1 := h.objective_eq hG hx
    rw [hd, sign] at e1
    change _ < _
    linarith

end GeneralForm

/-! ### Scaled problems -/

namespace Scaling

open GeneralForm

variable {s : Scaling} {H : GeneralForm} {counts : Counts}

theorem rank_scaledType (op : ℚ → ℚ → ℚ) (i : ℕ) (t : ConstraintType) : rank (s.scaledType op i t) = rank t := by
  cases t <;> rfl

theorem scaled_tabular (hs : s.Positive H) (h : Tabular H counts) :
    Tabular (s.scaled (· * ·) (· / ·) H) counts where
  toShaped := scaled_shaped hs h.toShaped
  major := by simpa [scaled] using h.major
  sum := by simpa [scaled] using h.sum
  types := by
    intro i t ht
    have ht' : (H.constraintTypes.mapIdx fun k => s.scaledType (· * ·) k)[i]? = some t := ht
    rw [List.getElem?_mapIdx] at ht'
    obtain ⟨t', h1, rfl⟩ := Option.map_eq_some_iff.1 ht'
    rw [rank_scaledType]
    exact h.types i t' h1
  lower := by
    intro v hv
    have hv' : v ∈ H.vars.mapIdx fun k => s.scaledVariable (· * ·) (· / ·) k := hv
    obtain ⟨k, hk, rfl⟩ := List.mem_mapIdx.1 hv'
    have := h.lower _ (List.getElem_mem hk)
    simp [scaledVariable, this]

theorem scaled_signs (hs : s.Positive H) (h : Signs H) : Signs (s.scaled (· * ·) (· / ·) H) where
  b := by
    intro x hx
    have hx' : x ∈ H.b.mapIdx fun k v => v * s.row k := hx
    obtain ⟨k, hk, rfl⟩ := List.mem_mapIdx.1 hx'
    exact mul_nonneg (h.b _ (List.getElem_mem hk)) (le_of_lt (hs.row_pos k))
  upper := by
    intro v hv u hu
    have hv' : v ∈ H.vars.mapIdx fun k => s.scaledVariable (· * ·) (· / ·) k := hv
    obtain ⟨k, hk, rfl⟩ := List.mem_mapIdx.1 hv'
    obtain ⟨u', hu', rfl⟩ := Option.map_eq_some_iff.1 (Option.mem_def.1 hu)
    exact div_nonneg (h.upper _ (List.getElem_mem hk) u' hu') (le_of_lt (hs.column_pos k))
  ranges := by
    intro r hr
    have hr' : .range r ∈ H.constraintTypes.mapIdx fun k => s.scaledType (· * ·) k := hr
    obtain ⟨k, hk, e⟩ := List.mem_mapIdx.1 hr'
    cases ht : H.constraintTypes[k] with
    | range q =>
      rw [ht] at e
      cases e
      exact mul_nonneg (h.ranges q (ht ▸ List.getElem_mem hk)) (le_of_lt (hs.row_pos k))
    | _ => rw [ht] at e; cases e

theorem scaleBack_represents (hs : s.Positive H) {y : Fin H.vars.length → ℚ} {v : SparseVector}
    (hv : Spec.Represents v (List.ofFn y)) :
    ∃ data, s.scaleBackVector v.data = some data ∧
      Spec.Represents ⟨data, v.len⟩ (List.ofFn fun j => y j * s.column j) := by
  have hlen : v.len = H.vars.length := by rw [hv.length, List.length_ofFn]
  refine ⟨_, scaleBackVector_eq fun p hp => ?_, ⟨?_, ?_, ?_, ?_, ?_⟩⟩
  · rw [hs.columns, ← hlen]
    exact hv.inRange p hp
  · exact List.pairwise_map.2 hv.sorted
  · intro q hq
    obtain ⟨p, hp, rfl⟩ := List.mem_map.1 hq
    exact mul_ne_zero (hv.nonzero p hp) (ne_of_gt (hs.column_pos _))
  · intro q hq
    obtain ⟨p, hp, rfl⟩ := List.mem_map.1 hq
    exact hv.inRange p hp
  · rw [hlen, List.length_ofFn]
  · intro i x
    have hc := ne_of_gt (hs.column_pos i)
    have e : (i, x) ∈ v.data.map (fun p => (p.1, p.2 * s.column p.1)) ↔ (i, x / s.column i) ∈ v.data := by
      rw [List.mem_map]
      constructor
      · rintro ⟨p, hp, e⟩
        cases e
        rw [mul_div_cancel_right₀ _ hc]
        exact hp
      · intro h
        exact ⟨_, h, by rw [div_mul_cancel₀ _ hc]⟩
    rw [e, hv.stored, List.getElem?_ofFn, List.getElem?_ofFn]
    split
    next hi =>
      rw [Option.some.injEq, Option.some.injEq, eq_div_iff hc]
      refine and_congr Iff.rfl ?_
      rw [ne_eq, div_eq_zero_iff, not_or]
      tauto
    next hi => simp

end Scaling

end Relp
