import Verif.Proof.Reorder

/-!
# Composition of the standardisation steps: helper lemmas
-/

namespace Relp

namespace GeneralForm

open MatrixData (extendFin extendFin_val extendFin_of_lt)

variable {G : GeneralForm}

theorem split_fresh (hG : G.Consistent) :
    ∀ v ∈ G.splitFreeVariables.vars, v.shift = 0 ∧ v.flipped = false := by
  intro v hv
  rw [(split_state hG).vars] at hv
  rcases List.mem_append.1 hv with hv | hv
  · obtain ⟨k, hk⟩ := List.mem_iff_getElem?.1 hv
    rw [List.getElem?_mapIdx] at hk
    obtain ⟨w, hw, rfl⟩ := Option.map_eq_some_iff.1 hk
    have := hG.fresh w (List.mem_of_getElem? hw)
    split_ifs <;> exact this
  · obtain ⟨j, -, hj⟩ := List.mem_filterMap.1 hv
    obtain ⟨w, -, rfl⟩ := Option.map_eq_some_iff.1 hj
    exact ⟨rfl, rfl⟩

theorem split_bounded (hG : G.Consistent) :
    ∀ v ∈ G.splitFreeVariables.vars, v.lowerBound ≠ none ∨ v.upperBound ≠ none := by
  intro v hv
  obtain ⟨k, hk⟩ := List.mem_iff_getElem?.1 hv
  by_cases h : k < G.vars.length
  · rw [split_vars hG h] at hk
    cases hk
    by_cases hf : k ∈ G.freeIndices
    · rw [if_pos hf]; left; simp
    · rw [if_neg hf]
      by_contra hc
      push Not at hc
      exact hf ((mem_freeIndices hG.major).2 ⟨_, List.getElem?_eq_getElem h, hc.1, hc.2⟩)
  · have hl := (List.getElem?_eq_some_iff.1 hk).1
    rw [split_length hG] at hl
    obtain ⟨i, rfl⟩ : ∃ i, k = G.vars.length + i := ⟨k - G.vars.length, by omega⟩
    rw [split_vars_negative hG (by omega)] at hk
    cases hk
    left; simp [negativePart]

theorem split_dataLength (hG : G.Consistent) :
    G.splitFreeVariables.constraints.data.length = G.splitFreeVariables.vars.length := by
  rw [split_constraints, split_length hG]
  simp [SparseMatrix.concatenate, hG.dataLength]

theorem split_major (hG : G.Consistent) :
    G.splitFreeVariables.constraints.major = G.splitFreeVariables.vars.length := by
  rw [split_constraints, split_length hG]
  simp [SparseMatrix.concatenate, hG.major]

theorem split_columns (hG : G.Consistent) : ∀ c ∈ G.splitFreeVariables.constraints.data,
    SVec.WF c ∧ ∀ p ∈ c, p.1 < G.constraintTypes.length := by
  intro c hc
  rw [split_constraints] at hc
  simp only [SparseMatrix.concatenate] at hc
  rcases List.mem_append.1 hc with hc | hc
  · exact ⟨hG.wf c hc, hG.inRange c hc⟩
  · obtain ⟨j, hj, rfl⟩ := List.mem_map.1 hc
    have hj' := free_lt hG hj
    have hm : G.col j ∈ G.constraints.data := by
      rw [col, List.getD_eq_getElem _ _ (by rw [hG.dataLength]; exact hj')]
      exact List.getElem_mem _
    have e : negateColumn (G.col j) = SVec.scale (G.col j) (-1) := by
      simp [negateColumn, SVec.scale]
    rw [e]
    refine ⟨SVec.wf_scale (hG.wf _ hm) (by norm_num), fun p hp => ?_⟩
    obtain ⟨q, hq, rfl⟩ := List.mem_map.1 hp
    exact hG.inRange _ hm q hq

theorem split_proper (hG : G.Consistent)
    (hp : ∀ v ∈ G.vars, ∀ l ∈ v.lowerBound, ∀ u ∈ v.upperBound, l ≤ u) :
    ∀ v ∈ G.splitFreeVariables.vars, ∀ l ∈ v.lowerBound, ∀ u ∈ v.upperBound, l ≤ u := by
  intro v hv
  obtain ⟨k, hk⟩ := List.mem_iff_getElem?.1 hv
  by_cases h : k < G.vars.length
  · rw [split_vars hG h] at hk
    cases hk
    by_cases hf : k ∈ G.freeIndices
    · rw [if_pos hf]
      obtain ⟨w, hw, h1, h2⟩ := (mem_freeIndices hG.major).1 hf
      rw [List.getElem?_eq_getElem h] at hw
      cases hw
      intro l _ u hu
      simp [h2] at hu
    · rw [if_neg hf]
      exact hp _ (List.getElem_mem h)
  · have hl := (List.getElem?_eq_some_iff.1 hk).1
    rw [split_length hG] at hl
    obtain ⟨i, rfl⟩ : ∃ i, k = G.vars.length + i := ⟨k - G.vars.length, by omega⟩
    rw [split_vars_negative hG (by omega)] at hk
    cases hk
    intro l _ u hu
    simp [negativePart] at hu

theorem transform_state (hG : G.Consistent) :
    TransformState G.splitFreeVariables G.splitFreeVariables.vars.length G.transformVariables :=
  transform_fold (split_fresh hG) (split_bounded hG)
    (by rw [(split_state hG).b, (split_state hG).types, hG.bLength]) (split_dataLength hG) _ le_rfl

/-- The result of `standardize`. -/
structure Standardized (G H : GeneralForm) (counts : Counts) : Prop where
  length : H.vars.length = G.vars.length + G.freeIndices.length
  original : H.original = G.splitFreeVariables.original
  objective : H.objective = .minimize
  dataLength : H.constraints.data.length = H.vars.length
  major : H.constraints.major = H.vars.length
  wf : ∀ c ∈ H.constraints.data, SVec.WF c
  inRange : ∀ c ∈ H.constraints.data, ∀ p ∈ c, p.1 < H.constraintTypes.length
  types : ∃ types : List ConstraintType, H.constraintTypes = sortedTypes types ∧
    counts = ⟨countRank types 0, countRank types 1, countRank types 2, countRank types 3⟩ ∧
    ∀ r, .range r ∈ types ↔ .range r ∈ G.constraintTypes
  bLength : H.b.length = H.constraintTypes.length
  bNonneg : G.Proper → ∀ x ∈ H.b, 0 ≤ x
  lower : ∀ v ∈ H.vars, v.lowerBound = some 0
  upper : G.Proper → ∀ v ∈ H.vars, ∀ u ∈ v.upperBound, 0 ≤ u
  rows : ∀ y, H.RowsHold y ↔ G.RowsHold (G.merge (H.point y))
  bounds : ∀ y, H.BoundsHold y ↔ G.splitFreeVariables.BoundsHold (H.point y)
  obj : ∀ y, H.obj y = H.fixedCost + sign G.objective * (G.obj (G.merge (H.point y)) - H.fixedCost)
  base : ∀ (j : ℕ) (hj : j < G.vars.length), G.merge (H.point fun _ => 0) j = baseValue G.vars[j]

theorem minimize_types : G.makeMinimization.constraintTypes = G.constraintTypes := by
  unfold makeMinimization; split <;> rfl

theorem minimize_b : G.makeMinimization.b = G.b := by
  unfold makeMinimization; split <;> rfl

theorem minimize_constraints : G.makeMinimization.constraints = G.constraints := by
  unfold makeMinimization; split <;> rfl

theorem minimize_original : G.makeMinimization.original = G.original := by
  unfold makeMinimization; split <;> rfl

theorem minimize_objective : G.makeMinimization.objective = .minimize := by
  unfold makeMinimization
  split
  · rfl
  next h => exact h

theorem minimize_fixedCost : G.makeMinimization.fixedCost = G.fixedCost := by
  unfold makeMinimization; split <;> rfl

theorem minimize_point (y : ℕ → ℚ) : G.makeMinimization.point y = G.point y := by
  funext j
  rw [point, point, minimize_vars]
  cases G.vars[j]? with
  | none => rfl
  | some v => cases G.objective <;> rfl

theorem minimize_mem {v : Variable} (hv : v ∈ G.makeMinimization.vars) :
    ∃ w ∈ G.vars, v.lowerBound = w.lowerBound ∧ v.upperBound = w.upperBound := by
  obtain ⟨k, hk⟩ := List.mem_iff_getElem?.1 hv
  rw [minimize_vars] at hk
  obtain ⟨w, hw, rfl⟩ := Option.map_eq_some_iff.1 hk
  refine ⟨w, List.mem_of_getElem? hw, ?_⟩
  cases G.objective <;> exact ⟨rfl, rfl⟩

theorem standardize_spec (hG : G.Consistent) :
    ∃ H counts, G.standardize = some (H, counts) ∧ Standardized G H counts := by
  have h1 := transform_state hG
  have hs := split_state hG
  set S := G.transformVariables with hS
  have hSb : S.b.length = S.constraintTypes.length := by
    rw [h1.bLength, h1.types, hs.b, hs.types, hG.bLength]
  have hSc : ∀ c ∈ S.constraints.data, SVec.WF c ∧ ∀ p ∈ c, p.1 < S.constraintTypes.length := by
    intro c hc
    obtain ⟨c0, hc0, e⟩ := h1.columns c hc
    obtain ⟨w1, w2⟩ := split_columns hG c0 hc0
    rw [h1.types, hs.types]
    rcases e with rfl | rfl
    · exact ⟨w1, w2⟩
    · refine ⟨SVec.wf_scale w1 (by norm_num), fun p hp => ?_⟩
      obtain ⟨q, hq, rfl⟩ := List.mem_map.1 hp
      exact w2 q hq
  obtain ⟨n1, n2⟩ := nonneg_length hSb
  set N := S.makeBNonNegative with hN
  have hNc : ∀ c ∈ N.constraints.data, SVec.WF c ∧ ∀ p ∈ c, p.1 < N.constraintTypes.length := by
    intro c hc
    obtain ⟨c0, hc0, rfl⟩ := List.mem_map.1 hc
    refine ⟨wf_changeSigns _ (hSc c0 hc0).1, fun p hp => ?_⟩
    obtain ⟨q, hq, rfl⟩ := List.mem_map.1 hp
    rw [n1]
    have := (hSc c0 hc0).2 q hq
    split_ifs <;> exact this
  set K := N.makeMinimization with hK
  have hKb : K.b.length = K.constraintTypes.length := by
    rw [hK, minimize_b, minimize_types, n2, n1]
  have hKc : ∀ c ∈ K.constraints.data, ∀ p ∈ c, p.1 < K.constraintTypes.length := by
    intro c hc
    rw [hK, minimize_constraints] at hc
    rw [hK, minimize_types]
    exact (hNc c hc).2
  have hKl : K.vars.length = S.vars.length := by rw [hK, minimize_length]; rfl
  have hKp : ∀ y, K.point y = S.point y := fun y => by
    rw [hK, minimize_point]; rfl
  obtain ⟨b', r1, r2, H, hH, r3, r4⟩ := reorder_spec hKb hKc
  have hHp : ∀ y, H.point y = S.point y := fun y => by rw [hH, ← hKp]; rfl
  have hSl : S.vars.length = G.vars.length + G.freeIndices.length := by
    rw [h1.length, split_length hG]
  have hHt : H.constraintTypes = sortedTypes K.constraintTypes := by rw [hH]
  have hHl : H.constraintTypes.length = K.constraintTypes.length := by rw [hHt, sortedTypes_length]
  have hSv : ∀ v ∈ S.vars, v.lowerBound = some 0 ∧ (G.Proper → ∀ u ∈ v.upperBound, 0 ≤ u) := by
    intro v hv
    obtain ⟨k, hk⟩ := List.mem_iff_getElem?.1 hv
    have hlt := (List.getElem?_eq_some_iff.1 hk).1
    rw [h1.length] at hlt
    exact ⟨h1.lower k v hlt hk, fun hp => h1.upper k v hlt hk (split_proper hG hp.bounds)⟩
  have hHv : ∀ v ∈ H.vars, v.lowerBound = some 0 ∧ (G.Proper → ∀ u ∈ v.upperBound, 0 ≤ u) := by
    intro v hv
    rw [hH] at hv
    obtain ⟨w, hw, e1, e2⟩ := minimize_mem (G := N) hv
    rw [e1, e2]
    exact hSv w hw
  refine ⟨H, _, r3, ?_, ?_, ?_, ?_, ?_, ?_, ?_, ?_, ?_, ?_, fun v hv => (hHv v hv).1,
    fun hp v hv => (hHv v hv).2 hp, fun y => ?_, fun y => ?_, fun y => ?_, fun j hj => ?_⟩
  · rw [hH]; simp only; rw [hKl, hSl]
  · rw [hH]; simp only; rw [hK, minimize_original]
    change S.original = _
    rw [h1.original]
  · rw [hH]; simp only; exact minimize_objective
  · rw [hH]; simp only [List.length_map]
    rw [hKl, hK, minimize_constraints]
    change (S.constraints.data.map _).length = _
    rw [List.length_map, h1.dataLength, h1.length, split_dataLength hG]
  · rw [hH]; simp only
    rw [hKl, hK, minimize_constraints]
    change S.constraints.major = _
    rw [h1.major, h1.length, split_major hG]
  · intro c hc
    rw [hH] at hc
    obtain ⟨c0, hc0, rfl⟩ := List.mem_map.1 hc
    refine wf_reorderColumn ?_ (hKc c0 hc0)
    rw [hK, minimize_constraints] at hc0
    exact (hNc c0 hc0).1
  · intro c hc
    rw [hHl]
    rw [hH] at hc
    obtain ⟨c0, hc0, rfl⟩ := List.mem_map.1 hc
    exact reorderColumn_lt (hKc c0 hc0)
  · refine ⟨K.constraintTypes, hHt, rfl, fun r => ?_⟩
    rw [hK, minimize_types, nonneg_ranges_iff hSb, h1.types, hs.types]
  · rw [hHl]
    rw [hH]
    exact r1
  · intro hp x hx
    have hKn : ∀ x ∈ K.b, 0 ≤ x := by
      rw [hK, minimize_b]
      refine nonneg_nonneg fun r hr => hp.ranges r ?_
      rwa [h1.types, hs.types] at hr
    rw [hH] at hx
    obtain ⟨k, hk⟩ := List.mem_iff_getElem?.1 hx
    have hkl := (List.getElem?_eq_some_iff.1 hk).1
    simp only [r1] at hkl
    obtain ⟨i, hi, rfl⟩ := destination_surj hkl
    simp only at hk
    rw [r2 i hi] at hk
    exact hKn x (List.mem_of_getElem? hk)
  · rw [r4, hK, minimize_rows, hN, nonneg_rows hSb, h1.rows, split_rows hG, hHp]
  · have e : H.BoundsHold y ↔ K.BoundsHold y := by rw [hH]; rfl
    rw [e, hK, minimize_bounds]
    have e2 : N.BoundsHold y ↔ S.BoundsHold y := Iff.rfl
    rw [e2, h1.bounds, hHp]
  · have e : H.obj y = K.obj y := by rw [hH]; rfl
    have ef : H.fixedCost = S.fixedCost := by
      rw [hH]; simp only; rw [hK, minimize_fixedCost]; rfl
    have eN : N.obj y = S.obj y := rfl
    have eo : N.objective = G.objective := by
      change S.objective = _
      rw [h1.objective, hs.objective]
    have eNf : N.fixedCost = S.fixedCost := rfl
    rw [e, hK, minimize_obj, eN, h1.obj, split_obj hG, hHp, ef, eo, eNf]
  · have hz : ∀ (k : ℕ) w, G.splitFreeVariables.vars[k]? = some w →
        S.point (fun _ => 0) k = baseValue w := by
      intro k w hw
      have hk := (List.getElem?_eq_some_iff.1 hw).1
      have hk' : k < S.vars.length := by rw [h1.length]; exact hk
      rw [point, List.getElem?_eq_getElem hk']
      exact h1.base k _ w hk (List.getElem?_eq_getElem hk') hw
    rw [hHp, merge]
    by_cases hf : j ∈ G.freeIndices
    · have hi := List.idxOf_lt_length_of_mem hf
      obtain ⟨w, hw, l1, l2⟩ := (mem_freeIndices hG.major).1 hf
      rw [List.getElem?_eq_getElem hj] at hw
      cases hw
      rw [if_pos hf, hz _ _ (split_vars hG hj), hz _ _ (split_vars_negative hG hi), if_pos hf]
      simp [baseValue, negativePart, l1, l2]
    · rw [if_neg hf, hz _ _ (split_vars hG hj), if_neg hf]

/-- The constant part of the objective of the result. -/
theorem Standardized.fixedCost_eq {H : GeneralForm} {counts : Counts} (h : Standardized G H counts) :
    H.fixedCost = G.toProgram.objective G.basePoint := by
  have e := h.obj fun _ => 0
  have e1 : H.obj (fun _ => 0) = H.fixedCost := by simp [GeneralForm.obj]
  have e2 : G.obj (G.merge (H.point fun _ => 0)) = G.toProgram.objective G.basePoint := by
    rw [GeneralForm.objective_eq]
    refine obj_congr fun j hj => ?_
    rw [h.base j hj, extendFin_of_lt _ hj]
    rfl
  rw [e1, e2] at e
  have hs : sign G.objective ≠ 0 := by cases G.objective <;> simp [sign]
  have : sign G.objective * (G.toProgram.objective G.basePoint - H.fixedCost) = 0 := by linarith
  rcases mul_eq_zero.1 this with h | h
  · exact absurd h hs
  · linarith

/-! ### Recovering the values of the original variables -/

theorem unshiftAt_eq (y : Fin G.vars.length → ℚ) {j : ℕ} (hj : j < G.vars.length) :
    G.unshiftAt y j = G.point (extendFin y) j := by
  rw [unshiftAt, dif_pos hj, point, List.getElem?_eq_getElem hj]
  simp only
  rw [extendFin_of_lt y hj]

theorem active_inj (hG : G.Consistent) {j k o : ℕ} (hj : G.fromActive[j]? = some o)
    (hk : G.fromActive[k]? = some o) : j = k := by
  obtain ⟨n1, h1⟩ := (hG.active _ _).1 hj
  obtain ⟨n2, h2⟩ := (hG.active _ _).1 hk
  rw [h1] at h2
  simpa using (Prod.ext_iff.1 (Option.some.inj h2)).2

/-- The entry of an active variable after splitting. -/
theorem split_original (hG : G.Consistent) {j o : ℕ} (hj : G.fromActive[j]? = some o) :
    ∃ name, G.splitFreeVariables.original[o]? = some (name, if j ∈ G.freeIndices then
      .activeFree j (G.vars.length + G.freeIndices.idxOf j) else .active j) := by
  obtain ⟨name, hn⟩ := (hG.active _ _).1 hj
  refine ⟨name, ?_⟩
  by_cases hf : j ∈ G.freeIndices
  · have hl := List.idxOf_lt_length_iff.2 hf
    rw [(split_state hG).split (G.freeIndices.idxOf j) j o
      (by rw [List.getElem?_eq_getElem hl, List.getElem_idxOf hl]) hj, hn, if_pos hf]
    rfl
  · rw [(split_state hG).others o, hn, if_neg hf]
    intro k hk hc
    exact hf (active_inj hG hc hj ▸ hk)

theorem recover_eq (hG : G.Consistent) {H : GeneralForm} {counts : Counts}
    (h : Standardized G H counts) (y : Fin H.vars.length → ℚ) {j o : ℕ}
    (hj : j < G.vars.length) (ho : G.fromActive[j]? = some o) :
    H.recover y o = G.merge (H.point (extendFin y)) j := by
  obtain ⟨name, hn⟩ := split_original hG ho
  have hl := h.length
  rw [recover, h.original, hn, merge]
  by_cases hf : j ∈ G.freeIndices
  · have := List.idxOf_lt_length_iff.2 hf
    simp only [if_pos hf]
    rw [unshiftAt_eq y (by omega), unshiftAt_eq y (by omega)]
  · simp only [if_neg hf]
    rw [unshiftAt_eq y (by omega)]

theorem Standardized.feasible_iff {H : GeneralForm} {counts : Counts}
    (h : Standardized G H counts) (y : Fin H.vars.length → ℚ) :
    H.toProgram.Feasible y ↔ G.RowsHold (G.merge (H.point (extendFin y))) ∧
      G.splitFreeVariables.BoundsHold (H.point (extendFin y)) := by
  rw [GeneralForm.feasible_iff, h.rows, h.bounds]

theorem recovers_iff (hG : G.Consistent) {H : GeneralForm} {counts : Counts}
    (h : Standardized G H counts) (y : Fin H.vars.length → ℚ) (x : Fin G.vars.length → ℚ) :
    Recovers G H y x ↔ ∀ j : Fin G.vars.length, G.merge (H.point (extendFin y)) j = x j := by
  refine forall_congr' fun j => ⟨fun hr => ?_, fun hr o ho => ?_⟩
  · have hj : j.val < G.fromActive.length := by rw [hG.activeLength]; exact j.2
    rw [← recover_eq hG h y j.2 (List.getElem?_eq_getElem hj)]
    exact hr _ (List.getElem?_eq_getElem hj)
  · rw [recover_eq hG h y j.2 ho, hr]

theorem extend_eq {n : ℕ} {f : ℕ → ℚ} {x : Fin n → ℚ} (h : ∀ j : Fin n, f j = x j) :
    ∀ j < n, f j = extendFin x j := fun j hj => by
  rw [extendFin_of_lt x hj, ← h ⟨j, hj⟩]

/-- Feasible points give feasible points. -/
theorem Standardized.sound (hG : G.Consistent) {H : GeneralForm} {counts : Counts}
    (h : Standardized G H counts) {y : Fin H.vars.length → ℚ} (hy : H.toProgram.Feasible y)
    {x : Fin G.vars.length → ℚ} (hr : Recovers G H y x) : G.toProgram.Feasible x := by
  obtain ⟨h1, h2⟩ := (h.feasible_iff y).1 hy
  have he := extend_eq ((recovers_iff hG h y x).1 hr)
  rw [GeneralForm.feasible_iff, ← rowsHold_congr he, ← boundsHold_congr he]
  exact ⟨h1, split_bounds hG h2⟩

/-- The shifted and flipped value of which the recorded value is `x`. -/
def reshift (v : Variable) (x : ℚ) : ℚ := (if v.flipped then -x else x) + v.shift

theorem unshift_reshift (v : Variable) (x : ℚ) : unshift v (reshift v x) = x := by
  unfold unshift reshift
  split_ifs <;> ring

theorem reshift_unshift (v : Variable) (x : ℚ) : reshift v (unshift v x) = x := by
  unfold unshift reshift
  split_ifs <;> ring

/-- All feasible points are reached. -/
theorem Standardized.onto (hG : G.Consistent) {H : GeneralForm} {counts : Counts}
    (h : Standardized G H counts) {x : Fin G.vars.length → ℚ} (hx : G.toProgram.Feasible x) :
    ∃ y, H.toProgram.Feasible y ∧ Recovers G H y x := by
  obtain ⟨h1, h2⟩ := (GeneralForm.feasible_iff x).1 hx
  let y : Fin H.vars.length → ℚ := fun j => reshift H.vars[j] (G.splitPoint (extendFin x) j)
  have hp : ∀ j < H.vars.length, H.point (extendFin y) j = G.splitPoint (extendFin x) j := by
    intro j hj
    rw [point, List.getElem?_eq_getElem hj]
    simp only
    rw [extendFin_of_lt y hj]
    exact unshift_reshift _ _
  have hm : ∀ j < G.vars.length, G.merge (H.point (extendFin y)) j = extendFin x j := by
    intro j hj
    have hl := h.length
    rw [← merge_splitPoint (G := G) (extendFin x) hj, merge, merge]
    by_cases hf : j ∈ G.freeIndices
    · have := List.idxOf_lt_length_iff.2 hf
      rw [if_pos hf, if_pos hf, hp j (by omega), hp _ (by omega)]
    · rw [if_neg hf, if_neg hf, hp j (by omega)]
  refine ⟨y, (h.feasible_iff y).2 ⟨(rowsHold_congr hm).2 h1, ?_⟩, (recovers_iff hG h y x).2 ?_⟩
  · refine (boundsHold_congr fun j hj => ?_).2 (splitPoint_bounds hG h2)
    exact hp j (by rw [h.length, ← split_length hG]; exact hj)
  · intro j
    rw [hm j j.2, extendFin_val]

/-- Without free variables, the correspondence is one to one. -/
theorem Standardized.injective (hG : G.Consistent) {H : GeneralForm} {counts : Counts}
    (h : Standardized G H counts) (hf : G.freeIndices = []) {y y' : Fin H.vars.length → ℚ}
    {x : Fin G.vars.length → ℚ} (hr : Recovers G H y x) (hr' : Recovers G H y' x) : y = y' := by
  funext j
  have hl := h.length
  rw [hf, List.length_nil, add_zero] at hl
  have h1 := (recovers_iff hG h y x).1 hr ⟨j, by omega⟩
  have h2 := (recovers_iff hG h y' x).1 hr' ⟨j, by omega⟩
  rw [← h2] at h1
  simp only [merge, hf, List.not_mem_nil, if_false, point, List.getElem?_eq_getElem j.2,
    extendFin_val] at h1
  rw [← reshift_unshift H.vars[j.val] (y j), h1, reshift_unshift]

theorem Standardized.objective_eq (hG : G.Consistent) {H : GeneralForm} {counts : Counts}
    (h : Standardized G H counts) {y : Fin H.vars.length → ℚ} {x : Fin G.vars.length → ℚ}
    (hr : Recovers G H y x) : H.toProgram.objective y =
      H.fixedCost + sign G.objective * (G.toProgram.objective x - H.fixedCost) := by
  have he := extend_eq ((recovers_iff hG h y x).1 hr)
  rw [GeneralForm.objective_eq, h.obj, GeneralForm.objective_eq, obj_congr he]

/-! ### The tabular form -/

theorem mapM_rangeOf : ∀ {l : List ConstraintType}, (∀ t ∈ l, rank t = 1) →
    ∃ r : List ℚ, l.mapM rangeOf = some r ∧ l = r.map .range
  | [], _ => ⟨[], rfl, rfl⟩
  | t :: l, h => by
    obtain ⟨r, h1, h2⟩ := mapM_rangeOf (l := l) fun y hy => h y (by simp [hy])
    have := h t (by simp)
    cases t with
    | range q => 
      refine ⟨q :: r, ?_, by rw [h2]; rfl⟩
      rw [List.mapM_cons, h1]
      rfl
    | _ => simp [rank] at this

theorem sorted_slice (types : List ConstraintType) :
    ((sortedTypes types).take (countRank types 0 + countRank types 1)).drop (countRank types 0) =
      types.filter fun t => rank t = 1 := by
  have l0 := filter_length (types := types) 0
  have l1 := filter_length (types := types) 1
  rw [sortedTypes_eq, ← l0, ← l1, List.take_length_add_append, List.drop_left,
    List.take_left]

/-- The types of the sorted constraints. -/
theorem sorted_types {types : List ConstraintType} {r : List ℚ}
    (hr : (types.filter fun t => rank t = 1) = r.map .range) {i : ℕ} {t : ConstraintType}
    (h : (sortedTypes types)[i]? = some t) :
    t = if i < countRank types 0 then .equal
      else if i < countRank types 0 + countRank types 1 then .range (r.getD (i - countRank types 0) 0)
      else if i < countRank types 0 + countRank types 1 + countRank types 2 then .less
      else .greater := by
  have l0 := filter_length (types := types) 0
  have l1 := filter_length (types := types) 1
  have l2 := filter_length (types := types) 2
  have hm : ∀ {k i : ℕ}, (types.filter fun t => rank t = k)[i]? = some t → rank t = k := by
    intro k i h
    simpa using (List.mem_filter.1 (List.mem_of_getElem? h)).2
  rw [sortedTypes_eq] at h
  by_cases h0 : i < countRank types 0
  · rw [if_pos h0]
    rw [List.getElem?_append_left (by omega)] at h
    have := hm h
    cases t <;> simp [rank] at this
    rfl
  rw [if_neg h0]
  rw [List.getElem?_append_right (by omega), l0] at h
  by_cases h1 : i < countRank types 0 + countRank types 1
  · rw [if_pos h1]
    rw [List.getElem?_append_left (by omega), hr, List.getElem?_map] at h
    obtain ⟨q, hq, rfl⟩ := Option.map_eq_some_iff.1 h
    rw [List.getD_eq_getElem?_getD, hq]
    rfl
  rw [if_neg h1]
  rw [List.getElem?_append_right (by omega), l1] at h
  by_cases h2 : i < countRank types 0 + countRank types 1 + countRank types 2
  · rw [if_pos h2]
    rw [List.getElem?_append_left (by omega)] at h
    have := hm h
    cases t <;> simp [rank] at this
    rfl
  · rw [if_neg h2]
    rw [List.getElem?_append_right (by omega), l2] at h
    have := hm h
    cases t <;> simp [rank] at this
    rfl

/-- The `MatrixData` of a standardised problem. -/
def toMatrixData (H : GeneralForm) (counts : Counts) (ranges : List ℚ) : MatrixData where
  constraints := H.constraints
  b := H.b
  ranges := ranges
  nrEquality := counts.equality
  nrRange := counts.range
  nrUpper := counts.upper
  nrLower := counts.lower
  vars := H.vars

theorem Standardized.derive {H : GeneralForm} {counts : Counts} (h : Standardized G H counts) :
    ∃ ranges, H.deriveMatrixData counts = some (H.toMatrixData counts ranges) ∧
      counts.equality + counts.range + counts.upper + counts.lower = H.constraintTypes.length ∧
      (G.Proper → (H.toMatrixData counts ranges).Valid) ∧
      (∀ y : Fin H.vars.length → ℚ,
        (H.toMatrixData counts ranges).toProgram.Feasible y ↔ H.toProgram.Feasible y) ∧
      ∀ y : Fin H.vars.length → ℚ, H.toProgram.objective y =
        H.fixedCost + (H.toMatrixData counts ranges).toProgram.objective y := by
  obtain ⟨types, t1, rfl, t3⟩ := h.types
  obtain ⟨r, r1, r2⟩ := mapM_rangeOf (l := types.filter fun t => rank t = 1) (by
    intro t ht
    simpa using (List.mem_filter.1 ht).2)
  have hsum : countRank types 0 + countRank types 1 + countRank types 2 + countRank types 3 =
      H.constraintTypes.length := by
    rw [t1, sortedTypes_length, ← offset_four (types := types), offset_succ, offset_three]
  have hrel : ∀ (i : ℕ) t, H.constraintTypes[i]? = some t → (H.toMatrixData
      ⟨countRank types 0, countRank types 1, countRank types 2, countRank types 3⟩ r).relationOf i =
      t := by
    intro i t ht
    rw [t1] at ht
    exact (sorted_types r2 ht).symm
  refine ⟨r, ?_, hsum, fun hp => ?_, fun y => ?_, fun y => ?_⟩
  · simp only [deriveMatrixData, t1, sorted_slice, r1]
    rfl
  · refine ⟨h.dataLength, h.major, h.wf, ?_, ?_, ?_, h.bNonneg hp, ?_, h.upper hp⟩
    · intro c hc p hpc
      exact lt_of_lt_of_eq (h.inRange c hc p hpc) hsum.symm
    · exact h.bLength.trans hsum.symm
    · have := filter_length (types := types) 1
      rw [r2, List.length_map] at this
      exact this
    · intro q hq
      refine hp.ranges q ((t3 q).1 ?_)
      have : ConstraintType.range q ∈ types.filter fun t => rank t = 1 := by
        rw [r2]; exact List.mem_map.2 ⟨q, hq, rfl⟩
      exact (List.mem_filter.1 this).1
  · constructor
    · rintro ⟨a1, a2⟩
      refine ⟨fun i => ?_, fun j => ?_⟩
      · have := a1 ⟨i, lt_of_lt_of_eq i.2 hsum.symm⟩
        have e := hrel i _ (List.getElem?_eq_getElem i.2)
        simp only [MatrixData.toProgram, e] at this
        exact this
      · refine ⟨fun l hl => ?_, (a2 j).2⟩
        have h0 := h.lower _ (List.getElem_mem j.2)
        have hl' : l ∈ H.vars[j].lowerBound := hl
        have hl2 : l ∈ some (0 : ℚ) := h0 ▸ hl'
        exact (a2 j).1 l hl2
    · rintro ⟨a1, a2⟩
      refine ⟨fun i => ?_, fun j => ?_⟩
      · have hi : i.val < H.constraintTypes.length := lt_of_lt_of_eq i.2 hsum
        have := a1 ⟨i, hi⟩
        have e := hrel i _ (List.getElem?_eq_getElem hi)
        simp only [MatrixData.toProgram, e]
        exact this
      · refine ⟨fun l hl => ?_, (a2 j).2⟩
        have h0 := h.lower _ (List.getElem_mem j.2)
        refine (a2 j).1 l ?_
        change l ∈ H.vars[j].lowerBound
        have : H.vars[j].lowerBound = some 0 := h0
        rw [this]; exact hl
  · simp only [Spec.Program.objective]
    change H.fixedCost + _ = H.fixedCost + (0 + _)
    rw [zero_add]
    rfl

end GeneralForm

end Relp
