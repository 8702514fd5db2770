import Verif.Proof.MatrixData

/-! # Row filtering, initial basis and reconstruction for `MatrixData` -/

namespace Relp

open Matrix

/-! ### The index computation -/

namespace RemoveRows

variable {skip : List ℕ}

/-- The offset `u` at position `i`. -/
def IsOffset (skip : List ℕ) (i u : ℕ) : Prop :=
  u ≤ skip.length ∧ (∀ k < u, skip.getD k 0 ≤ i + k) ∧
    ∀ k, u ≤ k → k < skip.length → i + k < skip.getD k 0

theorem getD_lt (hs : skip.Pairwise (· < ·)) {k l : ℕ} (hkl : k < l) (hl : l < skip.length) :
    skip.getD k 0 < skip.getD l 0 := by
  rw [List.getD_eq_getElem?_getD, List.getD_eq_getElem?_getD, List.getElem?_eq_getElem hl,
    List.getElem?_eq_getElem (by omega : k < skip.length)]
  exact List.pairwise_iff_getElem.1 hs k l (by omega) hl hkl

theorem getD_add_le (hs : skip.Pairwise (· < ·)) {k d : ℕ} (hl : k + d < skip.length) :
    skip.getD k 0 + d ≤ skip.getD (k + d) 0 := by
  induction d with
  | zero => simp
  | succ d ih =>
    have := ih (by omega)
    have := getD_lt hs (show k + d < k + (d + 1) by omega) hl
    omega

theorem index_le (hs : skip.Pairwise (· < ·)) {k : ℕ} (hl : k < skip.length) :
    k ≤ skip.getD k 0 := by
  have := getD_add_le hs (k := 0) (d := k) (by omega)
  rw [zero_add] at this
  omega

theorem searchLoop_isOffset (hs : skip.Pairwise (· < ·)) {i : ℕ} : ∀ (fuel lower upper : ℕ),
    lower < upper → upper ≤ skip.length → upper - lower ≤ fuel → skip.getD lower 0 ≤ i + lower →
    (upper < skip.length → i + upper < skip.getD upper 0) →
    IsOffset skip i (searchLoop skip i fuel lower upper)
  | 0, lower, upper, h1, _, h3, _, _ => by omega
  | fuel + 1, lower, upper, h1, h2, h3, h4, h5 => by
    rw [searchLoop]
    split_ifs with hc
    · dsimp only
      have hm1 : lower < (lower + upper) / 2 := by omega
      have hm2 : (lower + upper) / 2 < upper := by omega
      have hi := index_le hs (show (lower + upper) / 2 < skip.length by omega)
      split_ifs with hd
      · exact searchLoop_isOffset hs fuel _ _ hm2 h2 (by omega) (by omega) h5
      · exact searchLoop_isOffset hs fuel _ _ hm1 (by omega) (by omega) h4 (fun _ => by omega)
    · have hu : upper = lower + 1 := by omega
      refine ⟨h2, fun k hk => ?_, fun k hk hl => ?_⟩
      · have := getD_add_le hs (k := k) (d := lower - k) (by omega)
        rw [Nat.add_sub_cancel' (by omega)] at this
        omega
      · have := getD_add_le hs (k := upper) (d := k - upper) (by omega)
        rw [Nat.add_sub_cancel' (by omega)] at this
        have := h5 (by omega)
        omega

theorem underlying_isOffset (hs : skip.Pairwise (· < ·)) (i : ℕ) :
    ∃ u, getUnderlyingIndex skip i = i + u ∧ IsOffset skip i u := by
  have h0 : (skip.length = 0 ∨ i < skip.getD 0 0) → IsOffset skip i 0 := by
    intro h
    refine ⟨by omega, fun k hk => by omega, fun k hk hl => ?_⟩
    have := getD_add_le hs (k := 0) (d := k) (by omega)
    rw [zero_add] at this
    rcases h with h | h <;> omega
  rw [getUnderlyingIndex]
  split_ifs with c1 c2 c3 c4
  · exact ⟨0, rfl, h0 (.inl c1)⟩
  · exact ⟨0, rfl, h0 (.inr c3)⟩
  · refine ⟨skip.length, rfl, le_refl _, fun k hk => ?_, fun k hk hl => by omega⟩
    have : k = 0 := by omega
    subst this
    omega
  · exact ⟨0, rfl, h0 (.inr c4)⟩
  · exact ⟨_, rfl, searchLoop_isOffset hs _ _ _ (by omega) (le_refl _) (by omega) (by omega)
      (fun h => absurd h (lt_irrefl _))⟩

theorem IsOffset.notMem {i u : ℕ} (h : IsOffset skip i u) : i + u ∉ skip := by
  intro hm
  obtain ⟨k, hk, he⟩ := List.mem_iff_getElem.1 hm
  have hg : skip.getD k 0 = i + u := by
    rw [List.getD_eq_getElem?_getD, List.getElem?_eq_getElem hk]; exact he
  by_cases hc : k < u
  · have := h.2.1 k hc; omega
  · have := h.2.2 k (by omega) hk; omega

theorem IsOffset.take (h : IsOffset skip i u) (r : ℕ) (hr : r = i + u) :
    skip.filter (· < r) = skip.take u := by
  subst hr
  have e := List.take_append_drop u skip
  conv_lhs => rw [← e]
  rw [List.filter_append, List.filter_eq_self.2, List.filter_eq_nil_iff.2, List.append_nil]
  · intro a ha
    obtain ⟨k, hk, he⟩ := List.mem_iff_getElem.1 ha
    rw [List.length_drop] at hk
    rw [List.getElem_drop] at he
    have := h.2.2 (u + k) (by omega) (by omega)
    rw [List.getD_eq_getElem?_getD, List.getElem?_eq_getElem (by omega), Option.getD_some, he] at this
    simp; omega
  · intro a ha
    obtain ⟨k, hk, he⟩ := List.mem_iff_getElem.1 ha
    rw [List.length_take] at hk
    rw [List.getElem_take] at he
    have := h.2.1 k (by omega)
    rw [List.getD_eq_getElem?_getD, List.getElem?_eq_getElem (by omega), Option.getD_some, he] at this
    simp; omega

theorem keptIndices_filter (indices : List ℕ) (n : ℕ) :
    keptIndices indices n = keptIndices (indices.filter (· < n)) n := by
  unfold keptIndices
  apply List.filter_congr
  intro i hi
  rw [List.mem_range] at hi
  simp [hi]

theorem IsOffset.count {i u : ℕ} (hs : skip.Pairwise (· < ·)) (h : IsOffset skip i u) :
    (keptIndices skip (i + u)).length = i := by
  have hnd : skip.Nodup := hs.imp fun h => ne_of_lt h
  rw [keptIndices_filter, keptIndices_length (hnd.filter _)
    (fun i hi => by simpa using (List.mem_filter.1 hi).2), h.take _ rfl, List.length_take]
  have := h.1
  omega

/-- The index computation gives the `i`-th index that is not deleted. -/
theorem underlying_eq (hs : skip.Pairwise (· < ·)) {n i : ℕ} (hr : ∀ r ∈ skip, r < n)
    (hi : i < n - skip.length) :
    (keptIndices skip n)[i]? = some (getUnderlyingIndex skip i) := by
  obtain ⟨u, h1, h2⟩ := underlying_isOffset hs i
  have hlt : i + u < n := by
    by_contra hc
    have hu : u = skip.length := by
      by_contra hne
      have hu : u < skip.length := lt_of_le_of_ne h2.1 hne
      have := h2.2.2 u (le_refl _) hu
      have hmem : skip.getD u 0 ∈ skip := by
        rw [List.getD_eq_getElem?_getD, List.getElem?_eq_getElem hu]
        exact List.getElem_mem hu
      have := hr _ hmem
      omega
    omega
  have := keptIndices_getElem hlt h2.notMem
  rw [h2.count hs] at this
  rw [h1, this]

theorem underlying_notMem (hs : skip.Pairwise (· < ·)) (i : ℕ) :
    getUnderlyingIndex skip i ∉ skip := by
  obtain ⟨u, h1, h2⟩ := underlying_isOffset hs i
  rw [h1]
  exact h2.notMem

end RemoveRows

/-! ### Filtered columns -/

theorem wf_removeSparseTuples {v : SVec ℕ} (hv : SVec.WF v) (indices : List ℕ) :
    SVec.WF (removeSparseTuples indices v) := by
  constructor
  · rw [removeSparseTuples, List.pairwise_map, List.pairwise_filter]
    refine hv.1.imp ?_
    intro p q hpq hp hq
    exact keptIndices_mono hpq (by simpa using hp)
  · intro p hp
    simp only [removeSparseTuples, List.mem_map, List.mem_filter] at hp
    obtain ⟨q, ⟨hq, -⟩, rfl⟩ := hp
    exact hv.2 q hq

theorem keptIndices_length_inj {indices : List ℕ} {i j : ℕ} (hi : i ∉ indices) (hj : j ∉ indices)
    (h : (keptIndices indices i).length = (keptIndices indices j).length) : i = j := by
  rcases lt_trichotomy i j with hlt | h' | hlt
  · have := keptIndices_mono hlt hi; omega
  · exact h'
  · have := keptIndices_mono hlt hj; omega

theorem val_removeSparseTuples (v : SVec ℕ) {indices : List ℕ} {i : ℕ} (hi : i ∉ indices) :
    SVec.val (removeSparseTuples indices v) (keptIndices indices i).length = SVec.val v i := by
  induction v with
  | nil => rfl
  | cons p v ih =>
    rw [SVec.val_cons, ← ih]
    unfold removeSparseTuples
    by_cases h : p.1 ∈ indices
    · have hne : p.1 ≠ i := fun he => hi (he ▸ h)
      rw [List.filter_cons_of_neg (by simpa using h), if_neg hne, zero_add]
    · rw [List.filter_cons_of_pos (by simpa using h), List.map_cons, SVec.val_cons]
      congr 1
      by_cases he : p.1 = i
      · rw [if_pos he, if_pos (by rw [he])]
      · rw [if_neg he, if_neg fun hc => he (keptIndices_length_inj h hi hc)]

theorem kept_map_val {m : ℕ} (rows : List (Fin m)) :
    (kept rows).map (·.val) = keptIndices (rows.map (·.val)) m := by
  unfold kept keptIndices
  rw [← List.map_coe_finRange_eq_range, List.filter_map]
  congr 1
  apply List.filter_congr
  intro i _
  simp only [Function.comp, decide_eq_decide, List.mem_map]
  constructor
  · rintro h ⟨j, hj, he⟩
    exact h (Fin.ext he ▸ hj)
  · intro h hi
    exact h ⟨i, hi, rfl⟩

theorem keptIndices_get {m : ℕ} (rows : List (Fin m)) (k : Fin (keptLen rows)) :
    (keptIndices (rows.map (·.val)) ((kept rows).get k).val).length = k := by
  have h : (keptIndices (rows.map (·.val)) m)[(k : ℕ)]? = some ((kept rows).get k).val := by
    rw [← kept_map_val, List.getElem?_map, List.getElem?_eq_getElem k.2]
    rfl
  exact (keptIndices_inj h).symm

theorem mem_map_val {m : ℕ} {rows : List (Fin m)} {i : Fin m} :
    i.val ∈ rows.map (·.val) ↔ i ∈ rows := by
  simp only [List.mem_map]
  exact ⟨fun ⟨j, hj, he⟩ => Fin.ext he ▸ hj, fun h => ⟨i, h, rfl⟩⟩

/-- Deletion of tuples with natural indices is deletion of tuples with typed indices. -/
theorem toFin_removeSparseTuples {m : ℕ} (rows : List (Fin m)) {v : SVec ℕ} (hv : SVec.WF v) :
    (removeSparseTuples (rows.map (·.val)) v).toFin (keptLen rows) =
      removeSparseIndices rows (v.toFin m) := by
  apply SVec.ext_of_wf (SVec.wf_toFin (wf_removeSparseTuples hv _))
    (wf_removeSparseIndices rows (SVec.wf_toFin hv))
  intro k
  rw [SVec.val_toFin, val_removeSparseIndices, SVec.val_toFin]
  conv_lhs => rw [← keptIndices_get rows k]
  exact val_removeSparseTuples v fun h => kept_get_notMem rows k (mem_map_val.1 h)

namespace MatrixData

variable {M : MatrixData}

theorem removeSparseTuples_append (indices : List ℕ) (v w : SVec ℕ) :
    removeSparseTuples indices (v ++ w) = removeSparseTuples indices v ++ removeSparseTuples indices w := by
  simp [removeSparseTuples]

theorem removeSparseTuples_single {indices : List ℕ} (hn : indices.Nodup) {i : ℕ} {x : ℚ}
    (hi : ∀ r ∈ indices, r < i) :
    removeSparseTuples indices [(i, x)] = [(i - indices.length, x)] := by
  have : i ∉ indices := fun h => lt_irrefl _ (hi i h)
  simp [removeSparseTuples, this, keptIndices_length hn hi]

/-- Filtering by shifting is deletion, if only equality rows are deleted. -/
theorem intoFiltered_tuples {indices : List ℕ} (hn : indices.Nodup)
    (hr : ∀ r ∈ indices, r < M.nrEquality) : ∀ j < M.nrColumns,
    ((M.column j).intoFiltered indices).tuples = removeSparseTuples indices (M.column j).tuples := by
  have d0 : M.equalityEnd = M.nrEquality := rfl
  have d1 : M.rangeEnd = M.equalityEnd + M.nrRange := rfl
  have d2 : M.upperEnd = M.rangeEnd + M.nrUpper := rfl
  have d3 : M.lowerEnd = M.upperEnd + M.nrLower := rfl
  have d4 : M.variableBoundEnd = M.lowerEnd + M.nrBounds := rfl
  have hs : ∀ i x, M.nrEquality ≤ i →
      removeSparseTuples indices [(i, x)] = [(i - indices.length, x)] := by
    intro i x hi
    exact removeSparseTuples_single hn fun r hrr => lt_of_lt_of_le (hr r hrr) hi
  rw [columns_cases]
  refine ⟨fun j hj => ?_, fun k hk => ?_, fun k hk => ?_, fun k hk => ?_, fun k hk => ?_,
      fun k hk => ?_⟩
  · rw [M.column_normal hj]
    simp only [DataColumn.intoFiltered, DataColumn.tuples]
    rw [removeSparseTuples_append]
    congr 1
    rcases M.variableToBound.getD j none with _ | k
    · rfl
    · simp only [Option.map_some, Option.toList_some]
      rw [hs _ _ (by omega)]
  · rw [M.column_range hk]
    simp only [DataColumn.intoFiltered, DataColumn.tuples]
    rw [← List.singleton_append (l := [(M.variableBoundEnd + k, (1 : ℚ))]),
      removeSparseTuples_append, hs _ _ (by omega), hs _ _ (by omega)]
    rfl
  · rw [M.column_upper hk]
    simp only [DataColumn.intoFiltered, DataColumn.tuples]
    rw [hs _ _ (by omega)]
  · rw [M.column_lower hk]
    simp only [DataColumn.intoFiltered, DataColumn.tuples]
    rw [hs _ _ (by omega)]
  · rw [M.column_variableBound hk]
    simp only [DataColumn.intoFiltered, DataColumn.tuples]
    rw [hs _ _ (by omega)]
  · rw [M.column_slackBound]
    simp only [DataColumn.intoFiltered, DataColumn.tuples]
    rw [hs _ _ (by omega)]

theorem boundRow_range : ∀ j < M.nrColumns, ∀ (d : BoundDirection) (r : ℕ),
    M.boundRowIndex j d = some r → M.nrEquality ≤ r ∧ r < M.nrRows := by
  have d0 : M.equalityEnd = M.nrEquality := rfl
  have d1 : M.rangeEnd = M.equalityEnd + M.nrRange := rfl
  have d2 : M.upperEnd = M.rangeEnd + M.nrUpper := rfl
  have d3 : M.lowerEnd = M.upperEnd + M.nrLower := rfl
  have d4 : M.variableBoundEnd = M.lowerEnd + M.nrBounds := rfl
  have d5 : M.nrBounds = M.boundToVariable.length := rfl
  have d6 : M.nrRows = M.lowerEnd + (M.nrBounds + M.nrRange) := rfl
  suffices h : ∀ j < M.nrColumns, ∀ r, M.boundRowIndex j .upper = some r →
      M.nrEquality ≤ r ∧ r < M.nrRows by
    intro j hj d r hr
    cases d with
    | lower => cases hr
    | upper => exact h j hj r hr
  rw [columns_cases (p := fun j => ∀ r, M.boundRowIndex j .upper = some r →
      M.nrEquality ≤ r ∧ r < M.nrRows)]
  refine ⟨fun j hj r hr => ?_, fun k hk r hr => ?_, fun k hk r hr => ?_, fun k hk r hr => ?_,
    fun k hk r hr => ?_, fun k hk r hr => ?_⟩
  · simp only [boundRowIndex, M.columnType_normal hj, Option.map_eq_some_iff] at hr
    obtain ⟨k, hk, rfl⟩ := hr
    have := (List.getElem?_eq_some_iff.1 ((M.variableToBound_iff k j).1 hk)).1
    omega
  · simp only [boundRowIndex, M.columnType_range hk, Option.some.injEq] at hr
    omega
  · simp only [boundRowIndex, M.columnType_upper hk] at hr; cases hr
  · simp only [boundRowIndex, M.columnType_lower hk] at hr; cases hr
  · simp only [boundRowIndex, M.columnType_variableBound hk] at hr; cases hr
  · simp only [boundRowIndex, M.columnType_slackBound] at hr; cases hr

theorem length_le_of_lt {l : List ℕ} (hn : l.Nodup) {r : ℕ} (h : ∀ q ∈ l, q < r) : l.length ≤ r := by
  have := (hn.subperm (l₂ := List.range r) fun q hq => List.mem_range.2 (h q hq)).length_le
  rwa [List.length_range] at this

/-! ### Requirements of the solver -/

theorem wf_data (h : ∀ v ∈ M.constraints.data, SVec.WF v) (j : ℕ) : SVec.WF (M.constraints.data.getD j []) := by
  rw [List.getD_eq_getElem?_getD]
  rcases hv : M.constraints.data[j]? with _ | v
  · exact SVec.WF.nil
  · exact h v (List.mem_of_getElem? hv)

theorem data_lt (h : ∀ v ∈ M.constraints.data, ∀ p ∈ v,
    p.1 < M.nrEquality + M.nrRange + M.nrUpper + M.nrLower) (j : ℕ) : ∀ p ∈ M.constraints.data.getD j [], p.1 < M.lowerEnd := by
  intro p hp
  rw [List.getD_eq_getElem?_getD] at hp
  rcases hv : M.constraints.data[j]? with _ | v
  · rw [hv] at hp; cases hp
  · rw [hv] at hp
    exact h v (List.mem_of_getElem? hv) p hp

theorem wf_tuples (hw : ∀ v ∈ M.constraints.data, SVec.WF v) (hr : ∀ v ∈ M.constraints.data, ∀ p ∈ v,
    p.1 < M.nrEquality + M.nrRange + M.nrUpper + M.nrLower) : ∀ j < M.nrColumns, SVec.WF (M.column j).tuples := by
  have d0 : M.equalityEnd = M.nrEquality := rfl
  have d1 : M.rangeEnd = M.equalityEnd + M.nrRange := rfl
  have d2 : M.upperEnd = M.rangeEnd + M.nrUpper := rfl
  have d3 : M.lowerEnd = M.upperEnd + M.nrLower := rfl
  have d4 : M.variableBoundEnd = M.lowerEnd + M.nrBounds := rfl
  have hs : ∀ (i : ℕ) (x : ℚ), x ≠ 0 → SVec.WF [(i, x)] := fun i x hx =>
    ⟨by simp, by simpa using hx⟩
  rw [columns_cases]
  refine ⟨fun j hj => ?_, fun k hk => ?_, fun k hk => ?_, fun k hk => ?_, fun k hk => ?_,
      fun k hk => ?_⟩
  · rw [M.column_normal hj]
    have h1 := wf_data hw j
    have h2 := data_lt hr j
    simp only [DataColumn.tuples]
    rcases M.variableToBound.getD j none with _ | k
    · simpa using h1
    · constructor
      · rw [List.pairwise_append]
        refine ⟨h1.1, by simp, fun p hp q hq => ?_⟩
        simp at hq
        subst hq
        have := h2 p hp
        simp only
        omega
      · intro p hp
        rcases List.mem_append.1 hp with hp | hp
        · exact h1.2 p hp
        · simp at hp; subst hp; norm_num
  · rw [M.column_range hk]
    constructor
    · simp only [DataColumn.tuples, List.pairwise_cons, List.mem_singleton, forall_eq]
      simp only [List.not_mem_nil, false_imp_iff, implies_true, List.Pairwise.nil, and_true]
      omega
    · simp [DataColumn.tuples]
  · rw [M.column_upper hk]; exact hs _ _ (by norm_num)
  · rw [M.column_lower hk]; exact hs _ _ (by norm_num)
  · rw [M.column_variableBound hk]; exact hs _ _ (by norm_num)
  · rw [M.column_slackBound]; exact hs _ _ (by norm_num)

theorem Valid.wf_tuples (h : M.Valid) : ∀ j < M.nrColumns, SVec.WF (M.column j).tuples :=
  MatrixData.wf_tuples h.wf h.inRange

theorem list_getD_nonneg {l : List ℚ} (h : ∀ x ∈ l, 0 ≤ x) (i : ℕ) : 0 ≤ l.getD i 0 := by
  rw [List.getD_eq_getElem?_getD]
  rcases hv : l[i]? with _ | v
  · rfl
  · exact h v (List.mem_of_getElem? hv)

theorem Valid.rhs_nonneg (h : M.Valid) (i : ℕ) : 0 ≤ M.rightHandSide.getD i 0 := by
  apply list_getD_nonneg
  intro x hx
  simp only [rightHandSide, List.mem_append, List.mem_map] at hx
  rcases hx with (hx | ⟨j, hj, rfl⟩) | hx
  · exact h.b_nonneg x hx
  · rcases hv : M.vars[j]? with _ | v
    · simp
    · rcases hu : v.upperBound with _ | u
      · simp [hu]
      · simp only [Option.bind_some, hu, Option.getD_some]
        exact h.upper_nonneg v (List.mem_of_getElem? hv) u hu
  · exact h.ranges_nonneg x hx

/-- A combination of the rows that vanishes in all columns has weight zero in every row that is not
an equality constraint. -/
theorem weight_zero {u : Fin M.nrRows → ℚ} (hu : u ᵥ* M.toProvider.toLP.A = 0) (i : Fin M.nrRows)
    (hi : M.nrEquality ≤ i) : u i = 0 := by
  have d0 : M.equalityEnd = M.nrEquality := rfl
  have d1 : M.rangeEnd = M.equalityEnd + M.nrRange := rfl
  have d2 : M.upperEnd = M.rangeEnd + M.nrUpper := rfl
  have d3 : M.lowerEnd = M.upperEnd + M.nrLower := rfl
  have d4 : M.variableBoundEnd = M.lowerEnd + M.nrBounds := rfl
  have hcol : ∀ j (hj : j < M.nrColumns), ∑ i : Fin M.nrRows, u i * M.entry i j = 0 := by
    intro j hj
    have := congrFun hu ⟨j, hj⟩
    rw [vecMul, dotProduct] at this
    simp only [toLP_entry] at this
    exact this
  have hsum : ∀ (r : ℕ) (s : ℚ), s ≠ 0 → (hr : r < M.nrRows) →
      ∑ i : Fin M.nrRows, u i * (if (i : ℕ) = r then s else 0) = u ⟨r, hr⟩ * s := by
    intro r s hs hr
    rw [Finset.sum_eq_single ⟨r, hr⟩]
    · rw [if_pos rfl]
    · intro b _ hb
      rw [if_neg (fun he => hb (Fin.ext he)), mul_zero]
    · intro hc; exact absurd (Finset.mem_univ _) hc
  have hslack : ∀ (j : ℕ) (hj : j < M.nrColumns) (r : ℕ) (s : ℚ), s ≠ 0 → (hr : r < M.nrRows) →
      M.column j = .slack (r, s) → u ⟨r, hr⟩ = 0 := by
    intro j hj r s hs hr hc
    have := hcol j hj
    simp only [M.entry_slack hc] at this
    rw [hsum r s hs hr] at this
    exact (mul_eq_zero.1 this).resolve_right hs
  have e : M.nrRows = M.variableBoundEnd + M.nrRange := by
    unfold nrRows nrVariableBounds nrConstraints variableBoundEnd nrBounds
    omega
  have g1 : M.rangeSlackEnd = M.normalColumnEnd + M.nrRange := rfl
  have g2 : M.upperSlackEnd = M.rangeSlackEnd + M.nrUpper := rfl
  have g3 : M.lowerSlackEnd = M.upperSlackEnd + M.nrLower := rfl
  have g4 : M.variableBoundSlackEnd = M.lowerSlackEnd + M.nrBounds := rfl
  have g5 : M.nrColumns = M.variableBoundSlackEnd + M.nrRange := rfl
  have key : ∀ r (hr : r < M.nrRows), M.nrEquality ≤ r → u ⟨r, hr⟩ = 0 := by
    have hsb : ∀ k < M.nrRange, ∀ hr, u ⟨M.variableBoundEnd + k, hr⟩ = 0 := fun k hk hr =>
      hslack (M.variableBoundSlackEnd + k) (by omega) _ 1 one_ne_zero hr M.column_slackBound
    suffices h : ∀ r < M.nrRows, ∀ (hr : r < M.nrRows), M.nrEquality ≤ r → u ⟨r, hr⟩ = 0 from
      fun r hr => h r hr hr
    rw [rows_cases (p := fun r => ∀ (hr : r < M.nrRows), M.nrEquality ≤ r → u ⟨r, hr⟩ = 0)]
    refine ⟨fun r h1 hr h2 => by omega, fun k hk hr _ => ?_, fun k hk hr _ => ?_, fun k hk hr _ => ?_,
      fun k hk hr _ => ?_, fun k hk hr _ => hsb k hk hr⟩
    · have := hcol (M.normalColumnEnd + k) (by omega)
      simp only [M.entry_range hk, mul_add, Finset.sum_add_distrib] at this
      rw [hsum _ 1 one_ne_zero hr, hsum _ 1 one_ne_zero (by omega), hsb k hk] at this
      simpa using this
    · exact hslack (M.rangeSlackEnd + k) (by omega) _ 1 one_ne_zero hr (M.column_upper hk)
    · exact hslack (M.upperSlackEnd + k) (by omega) _ (-1) (by norm_num) hr (M.column_lower hk)
    · exact hslack (M.lowerSlackEnd + k) (by omega) _ 1 one_ne_zero hr (M.column_variableBound hk)
  exact key i i.2 hi

theorem redundant_equality {rows : List (Fin M.nrRows)} (h : M.toProvider.toLP.Redundant rows) :
    ∀ i ∈ rows, i.val < M.nrEquality := by
  intro i hi
  obtain ⟨u, h1, -, h3, -⟩ := h.2 i hi
  by_contra hc
  rw [weight_zero h1 i (by omega)] at h3
  exact zero_ne_one h3

theorem Valid.ok (h : M.Valid) : M.toProvider.Ok := by
  refine ⟨fun j => SVec.wf_toFin (h.wf_tuples j j.2), fun i => h.rhs_nonneg i, fun rows hr j => ?_⟩
  have hn : (rows.map (·.val)).Nodup :=
    (List.nodup_map_iff Fin.val_injective).2 (hr.1.imp fun h => ne_of_lt h)
  change ((M.column j).intoFiltered (rows.map (·.val))).tuples.toFin (keptLen rows) =
    removeSparseIndices rows ((M.column j).tuples.toFin M.nrRows)
  rw [intoFiltered_tuples hn _ j j.2, toFin_removeSparseTuples rows (h.wf_tuples j j.2)]
  intro r hrr
  obtain ⟨i, hi, rfl⟩ := List.mem_map.1 hrr
  exact redundant_equality hr i hi

/-! ### Initial basis -/

theorem pivot_cases {p : ℕ × ℕ} (hp : p ∈ M.pivotElementIndices) :
    p.1 < M.nrRows ∧ p.2 < M.nrColumns ∧ M.column p.2 = .slack (p.1, 1) ∧ M.costValue p.2 = 0 := by
  have e : M.nrRows = M.variableBoundEnd + M.nrRange := by
    unfold nrRows nrVariableBounds nrConstraints variableBoundEnd nrBounds
    omega
  have d1 : M.rangeEnd = M.equalityEnd + M.nrRange := rfl
  have d2 : M.upperEnd = M.rangeEnd + M.nrUpper := rfl
  have d3 : M.lowerEnd = M.upperEnd + M.nrLower := rfl
  have d4 : M.variableBoundEnd = M.lowerEnd + M.nrBounds := rfl
  have g1 : M.rangeSlackEnd = M.normalColumnEnd + M.nrRange := rfl
  have g2 : M.upperSlackEnd = M.rangeSlackEnd + M.nrUpper := rfl
  have g3 : M.lowerSlackEnd = M.upperSlackEnd + M.nrLower := rfl
  have g4 : M.variableBoundSlackEnd = M.lowerSlackEnd + M.nrBounds := rfl
  have g5 : M.nrColumns = M.variableBoundSlackEnd + M.nrRange := rfl
  simp only [pivotElementIndices, List.mem_append, List.mem_map, List.mem_range] at hp
  rcases hp with (⟨k, hk, rfl⟩ | ⟨k, hk, rfl⟩) | ⟨k, hk, rfl⟩
  · exact ⟨by simp only; omega, by simp only; omega, M.column_upper hk, by
      simp only [costValue, M.columnType_upper hk]⟩
  · have hk' : k < M.nrBounds := hk
    exact ⟨by simp only; omega, by simp only; omega, M.column_variableBound hk, by
      simp only [costValue, M.columnType_variableBound hk']⟩
  · exact ⟨by simp only; omega, by simp only; omega, M.column_slackBound, by
      simp only [costValue, M.columnType_slackBound]⟩

theorem pivots_sorted : (M.pivotElementIndices.map (·.1)).Pairwise (· < ·) := by
  have d2 : M.upperEnd = M.rangeEnd + M.nrUpper := rfl
  have d3 : M.lowerEnd = M.upperEnd + M.nrLower := rfl
  have d4 : M.variableBoundEnd = M.lowerEnd + M.nrBounds := rfl
  have d5 : M.nrBounds = M.boundToVariable.length := rfl
  have hr : ∀ s len, ((List.range len).map fun j => s + j).Pairwise (· < ·) := by
    intro s len
    rw [List.pairwise_map]
    exact List.pairwise_lt_range.imp fun h => by omega
  simp only [pivotElementIndices, List.map_append, List.map_map, Function.comp_def]
  rw [List.pairwise_append, List.pairwise_append]
  refine ⟨⟨hr _ _, hr _ _, ?_⟩, hr _ _, ?_⟩
  · intro a ha b hb
    simp only [List.mem_map, List.mem_range] at ha hb
    obtain ⟨k, hk, rfl⟩ := ha
    obtain ⟨l, hl, rfl⟩ := hb
    omega
  · intro a ha b hb
    simp only [List.mem_append, List.mem_map, List.mem_range] at ha hb
    obtain ⟨l, hl, rfl⟩ := hb
    rcases ha with ⟨k, hk, rfl⟩ | ⟨k, hk, rfl⟩ <;> omega

theorem initialBasis_mem {p : Fin M.nrRows × Fin M.nrColumns}
    (hp : p ∈ M.pivotElementIndices.filterMap fun p =>
      if h : p.1 < M.nrRows ∧ p.2 < M.nrColumns then some (⟨p.1, h.1⟩, ⟨p.2, h.2⟩) else none) :
    (p.1.val, p.2.val) ∈ M.pivotElementIndices := by
  obtain ⟨q, hq, h⟩ := List.mem_filterMap.1 hp
  split_ifs at h
  simp only [Option.some.injEq] at h
  subst h
  exact hq

theorem initialBasis_ok : StartOk M.toProvider M.initialBasis := by
  refine ⟨?_, fun p hp => ?_⟩
  · rw [List.pairwise_map, List.pairwise_filterMap]
    have := M.pivots_sorted
    rw [List.pairwise_map] at this
    refine this.imp fun {p q} hpq a ha b hb => ?_
    split_ifs at ha hb
    simp only [Option.some.injEq] at ha hb
    subst ha; subst hb
    exact hpq
  · obtain ⟨-, -, h3, -⟩ := pivot_cases (initialBasis_mem hp)
    funext i
    change SVec.val ((M.column p.2).tuples.toFin M.nrRows) i = _
    rw [SVec.val_toFin]
    change M.entry i p.2 = _
    rw [M.entry_slack h3, Pi.single_apply]
    simp only [Fin.ext_iff]

/-! ### Reconstruction -/

theorem val_toVector {n : ℕ} (x : SVec (Fin n)) (i : Fin n) :
    SVec.val x.toVector.data i = SVec.val x i := by
  unfold SVec.toVector SVec.val
  rw [List.map_map]
  congr 1
  apply List.map_congr_left
  intro p _
  simp [Function.comp, Fin.ext_iff]

theorem reconstruct_indices (h : M.Valid) :
    (List.range' M.constraints.major (M.nrColumns - M.constraints.major)) =
      List.range' M.vars.length (M.nrColumns - M.vars.length) := by
  rw [h.major]

theorem keptIndices_range' (n i : ℕ) (len : ℕ) (hi : i ≤ n) :
    (keptIndices (List.range' n len) i) = List.range i := by
  unfold keptIndices
  rw [List.filter_eq_self]
  intro a ha
  rw [List.mem_range] at ha
  simp [List.mem_range']
  omega

theorem Valid.reconstruct (h : M.Valid) {x : SVec (Fin M.nrColumns)} (hx : SVec.WF x) :
    (M.reconstructSolution x.toVector).len = M.vars.length ∧
    SVec.WF (M.reconstructSolution x.toVector).data ∧
    (∀ p ∈ (M.reconstructSolution x.toVector).data, p.1 < M.vars.length) ∧
    ∀ j : Fin M.vars.length,
      SVec.val (M.reconstructSolution x.toVector).data j = M.restrict (SVec.val x) j := by
  have hle := M.vars_le_columns
  have hwf : SVec.WF x.toVector.data := by
    refine ⟨?_, fun p hp => ?_⟩
    · rw [SVec.toVector, List.pairwise_map]
      exact hx.1.imp fun h => h
    · obtain ⟨q, hq, rfl⟩ := List.mem_map.1 hp
      exact hx.2 q hq
  rw [reconstructSolution, reconstruct_indices h]
  refine ⟨?_, wf_removeSparseTuples hwf _, ?_, fun j => ?_⟩
  · simp only [SparseVector.removeIndices, SVec.toVector, List.length_range']
    omega
  · intro p hp
    simp only [SparseVector.removeIndices, removeSparseTuples, SVec.toVector, List.mem_map,
      List.mem_filter] at hp
    obtain ⟨q, ⟨⟨q', hq', rfl⟩, hq2⟩, rfl⟩ := hp
    simp only [List.mem_range', decide_eq_true_eq] at hq2
    have hlt : q'.1.val < M.vars.length := by
      by_contra hc
      have := q'.1.2
      exact hq2 ⟨q'.1.val - M.vars.length, by omega, by omega⟩
    simp only
    rw [keptIndices_range' _ _ _ (le_of_lt hlt), List.length_range]
    exact hlt
  · have hn : (j : ℕ) ∉ List.range' M.vars.length (M.nrColumns - M.vars.length) := by
      simp [List.mem_range']
      have := j.2
      omega
    have := val_removeSparseTuples x.toVector.data hn
    rw [keptIndices_range' _ _ _ (le_of_lt j.2), List.length_range] at this
    change SVec.val (removeSparseTuples _ _) _ = _
    rw [this]
    exact val_toVector x (Fin.castLE M.vars_le_columns j)

end MatrixData

end Relp
