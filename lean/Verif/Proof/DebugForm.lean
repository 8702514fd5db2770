import Verif.Model.DebugForm
import Verif.Proof.DebugCheck
import Verif.Proof.Debug
import Verif.Proof.FullSolution
import Verif.Proof.PresolveWhole

/-! # Solving a problem in general form in a debug build: helper lemmas -/

namespace Relp

/-! ### Matrices -/

theorem SparseMatrix.newDebug_ok {data : List (SVec ℕ)} {major minor : ℕ} (h1 : data.length = major)
    (h2 : ∀ v ∈ data, SVec.WF v) (h3 : ∀ v ∈ data, ∀ p ∈ v, p.1 < minor) :
    SparseMatrix.newDebug data major minor = .ok ⟨data, major, minor⟩ := by
  unfold SparseMatrix.newDebug
  rw [debugAssert_bind (decide_eq_true h1),
    debugAssert_bind (decide_eq_true fun v hv => (h2 v hv).sorted.imp le_of_lt),
    debugAssert_bind (decide_eq_true h3),
    debugAssert_bind (decide_eq_true fun v hv => (h2 v hv).nonzero)]
  rfl

namespace GeneralForm

variable {G : GeneralForm}

/-! ### Consistency -/

/-- What `is_consistent` checks. -/
theorem isConsistent_iff : G.isConsistent = true ↔
    (G.original.countP fun p => p.2.isSplit) ≤ G.constraints.major ∧
    G.b.length = G.constraints.minor ∧ G.constraintTypes.length = G.constraints.minor ∧
    G.vars.length = G.constraints.major ∧
    G.constraints.major - (G.original.countP fun p => p.2.isSplit) ≤ G.original.length ∧
    (G.original.filterMap fun p => p.2.position).Pairwise (· ≤ ·) ∧
    G.fromActive.length = G.constraints.major ∧
    (G.fromActive.take (G.constraints.major - G.original.countP fun p => p.2.isSplit)).Pairwise (· ≤ ·) ∧
    (G.fromActive.drop (G.constraints.major - G.original.countP fun p => p.2.isSplit)).Pairwise (· ≤ ·) ∧
    (G.constraints.major = 0 ∨ G.fromActive.getD (G.constraints.major - 1) 0 < G.original.length) := by
  unfold isConsistent
  simp only [Bool.and_eq_true, Bool.or_eq_true, decide_eq_true_eq, and_assoc]

theorem isConsistent_congr {H : GeneralForm} (h1 : H.original = G.original) (h2 : H.fromActive = G.fromActive)
    (h3 : H.constraints.major = G.constraints.major) (h4 : H.constraints.minor = G.constraints.minor)
    (h5 : H.b.length = G.b.length) (h6 : H.constraintTypes.length = G.constraintTypes.length)
    (h7 : H.vars.length = G.vars.length) : H.isConsistent = G.isConsistent := by
  rw [Bool.eq_iff_iff, isConsistent_iff, isConsistent_iff, h1, h2, h3, h4, h5, h6, h7]

theorem countP_notSplit (hG : G.Consistent) : (G.original.countP fun p => p.2.isSplit) = 0 := by
  rw [List.countP_eq_zero]
  intro p hp
  have := hG.notSplit p hp
  cases h : p.2 with
  | activeFree j k => exact absurd h (this j k)
  | active j => simp [OriginalVariable.isSplit]
  | removed r => simp [OriginalVariable.isSplit]

/-- A problem whose variables are all active and in order is consistent. -/
theorem isConsistent_of_sorted (hG : G.Consistent) (hs : G.fromActive.Pairwise (· < ·)) :
    G.isConsistent = true := by
  have hin : ∀ o ∈ G.fromActive, o < G.original.length := by
    intro o ho
    obtain ⟨j, hj⟩ := List.mem_iff_getElem?.1 ho
    obtain ⟨name, h⟩ := (hG.active o j).1 hj
    exact (List.getElem?_eq_some_iff.1 h).1
  have hpos : ∀ (o k : ℕ) (ho : o < G.original.length), (G.original[o]).2.position = some k →
      G.fromActive[k]? = some o := by
    intro o k ho hk
    refine (hG.active o k).2 ⟨(G.original[o]).1, ?_⟩
    rw [List.getElem?_eq_getElem ho]
    have hn := hG.notSplit _ (List.getElem_mem ho)
    cases h : (G.original[o]).2 with
    | activeFree j k => exact absurd h (hn j k)
    | active j =>
      rw [h] at hk
      cases hk
      rw [← h]
    | removed r => rw [h] at hk; cases hk
  rw [isConsistent_iff, countP_notSplit hG]
  refine ⟨Nat.zero_le _, hG.bLength.trans hG.minor.symm, hG.minor.symm, hG.major.symm, ?_, ?_,
    hG.activeLength.trans hG.major.symm, ?_, ?_, ?_⟩
  · rw [Nat.sub_zero, hG.major, ← hG.activeLength]
    have h1 : G.fromActive.toFinset ⊆ Finset.range G.original.length := fun o ho =>
      Finset.mem_range.2 (hin o (List.mem_toFinset.1 ho))
    have := Finset.card_le_card h1
    rwa [List.toFinset_card_of_nodup (hs.imp ne_of_lt), Finset.card_range] at this
  · rw [List.pairwise_filterMap, List.pairwise_iff_getElem]
    intro o₁ o₂ h1 h2 hlt k₁ hk₁ k₂ hk₂
    by_contra hc
    push Not at hc
    obtain ⟨b1, e1⟩ := List.getElem?_eq_some_iff.1 (hpos o₁ k₁ h1 hk₁)
    obtain ⟨b2, e2⟩ := List.getElem?_eq_some_iff.1 (hpos o₂ k₂ h2 hk₂)
    have := List.pairwise_iff_getElem.1 hs _ _ b2 b1 hc
    omega
  · exact (hs.imp le_of_lt).sublist (List.take_sublist _ _)
  · exact (hs.imp le_of_lt).sublist (List.drop_sublist _ _)
  · by_cases h0 : G.constraints.major = 0
    · exact .inl h0
    · refine .inr ?_
      have hk : G.constraints.major - 1 < G.fromActive.length := by
        rw [hG.activeLength, ← hG.major]; omega
      rw [List.getD_eq_getElem _ _ hk]
      exact hin _ (List.getElem_mem hk)

/-- `modify` of an element that does not satisfy a predicate, to one that does. -/
theorem countP_modify {α : Type} {p : α → Bool} {f : α → α} : ∀ {l : List α} {i : ℕ} {a : α},
    l[i]? = some a → p a = false → p (f a) = true → (l.modify i f).countP p = l.countP p + 1
  | [], i, a, h, _, _ => by simp at h
  | b :: l, 0, a, h, h1, h2 => by
    simp only [List.getElem?_cons_zero, Option.some.injEq] at h
    subst h
    simp [List.countP_cons, h1, h2]
  | b :: l, i + 1, a, h, h1, h2 => by
    simp only [List.getElem?_cons_succ] at h
    rw [List.modify_succ_cons, List.countP_cons, List.countP_cons, countP_modify h h1 h2]
    omega

theorem countP_split_foldl (hG : G.Consistent) : ∀ (l done : List ℕ) (S : GeneralForm),
    SplitState G done S → (∀ k ∈ done ++ l, k < G.vars.length) → (done ++ l).Nodup →
    (S.original.countP fun p => p.2.isSplit) = done.length →
    ((l.foldl splitStep S).original.countP fun p => p.2.isSplit) = (done ++ l).length
  | [], done, S, hS, _, _, h => by simpa using h
  | j :: l, done, S, hS, hd, hn, h => by
    have hj : j < G.vars.length := hd j (by simp)
    have hnj : j ∉ done := fun hc => (List.nodup_append.1 hn).2.2 j hc j (by simp) rfl
    have hS' := splitState_step hG hS (fun k hk => hd k (by simp [hk])) hj hnj
    have hja : j < G.fromActive.length := by rw [hG.activeLength]; exact hj
    have hv : ∃ v, S.vars[j]? = some v := by
      have : j < S.vars.length := by
        rw [hS.vars, List.length_append, List.length_mapIdx]
        omega
      exact ⟨_, List.getElem?_eq_getElem this⟩
    obtain ⟨v, hv⟩ := hv
    have hf : S.fromActive[j]? = some G.fromActive[j] := by
      rw [hS.fromActive, List.getElem?_append_left hja, List.getElem?_eq_getElem hja]
    obtain ⟨name, ho⟩ := (hG.active _ _).1 (List.getElem?_eq_getElem hja)
    have hSo : S.original[G.fromActive[j]]? = some (name, .active j) := by
      rw [hS.others _ ?_, ho]
      intro i hi hc
      obtain ⟨n1, h1⟩ := (hG.active _ _).1 hc
      rw [ho] at h1
      have : j = i := by simpa using (Prod.ext_iff.1 (Option.some.inj h1)).2
      exact hnj (this ▸ hi)
    have := countP_split_foldl hG l (done ++ [j]) (splitStep S j) hS' (by simpa using hd)
      (by simpa using hn) (by
        rw [splitStep, hv, hf]
        simp only
        rw [countP_modify hSo rfl rfl, h]
        simp)
    simpa using this

theorem split_countP (hG : G.Consistent) :
    (G.splitFreeVariables.original.countP fun p => p.2.isSplit) = G.freeIndices.length := by
  have := countP_split_foldl hG G.freeIndices [] _ (splitState_init hG (G.constraints.concatenate
    ⟨G.freeIndices.map fun j => negateColumn (G.col j), G.freeIndices.length, G.constraints.minor⟩))
    (fun k hk => free_lt hG (by simpa using hk)) (by simpa using freeIndices_nodup)
    (countP_notSplit (G := G) hG)
  rw [List.nil_append] at this
  exact this

theorem split_positions (hG : G.Consistent) :
    (G.splitFreeVariables.original.filterMap fun p => p.2.position) =
      G.original.filterMap fun p => p.2.position := by
  have hs := split_state hG
  have : (G.splitFreeVariables.original.map fun p => p.2.position) =
      G.original.map fun p => p.2.position := by
    apply List.ext_getElem?
    intro o
    rw [List.getElem?_map, List.getElem?_map]
    by_cases h : ∃ j ∈ G.freeIndices, G.fromActive[j]? = some o
    · obtain ⟨j, hj, ho⟩ := h
      obtain ⟨k, hk⟩ := List.mem_iff_getElem?.1 hj
      obtain ⟨name, hn⟩ := (hG.active _ _).1 ho
      rw [hs.split k j o hk ho, hn]
      rfl
    · push Not at h
      rw [hs.others o h]
  have e : ∀ l : List (String × OriginalVariable),
      (l.filterMap fun p => p.2.position) = (l.map fun p => p.2.position).filterMap id := fun l => by
    rw [List.filterMap_map]; rfl
  rw [e, this, ← e]

theorem split_isConsistent (hG : G.Consistent) (hc : G.isConsistent = true) :
    G.splitFreeVariables.isConsistent = true := by
  have hs := split_state hG
  rw [isConsistent_iff, countP_notSplit hG, Nat.sub_zero] at hc
  obtain ⟨-, c1, c2, c3, c4, c5, c6, c7, -, c9⟩ := hc
  rw [List.take_of_length_le (le_of_eq c6)] at c7
  have hin : ∀ o ∈ G.fromActive, o < G.original.length := by
    intro o ho
    obtain ⟨j, hj⟩ := List.mem_iff_getElem?.1 ho
    obtain ⟨name, h⟩ := (hG.active o j).1 hj
    exact (List.getElem?_eq_some_iff.1 h).1
  have hmajor := split_major hG
  have hlen := split_length hG
  have hminor : G.splitFreeVariables.constraints.minor = G.constraints.minor := by
    rw [split_constraints]; rfl
  have hfa : G.splitFreeVariables.fromActive.length = G.vars.length + G.freeIndices.length := by
    rw [hs.fromActive, List.length_append, hG.activeLength, filterMap_length_of_isSome]
    intro j hj
    rw [List.getElem?_eq_getElem (by rw [hG.activeLength]; exact free_lt hG hj)]
    rfl
  rw [isConsistent_iff, split_countP hG, split_positions hG, hmajor, hlen, hminor, hs.b, hs.types,
    hs.originalLength, hfa, Nat.add_sub_cancel, hs.fromActive,
    List.take_left' hG.activeLength, List.drop_left' hG.activeLength]
  refine ⟨by omega, c1, c2, rfl, by omega, c5, rfl, c7, ?_, ?_⟩
  · rw [List.pairwise_filterMap]
    have hf : G.freeIndices.Pairwise (· < ·) := List.pairwise_lt_range.filter _
    refine hf.imp fun {j k} hjk o ho p hp => ?_
    obtain ⟨b1, rfl⟩ := List.getElem?_eq_some_iff.1 ho
    obtain ⟨b2, rfl⟩ := List.getElem?_eq_some_iff.1 hp
    exact List.pairwise_iff_getElem.1 c7 _ _ b1 b2 hjk
  · by_cases h0 : G.vars.length + G.freeIndices.length = 0
    · exact .inl h0
    · refine .inr ?_
      have hk : G.vars.length + G.freeIndices.length - 1 <
          (G.fromActive ++ G.freeIndices.filterMap fun j => G.fromActive[j]?).length := by
        rw [← hs.fromActive, hfa]; omega
      rw [List.getD_eq_getElem _ _ hk]
      rcases List.mem_append.1 (List.getElem_mem hk) with h | h
      · exact hin _ h
      · obtain ⟨j, -, hj⟩ := List.mem_filterMap.1 h
        exact hin _ (List.mem_of_getElem? hj)

theorem transform_isConsistent (hG : G.Consistent) (hc : G.isConsistent = true) :
    G.transformVariables.isConsistent = true := by
  have h := transform_state hG
  rw [isConsistent_congr h.original h.fromActive h.major h.minor h.bLength (by rw [h.types]) h.length]
  exact split_isConsistent hG hc

theorem nonneg_isConsistent (hb : G.b.length = G.constraintTypes.length) (hc : G.isConsistent = true) :
    G.makeBNonNegative.isConsistent = true := by
  obtain ⟨n1, n2⟩ := nonneg_length hb
  exact (isConsistent_congr (G := G) (H := G.makeBNonNegative) rfl rfl rfl rfl (n2.trans hb.symm) n1
    rfl).trans hc

theorem minimize_fromActive : G.makeMinimization.fromActive = G.fromActive := by
  unfold makeMinimization; split <;> rfl

theorem minimize_isConsistent (hc : G.isConsistent = true) : G.makeMinimization.isConsistent = true := by
  rw [isConsistent_congr minimize_original minimize_fromActive (by rw [minimize_constraints])
    (by rw [minimize_constraints]) (by rw [minimize_b]) (by rw [minimize_types]) minimize_length]
  exact hc

/-! ### Standardisation -/

theorem splitFreeVariablesDebug_eq (hG : G.Consistent) :
    G.splitFreeVariablesDebug = .ok G.splitFreeVariables := by
  have hcol : ∀ c ∈ G.splitFreeVariables.constraints.data,
      SVec.WF c ∧ ∀ p ∈ c, p.1 < G.constraints.minor := by
    intro c hc
    rw [hG.minor]
    exact split_columns hG c hc
  rw [split_constraints] at hcol
  simp only [SparseMatrix.concatenate] at hcol
  unfold splitFreeVariablesDebug
  simp only []
  simp only [col] at hcol
  rw [SparseMatrix.newDebug_ok (by simp) (fun v hv => (hcol v (List.mem_append_right _ hv)).1)
    (fun v hv => (hcol v (List.mem_append_right _ hv)).2), bindOk]
  unfold SparseMatrix.concatenateDebug
  rw [debugAssert_bind (decide_eq_true rfl)]
  rw [SparseMatrix.newDebug_ok (by simp [hG.dataLength, hG.major]) (fun v hv => (hcol v hv).1)
    (fun v hv => (hcol v hv).2), bindOk]
  rfl

theorem transformVariablesDebug_eq (hG : G.Consistent) (hc : G.isConsistent = true) :
    G.transformVariablesDebug = .ok G.transformVariables := by
  unfold transformVariablesDebug
  rw [splitFreeVariablesDebug_eq hG, bindOk, debugAssert_bind (split_isConsistent hG hc)]
  exact debugAssert_bind (transform_isConsistent hG hc) _

/-- A debug build standardises a consistent problem as a release build does. -/
theorem standardizeDebug_eq (hG : G.Consistent) (hc : G.isConsistent = true) :
    ∃ H counts, G.standardize = some (H, counts) ∧ G.standardizeDebug = .ok (H, counts) ∧
      H.isConsistent = true := by
  have h1 := transform_state hG
  have hs := split_state hG
  have hSb : G.transformVariables.b.length = G.transformVariables.constraintTypes.length := by
    rw [h1.bLength, h1.types, hs.b, hs.types, hG.bLength]
  have hSc : ∀ c ∈ G.transformVariables.constraints.data, ∀ p ∈ c,
      p.1 < G.transformVariables.constraintTypes.length := by
    intro c hcc
    obtain ⟨c0, hc0, e⟩ := h1.columns c hcc
    obtain ⟨w1, w2⟩ := split_columns hG c0 hc0
    rw [h1.types, hs.types]
    rcases e with rfl | rfl
    · exact w2
    · intro p hp
      obtain ⟨q, hq, rfl⟩ := List.mem_map.1 hp
      exact w2 q hq
  have hc1 := transform_isConsistent hG hc
  obtain ⟨n1, n2⟩ := nonneg_length hSb
  have hc2 := nonneg_isConsistent hSb hc1
  have hc3 := minimize_isConsistent hc2
  have hKb : G.transformVariables.makeBNonNegative.makeMinimization.b.length =
      G.transformVariables.makeBNonNegative.makeMinimization.constraintTypes.length := by
    rw [minimize_b, minimize_types, n2, n1]
  have hKc : ∀ c ∈ G.transformVariables.makeBNonNegative.makeMinimization.constraints.data, ∀ p ∈ c,
      p.1 < G.transformVariables.makeBNonNegative.makeMinimization.constraintTypes.length := by
    intro c hcc
    rw [minimize_constraints] at hcc
    rw [minimize_types, n1]
    obtain ⟨c0, hc0, rfl⟩ := List.mem_map.1 hcc
    intro p hp
    obtain ⟨q, hq, rfl⟩ := List.mem_map.1 hp
    have := hSc c0 hc0 q hq
    split_ifs <;> exact this
  obtain ⟨b', r1, -, H, hH, r3, -⟩ := reorder_spec hKb hKc
  have hHc : H.isConsistent = true := by
    rw [hH]
    exact (isConsistent_congr (G := G.transformVariables.makeBNonNegative.makeMinimization)
      (H := { G.transformVariables.makeBNonNegative.makeMinimization with
        constraintTypes := _, b := b', constraints := _ }) rfl rfl rfl
      rfl (r1.trans hKb.symm) (sortedTypes_length) rfl).trans hc3
  refine ⟨H, _, r3, ?_, hHc⟩
  unfold standardizeDebug makeBNonNegativeDebug reorderConstraintsDebug
  rw [transformVariablesDebug_eq hG hc, bindOk, debugAssert_bind hc2]
  change (orPanic _ >>= _) = _
  rw [r3, orPanic, bindOk]
  simp only []
  rw [debugAssert_bind (decide_eq_true (by rw [hH]; exact r1.trans hKb.symm)), debugAssert_bind hHc]
  rfl

/-- The constraints of a standardised problem are of the kinds that `derive_matrix_data` checks for. -/
theorem kindAt_sorted {types : List ConstraintType} {i : ℕ} {t : ConstraintType}
    (h : (sortedTypes types)[i]? = some t) :
    (⟨countRank types 0, countRank types 1, countRank types 2, countRank types 3⟩ : Counts).kindAt i =
      some (rank t) := by
  obtain ⟨r, -, hr⟩ := mapM_rangeOf (l := types.filter fun t => rank t = 1) (by
    intro t ht
    simpa using (List.mem_filter.1 ht).2)
  have hi := (List.getElem?_eq_some_iff.1 h).1
  have hsum : countRank types 0 + countRank types 1 + countRank types 2 + countRank types 3 =
      types.length := by
    rw [← offset_four (types := types), offset_succ, offset_three]
  rw [sortedTypes_length, ← hsum] at hi
  rw [sorted_types hr h]
  unfold Counts.kindAt
  simp only [hi, if_true]
  split_ifs <;> rfl

/-- A debug build derives the tabular form as a release build does. -/
theorem deriveMatrixDataDebug_eq (hG : G.Consistent) {H : GeneralForm} {counts : Counts}
    (h : G.standardize = some (H, counts)) (hc : H.isConsistent = true) :
    ∃ M, H.deriveMatrixData counts = some M ∧ H.deriveMatrixDataDebug counts = .ok M ∧
      M.constraints = H.constraints ∧ M.vars = H.vars ∧ (G.Proper → M.Valid) := by
  obtain ⟨H', counts', h1, h2⟩ := standardize_spec hG
  rw [h] at h1
  cases h1
  obtain ⟨ranges, d1, d2, d3, -, -⟩ := h2.derive
  obtain ⟨types, t1, rfl, -⟩ := h2.types
  rw [isConsistent_iff] at hc
  refine ⟨_, d1, ?_, rfl, rfl, d3⟩
  have hr : ranges.length = countRank types 1 := by
    have d1' := d1
    simp only [deriveMatrixData, t1, sorted_slice] at d1'
    obtain ⟨r, r1, r2⟩ := mapM_rangeOf (l := types.filter fun t => rank t = 1) (by
      intro t ht
      simpa using (List.mem_filter.1 ht).2)
    rw [r1] at d1'
    have e : r = ranges := congrArg MatrixData.ranges (Option.some.inj d1')
    have := filter_length (types := types) 1
    rw [r2, List.length_map, e] at this
    exact this
  unfold deriveMatrixDataDebug
  rw [debugAssert_bind (decide_eq_true fun p hp => kindAt_sorted (by
    rw [← t1]
    obtain ⟨t, i⟩ := p
    simpa using List.mem_zipIdx_iff_getElem?.1 hp)),
    debugAssert_bind (decide_eq_true (d2.trans hc.2.2.1)), d1, orPanic, bindOk,
    debugAssert_bind (decide_eq_true ?_), debugAssert_bind (decide_eq_true ?_)]
  · rfl
  · exact d2.trans hc.2.2.1
  · exact hr

/-! ### Reconstruction -/

theorem reshiftStep_len (x : SparseVector) (p : Variable × ℕ) : (reshiftStep x p).len = x.len := by
  unfold reshiftStep
  simp only []
  split
  · split <;> rfl
  · rfl

theorem reshiftStepDebug_eq {x : SparseVector} (hx : SVec.WF x.data) {v : Variable} {j : ℕ} (hj : j < x.len) :
    reshiftStepDebug x (v, j) = .ok (reshiftStep x (v, j)) := by
  have h1 : SVec.WF (x.shiftValue j (-v.shift)).data := SVec.wf_shiftValue hx j _
  unfold reshiftStepDebug reshiftStep
  rw [debugAssert_bind (decide_eq_true hj)]
  simp only []
  split
  · have hg := SVec.get?_eq h1 j
    cases hn : (x.shiftValue j (-v.shift)).get j with
    | none => rfl
    | some value =>
      have h0 : value ≠ 0 := by
        rw [SparseVector.get, hg] at hn
        split at hn
        · cases hn
        · rename_i h0
          cases hn
          exact h0
      simp only
      rw [debugAssert_bind (decide_eq_true (neg_ne_zero.2 h0))]
      rfl
  · rfl

theorem reshift_foldlM : ∀ (l : List Variable) (s : ℕ) (x : SparseVector), SVec.WF x.data →
    s + l.length ≤ x.len →
    (l.zipIdx s).foldlM reshiftStepDebug x = .ok ((l.zipIdx s).foldl reshiftStep x) ∧
      ((l.zipIdx s).foldl reshiftStep x).len = x.len
  | [], s, x, hx, _ => ⟨rfl, rfl⟩
  | v :: l, s, x, hx, hs => by
    simp only [List.length_cons] at hs
    obtain ⟨a1, a2⟩ := reshift_foldlM l (s + 1) (reshiftStep x (v, s)) (reshiftStep_spec hx v s).1 (by
      rw [reshiftStep_len]; omega)
    rw [List.zipIdx_cons, List.foldlM_cons, List.foldl_cons, reshiftStepDebug_eq hx (by omega), bindOk]
    exact ⟨a1, a2.trans (reshiftStep_len _ _)⟩

/-- A debug build computes the full solution as a release build does. -/
theorem computeFullSolutionDebug_eq {x : SparseVector} (hx : SVec.WF x.data) (hl : x.len = G.vars.length) :
    G.computeFullSolutionDebug x = orPanic (G.computeFullSolution x) := by
  obtain ⟨h1, h2⟩ := reshift_foldlM G.vars 0 x hx (by omega)
  unfold computeFullSolutionDebug computeFullSolution
  rw [debugAssert_bind (decide_eq_true hl)]
  simp only []
  unfold reshiftSolutionDebug
  rw [debugAssert_bind (decide_eq_true hl), h1, bindOk, debugAssert_bind (decide_eq_true (h2.trans hl))]
  change (orPanic (List.mapM (fun j => G.solutionValue (G.reshiftSolution x) (G.original.length + 1) j) _)
    >>= _) = _
  cases List.mapM (fun j => G.solutionValue (G.reshiftSolution x) (G.original.length + 1) j)
    (List.range G.original.length) <;> rfl

end GeneralForm

/-- A debug build reconstructs a solution as a release build does, if there are variables. -/
theorem MatrixData.reconstructSolutionDebug_eq {M : MatrixData} (hM : M.Valid) (h0 : 0 < M.vars.length)
    {x : SparseVector} (hx : x.len = M.nrColumns) :
    M.reconstructSolutionDebug x = .ok (M.reconstructSolution x) := by
  have hle := M.vars_le_columns
  unfold MatrixData.reconstructSolutionDebug SparseVector.removeIndicesDebug
  rw [debugAssert_bind (decide_eq_true hx),
    debugAssert_bind (decide_eq_true ((List.pairwise_lt_range' (s := _) (n := _)).imp le_of_lt)),
    debugAssert_bind (decide_eq_true (List.toFinset_card_of_nodup List.nodup_range')),
    debugAssert_bind (decide_eq_true (fun i hi => by
      rw [List.mem_range'_1] at hi
      rw [hx]
      have := hM.major
      omega)),
    debugAssert_bind (decide_eq_true (by
      rw [List.length_range', hx]
      have := hM.major
      omega))]
  rfl

/-- A debug build aborts when the solution of a problem without variables is reconstructed. -/
theorem MatrixData.reconstructSolutionDebug_fail {M : MatrixData} (h0 : M.constraints.major = 0)
    (x : SparseVector) : M.reconstructSolutionDebug x = panic .debugAssertion := by
  have key : ∀ {α : Type} (b : Bool) {y : Unit → Res α}, (b = true → y () = panic .debugAssertion) →
      (debugAssert b >>= y) = panic .debugAssertion := by
    intro α b y h
    cases b with
    | false => rfl
    | true => exact h rfl
  unfold MatrixData.reconstructSolutionDebug SparseVector.removeIndicesDebug
  refine key _ fun hx => ?_
  refine key _ fun _ => key _ fun _ => key _ fun _ => key _ fun h => ?_
  rw [decide_eq_true_eq] at h hx
  rw [List.length_range', h0, hx] at h
  omega

namespace GeneralForm

variable {G : GeneralForm}

/-! ### Nonempty columns -/

theorem flip_lengths (j : ℕ) : (flipVariable j G).constraints.data.map List.length =
    G.constraints.data.map List.length := by
  unfold flipVariable
  split
  · split
    · apply List.ext_getElem?
      intro i
      simp only [List.getElem?_map, List.getElem?_modify]
      split <;> cases G.constraints.data[i]? <;> simp
    · rfl
  · rfl

theorem shift_constraints (j : ℕ) : (shiftVariable j G).constraints = G.constraints := by
  unfold shiftVariable
  split
  · split <;> rfl
  · rfl

theorem transform_fold_lengths : ∀ (l : List ℕ) (K : GeneralForm),
    (l.foldl (fun G j => shiftVariable j (flipVariable j G)) K).constraints.data.map List.length =
      K.constraints.data.map List.length
  | [], _ => rfl
  | j :: l, K => by
    rw [List.foldl_cons, transform_fold_lengths l, shift_constraints, flip_lengths]

theorem transform_nonempty (h : ∃ c ∈ G.constraints.data, c ≠ []) :
    ∃ c ∈ G.transformVariables.constraints.data, c ≠ [] := by
  obtain ⟨c, h1, h2⟩ := h
  have h3 : c.length ∈ G.transformVariables.constraints.data.map List.length := by
    unfold transformVariables
    rw [transform_fold_lengths, split_constraints]
    exact List.mem_map_of_mem (List.mem_append_left _ h1)
  obtain ⟨d, h4, h5⟩ := List.mem_map.1 h3
  refine ⟨d, h4, fun h => h2 ?_⟩
  rw [h, List.length_nil] at h5
  exact List.length_eq_zero_iff.1 h5.symm

theorem standardize_nonempty {H : GeneralForm} {counts : Counts} (h : G.standardize = some (H, counts))
    (hne : ∃ c ∈ G.constraints.data, c ≠ []) : ∃ c ∈ H.constraints.data, c ≠ [] := by
  obtain ⟨c, h1, h2⟩ := transform_nonempty hne
  unfold standardize reorderConstraints at h
  simp only [Option.bind_eq_bind, Option.bind_eq_some_iff, Option.pure_def, Option.some.injEq, Prod.mk.injEq] at h
  obtain ⟨b, -, rfl, -⟩ := h
  refine ⟨_, List.mem_map_of_mem (by
    rw [minimize_constraints]
    exact List.mem_map_of_mem h1), fun h => h2 ?_⟩
  have := congrArg List.length h
  rw [List.length_insertionSort, List.length_map, List.length_map, List.length_nil] at this
  exact List.length_eq_zero_iff.1 this

end GeneralForm

theorem MatrixData.toLP_ne_zero {M : MatrixData} (hM : M.Valid) (h : ∃ c ∈ M.constraints.data, c ≠ []) :
    M.nrRows ≠ 0 ∧ M.toProvider.toLP.A ≠ 0 ∧ 0 < M.vars.length := by
  obtain ⟨c, h1, h2⟩ := h
  obtain ⟨p, hp⟩ := List.exists_mem_of_ne_nil c h2
  obtain ⟨j, hj, rfl⟩ := List.mem_iff_getElem.1 h1
  have hjv : j < M.vars.length := by rw [← hM.dataLength]; exact hj
  have hr : p.1 < M.lowerEnd := hM.inRange _ h1 p hp
  have hrr : p.1 < M.nrRows := by
    have : M.lowerEnd ≤ M.nrRows := by
      unfold MatrixData.nrRows
      have : M.lowerEnd = M.nrConstraints := rfl
      omega
    omega
  refine ⟨by omega, fun h0 => ?_, by omega⟩
  have h3 := congrFun (congrFun h0 ⟨p.1, hrr⟩) ⟨j, lt_of_lt_of_le hjv M.vars_le_columns⟩
  have h4 : M.entry p.1 j = 0 := (M.toLP_entry _ _).symm.trans h3
  rw [MatrixData.entry_normal M hjv, if_neg (by omega), add_zero, List.getD_eq_getElem _ _ hj] at h4
  have hw := hM.wf _ h1
  rw [SVec.val_of_mem hw hp] at h4
  exact hw.2 p hp h4

namespace GeneralForm

variable {G : GeneralForm}

/-! ### The chain -/

/-- The second half of the chain, if the solver gives the same answer. -/
theorem solveStandardizedDebug_eq {inv : InverseName} {rule : RuleName} {fuel : ℕ} {H : GeneralForm}
    {M : MatrixData} (hM : M.Valid) (hv : M.vars = H.vars) (h0 : 0 < M.vars.length)
    (he : solveRelaxationDebug inv rule fuel M.toProvider M.initialBasis =
      solveRelaxation inv rule fuel M.toProvider M.initialBasis) :
    solveStandardizedDebug inv rule fuel H M = solveStandardized inv rule fuel H M := by
  unfold solveStandardizedDebug solveStandardized
  rw [he]
  cases hs : solveRelaxation inv rule fuel M.toProvider M.initialBasis with
  | error e => rfl
  | ok a =>
    rw [bindOk, bindOk]
    cases a with
    | infeasible => rfl
    | unbounded => rfl
    | finiteOptimum z =>
      obtain ⟨-, h2, -⟩ := solveRelaxation_answer hM.ok MatrixData.initialBasis_ok hs
      obtain ⟨r1, r2, -⟩ := hM.reconstruct h2
      simp only []
      rw [MatrixData.reconstructSolutionDebug_eq hM h0 (x := z.toVector) rfl, bindOk,
        computeFullSolutionDebug_eq r2 (r1.trans (by rw [hv]))]

/-- A debug build solves a problem as a release build does, if the solver gives the same answer for the
problem in tabular form. -/
theorem solveDebug_eq {inv : InverseName} {rule : RuleName} {fuel : ℕ} (hG : G.Consistent)
    (hs : G.fromActive.Pairwise (· < ·)) (hp : G.Proper) (hne : ∃ c ∈ G.constraints.data, c ≠ [])
    (he : ∀ H counts M, G.standardize = some (H, counts) → H.deriveMatrixData counts = some M →
      M.Valid → M.nrRows ≠ 0 → M.toProvider.toLP.A ≠ 0 →
      solveRelaxationDebug inv rule fuel M.toProvider M.initialBasis =
        solveRelaxation inv rule fuel M.toProvider M.initialBasis) :
    G.solveDebug inv rule fuel = G.solve inv rule fuel := by
  obtain ⟨H, counts, h1, h2, h3⟩ := standardizeDebug_eq hG (isConsistent_of_sorted hG hs)
  obtain ⟨M, d1, d2, d3, d4, d5⟩ := deriveMatrixDataDebug_eq hG h1 h3
  obtain ⟨n1, n2, n3⟩ := MatrixData.toLP_ne_zero (d5 hp) (by rw [d3]; exact standardize_nonempty h1 hne)
  unfold solveDebug solve
  rw [h2, h1, orPanic, bindOk, bindOk]
  simp only []
  rw [d2, d1, orPanic, bindOk, bindOk]
  exact solveStandardizedDebug_eq (d5 hp) d4 n3 (he H counts M h1 d1 (d5 hp) n1 n2)

theorem solveDebug_no_vars {inv : InverseName} {rule : RuleName} {fuel : ℕ} (hG : G.Consistent)
    (hs : G.fromActive.Pairwise (· < ·)) (h0 : G.vars = []) (solution : Solution) :
    G.solveDebug inv rule fuel ≠ .ok (.finiteOptimum solution) := by
  obtain ⟨H, counts, h1, h2, h3⟩ := standardizeDebug_eq hG (isConsistent_of_sorted hG hs)
  obtain ⟨M, d1, d2, d3, d4, -⟩ := deriveMatrixDataDebug_eq hG h1 h3
  have hmaj : M.constraints.major = 0 := by
    rw [d3]
    unfold standardize reorderConstraints at h1
    simp only [Option.bind_eq_bind, Option.bind_eq_some_iff, Option.pure_def, Option.some.injEq, Prod.mk.injEq] at h1
    obtain ⟨b, -, rfl, -⟩ := h1
    change G.transformVariables.makeBNonNegative.makeMinimization.constraints.major = 0
    rw [minimize_constraints]
    change G.transformVariables.constraints.major = 0
    rw [(transform_state hG).major, split_constraints]
    have : G.freeIndices = [] := by
      unfold freeIndices
      rw [hG.major, h0]
      rfl
    rw [this]
    simp [SparseMatrix.concatenate, hG.major, h0]
  unfold solveDebug
  rw [h2, bindOk]
  simp only []
  rw [d2, bindOk]
  unfold solveStandardizedDebug
  cases solveRelaxationDebug inv rule fuel M.toProvider M.initialBasis with
  | error e => exact nofun
  | ok a =>
    rw [bindOk]
    cases a with
    | infeasible => exact nofun
    | unbounded => exact nofun
    | finiteOptimum z =>
      simp only []
      rw [MatrixData.reconstructSolutionDebug_fail hmaj]
      exact nofun

/-! ### Redundant rows -/

theorem nonneg_countEqual : ∀ (types : List ConstraintType) (b : List ℚ), b.length = types.length →
    countRank ((types.zip b).map fun p => if p.2 < 0 then (negateRow p.1 p.2).1 else p.1) 0 =
      countRank types 0
  | [], _, _ => rfl
  | t :: types, [], h => by cases h
  | t :: types, x :: b, h => by
    have ih := nonneg_countEqual types b (by simpa using h)
    unfold countRank at ih ⊢
    rw [List.zip_cons_cons, List.map_cons, List.countP_cons, List.countP_cons, ih]
    congr 1
    simp only []
    cases t <;> split_ifs <;> simp_all [negateRow, rank]

/-- At least as many rows of the tabular form are kept as there are inequalities. -/
theorem redundant_length (hG : G.Consistent) {H : GeneralForm} {counts : Counts} {M : MatrixData}
    (h : G.standardize = some (H, counts)) (hM : H.deriveMatrixData counts = some M)
    {rows : List (Fin M.nrRows)} (hr : M.toProvider.toLP.Redundant rows) :
    rows.length + G.constraintTypes.countP (fun t => t ≠ .equal) ≤ M.nrRows := by
  obtain ⟨H', counts', h1, h2⟩ := standardize_spec hG
  rw [h] at h1
  cases h1
  obtain ⟨ranges, d1, d2, -⟩ := h2.derive
  rw [hM] at d1
  cases d1
  have hs := split_state hG
  have ht := transform_state hG
  have hb : G.transformVariables.b.length = G.transformVariables.constraintTypes.length := by
    rw [ht.bLength, ht.types, hs.b, hs.types, hG.bLength]
  have he : counts.equality = countRank G.constraintTypes 0 ∧
      H.constraintTypes.length = G.constraintTypes.length := by
    unfold standardize reorderConstraints at h
    simp only [Option.bind_eq_bind, Option.bind_eq_some_iff, Option.pure_def, Option.some.injEq, Prod.mk.injEq] at h
    obtain ⟨b, -, rfl, rfl⟩ := h
    refine ⟨?_, ?_⟩
    · change countRank G.transformVariables.makeBNonNegative.makeMinimization.constraintTypes 0 = _
      rw [minimize_types]
      refine (nonneg_countEqual _ _ hb).trans ?_
      rw [ht.types, hs.types]
    · refine (sortedTypes_length (types :=
        G.transformVariables.makeBNonNegative.makeMinimization.constraintTypes)).trans ?_
      rw [minimize_types, (nonneg_length hb).1, ht.types, hs.types]
  have hle : rows.length ≤ counts.equality := by
    have h1 : (rows.map (·.val)).Nodup := (List.nodup_map_iff Fin.val_injective).2 (hr.1.imp ne_of_lt)
    have h2 : rows.map (·.val) ⊆ List.range counts.equality := by
      intro i hi
      obtain ⟨r, hrr, rfl⟩ := List.mem_map.1 hi
      exact List.mem_range.2 (MatrixData.redundant_equality hr r hrr)
    simpa using (List.subperm_of_subset h1 h2).length_le
  have hcount : countRank G.constraintTypes 0 + G.constraintTypes.countP (fun t => t ≠ .equal) =
      G.constraintTypes.length := by
    rw [List.length_eq_countP_add_countP (fun t => rank t = 0), countRank]
    congr 1
    refine List.countP_congr fun t _ => ?_
    cases t <;> simp [rank]
  have hrows : counts.equality + counts.range + counts.upper + counts.lower ≤
      (H.toMatrixData counts ranges).nrRows := Nat.le_add_right _ _
  omega

/-- What presolving leaves is consistent, and its variables are in their original order. -/
theorem presolve_ok_ordered {H : GeneralForm} (hG : G.Fresh) (hp : G.Proper) {fuel : ℕ}
    (hsafe : ∀ s, Presolve.Index.new G = .ok s → Presolve.SafeRun G fuel s 0)
    (h : Presolve.presolve fuel G = .ok H) :
    H.Consistent ∧ H.Proper ∧ H.Acyclic ∧ H.fromActive.Pairwise (· < ·) := by
  obtain ⟨hnew, hnew'⟩ := Presolve.indexNew_correct hG.toConsistent hp
  cases hs : Presolve.Index.new G with
  | error e =>
    unfold Presolve.presolve at h
    rw [hs] at h
    cases h
  | ok s =>
    have hloop := Presolve.presolveLoop_correct hG fuel s 0 (hnew s hs).1 (hsafe s hs)
    cases hl : Presolve.presolveLoop G fuel s 0 with
    | error e =>
      unfold Presolve.presolve at h
      rw [hs] at h
      simp only [bind, Except.bind] at h
      rw [hl] at h
      cases h
    | ok t =>
      rw [hl] at hloop
      obtain ⟨K, hres, hprop, hac, he⟩ := Presolve.finish_result hG hloop.1
      rw [he fuel s hs hl] at h
      cases hsol : Presolve.getSolution K with
      | some solution => rw [hsol] at h; cases h
      | none =>
        rw [hsol] at h
        cases h
        refine ⟨hres.consistent, hprop, hac, ?_⟩
        rw [hres.fromActive]
        exact List.pairwise_lt_range.filter _

end GeneralForm

end Relp
