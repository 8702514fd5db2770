import Verif.Spec.MpsDebug
import Verif.Proof.MpsDebugBelow
import Verif.Proof.MpsAccepted
import Verif.Proof.MpsConvert
import Verif.Proof.DebugForm
import Verif.Proof.PresolveDecide
import Verif.Proof.DebugStart

/-!
# When the checks of the conversion in a debug build hold
-/

namespace Relp

theorem importAssert_ok {c : Bool} {u : Unit} (h : importAssert c = .ok u) : c = true := by
  unfold importAssert at h
  split at h
  · assumption
  · cases h

theorem importAssert_true {c : Bool} (h : c = true) : importAssert c = .ok () := by
  unfold importAssert
  rw [if_pos h]

theorem importAssert_bind {c : Bool} (h : c = true) {α : Type} (f : Unit → Import α) :
    (importAssert c >>= f) = f () := by
  rw [importAssert_true h]
  rfl

theorem ofRes_ok {α : Type} {x : Res α} {a : α} : Import.ofRes x = .ok a ↔ x = .ok a := by
  cases x with
  | error e => exact ⟨nofun, nofun⟩
  | ok b => exact ⟨fun h => by cases h; rfl, fun h => by cases h; rfl⟩

theorem names_card {α : Type} [DecidableEq α] (l : List α) : l.toFinset.card = l.length ↔ l.Nodup := by
  constructor
  · intro h
    exact Multiset.coe_nodup.1 (Multiset.toFinset_card_eq_card_iff_nodup.1 h)
  · exact List.toFinset_card_of_nodup

namespace Mps

/-! ### Bounds -/

theorem processBoundsDebug_eq {vars : List Variable} (bounds : List (Listing BoundType))
    (hv : ∀ v ∈ vars, v.lowerBound = none ∧ v.upperBound = none) :
    processBoundsDebug vars bounds = processBounds vars bounds := by
  unfold processBoundsDebug processBounds
  rw [importAssert_bind (by
    rw [List.all_eq_true]
    intro v hm
    rw [(hv v hm).1, (hv v hm).2]
    rfl)]
  refine bind_congr_ok fun states hs => ?_
  split
  · rfl
  · rw [importAssert_bind]
    rw [List.all_eq_true]
    intro s hm
    obtain ⟨h1, -, h3⟩ := foldlM_updateAt_ok hs
    obtain ⟨j, hj⟩ := List.getElem?_of_mem hm
    have hlt : j < vars.length := by
      have := (List.getElem?_eq_some_iff.1 hj).1
      rwa [h1, List.length_map] at this
    obtain ⟨s', h4, h5⟩ := h3 j ⟨vars[j], true, false⟩
      (by rw [List.getElem?_map, List.getElem?_eq_getElem hlt]; rfl)
    rw [hj] at h4
    cases h4
    have := (foldlM_processBound_ok h5).2.2.2.1
    cases hd : s.needsDefault with
    | false => rfl
    | true =>
      rw [this hd, (hv _ (List.getElem_mem hlt)).1]
      rfl

/-! ### Right-hand sides -/

theorem computeBRowDebug_eq {s : RowState} {v : ℚ} (h : s.b = none ∨ ∀ r, s.type ≠ .range r) :
    computeBRowDebug s v = computeBRow s v := by
  unfold computeBRowDebug
  refine importAssert_bind ?_ _
  rcases h with h | h
  · rw [h]; rfl
  · cases ht : s.type with
    | range r => exact absurd ht (h r)
    | _ => simp

theorem computeBRowDebug_range {s : RowState} {v c r : ℚ} (h : s.b = some c) (ht : s.type = .range r) :
    computeBRowDebug s v = .error .panic := by
  unfold computeBRowDebug
  rw [h, ht]
  rfl

/-- Without a range, values are processed as in a release build. -/
theorem foldDebug_plain (vs : List ℚ) : ∀ {s : RowState}, (∀ r, s.type ≠ .range r) →
    vs.foldlM computeBRowDebug s = vs.foldlM computeBRow s := by
  induction vs with
  | nil => intro s _; rfl
  | cons v vs ih =>
    intro s hs
    rw [List.foldlM_cons, List.foldlM_cons, computeBRowDebug_eq (Or.inr hs)]
    refine bind_congr_ok fun t ht => ih ?_
    have : t.type = s.type := by
      cases hb : s.b with
      | none =>
        rw [computeBRow_none hb hs] at ht
        cases ht
        rfl
      | some c =>
        unfold computeBRow at ht
        rw [hb] at ht
        simp only at ht
        split at ht
        · split at ht
          · cases ht
          · cases ht; rfl
        · cases ht
          split <;> rfl
        · cases ht
          split <;> rfl
    rw [this]
    exact hs

theorem foldDebug_range {relation : Relation} {r : ℚ} (vs : List ℚ) :
    vs.foldlM computeBRowDebug ⟨relation, .range r, none⟩ =
      if vs.length ≤ 1 then vs.foldlM computeBRow ⟨relation, .range r, none⟩ else .error .panic := by
  match vs with
  | [] => rfl
  | [v] =>
    rw [if_pos (by simp), List.foldlM_cons, List.foldlM_cons, computeBRowDebug_eq (Or.inl rfl)]
    rfl
  | v :: w :: vs =>
    rw [if_neg (by simp), List.foldlM_cons, computeBRowDebug_eq (Or.inl rfl)]
    have : computeBRow ⟨relation, .range r, none⟩ v = .ok ⟨relation, .range (if r < 0 then -r else r), some
        (match relation, compare r 0 with
        | .greater, _ => v + if r < 0 then -r else r
        | .less, _ => v
        | .equal, .gt => v + if r < 0 then -r else r
        | .equal, .eq => v + if r < 0 then -r else r
        | .equal, .lt => v)⟩ := rfl
    rw [this, ok_bind, List.foldlM_cons, computeBRowDebug_range rfl rfl]
    rfl

/-- The constraint type of a row. -/
theorem types_range {rows : List Row} {ranges : List (ℕ × ℚ)} (hs : ranges.Pairwise fun p q => p.1 < q.1)
    {i : ℕ} {row : Row} (hi : rows[i]? = some row) (r : ℚ) :
    (computeConstraintTypes 0 rows ranges)[i]? = some (.range r) ↔ (i, r) ∈ ranges ∧ r ≠ 0 := by
  obtain ⟨h1, h2⟩ := computeConstraintTypes_getElem? (k := 0) hs (fun _ _ => Nat.zero_le _) hi
  rw [Nat.zero_add] at h1 h2
  by_cases hr : ∃ q, (i, q) ∈ ranges
  · obtain ⟨q, hq⟩ := hr
    rw [h1 q hq]
    have hu : ∀ r, (i, r) ∈ ranges → r = q := by
      intro r hr
      have hn : (ranges.map (·.1)).Nodup := (List.pairwise_map.2 hs).imp ne_of_lt
      exact (Prod.mk.inj (List.inj_on_of_nodup_map hn hr hq rfl)).2
    split
    · rename_i h0
      constructor
      · intro h; cases h
      · rintro ⟨h3, h4⟩
        exact absurd ((hu r h3).trans h0) h4
    · rename_i h0
      constructor
      · intro h
        cases h
        exact ⟨hq, h0⟩
      · rintro ⟨h3, -⟩
        rw [hu r h3]
  · push Not at hr
    rw [h2 hr]
    constructor
    · intro h
      exact absurd (Option.some.inj h) (toConstraintType_ne_range _ _)
    · rintro ⟨h3, -⟩
      exact absurd h3 (hr r)

theorem computeBDebug_eq {rows : List Row} {ranges : List (ℕ × ℚ)} {l : List (ℕ × ℚ)}
    (hs : ranges.Pairwise fun p q => p.1 < q.1) (hl : ∀ q ∈ l, q.1 < rows.length)
    (ho : ∀ i r, (i, r) ∈ ranges → r ≠ 0 → (l.filter fun q => q.1 = i).length ≤ 1) :
    l.foldlM (updateAt computeBRowDebug)
      ((rows.zip (computeConstraintTypes 0 rows ranges)).map fun p => ⟨p.1.relation, p.2, none⟩) =
    l.foldlM (updateAt computeBRow)
      ((rows.zip (computeConstraintTypes 0 rows ranges)).map fun p => ⟨p.1.relation, p.2, none⟩) := by
  have hb : ∀ s v, OrAborts (computeBRowDebug s v) (computeBRow s v) := fun s v => by
    unfold computeBRowDebug
    exact OrAborts.check _ fun _ => OrAborts.refl _
  rcases OrAborts.foldlM (updateAt_below hb) l
    ((rows.zip (computeConstraintTypes 0 rows ranges)).map fun p => ⟨p.1.relation, p.2, none⟩) with h | h
  · exfalso
    rcases foldlM_updateAt_error h with ⟨-, q, h2, h3⟩ | ⟨i, s, h1, h2⟩
    · rw [List.length_map, List.length_zip, computeConstraintTypes_length, min_self] at h3
      exact absurd (hl q h2) (not_lt.2 h3)
    · rw [List.getElem?_map, Option.map_eq_some_iff] at h1
      obtain ⟨⟨row, t⟩, h3, rfl⟩ := h1
      obtain ⟨h3, h5⟩ := List.getElem?_zip_eq_some.1 h3
      have key : (valuesOf l i).foldlM computeBRow ⟨row.relation, t, none⟩ = .error .panic := by
        rw [← h2]
        by_cases ht : ∃ r, t = .range r
        · obtain ⟨r, rfl⟩ := ht
          obtain ⟨h6, h7⟩ := (types_range hs h3 r).1 h5
          rw [foldDebug_range, if_pos]
          unfold valuesOf
          rw [List.length_map]
          exact ho i r h6 h7
        · push Not at ht
          exact (foldDebug_plain _ ht).symm
      cases (row_error key).1
  · exact h

theorem computeBDebug_once {rows : List Row} {ranges : List (ℕ × ℚ)} {l : List (ℕ × ℚ)}
    (hs : ranges.Pairwise fun p q => p.1 < q.1) {states : List RowState}
    (h : l.foldlM (updateAt computeBRowDebug)
      ((rows.zip (computeConstraintTypes 0 rows ranges)).map fun p => ⟨p.1.relation, p.2, none⟩) = .ok states)
    {i : ℕ} {r : ℚ} (hr : (i, r) ∈ ranges) (h0 : r ≠ 0) (hi : i < rows.length) :
    (l.filter fun q => q.1 = i).length ≤ 1 := by
  obtain ⟨-, -, h3⟩ := foldlM_updateAt_ok h
  have ht := (types_range hs (List.getElem?_eq_getElem hi) r).2 ⟨hr, h0⟩
  obtain ⟨s', -, h5⟩ := h3 i ⟨rows[i].relation, .range r, none⟩ (by
    have : (rows.zip (computeConstraintTypes 0 rows ranges))[i]? = some (rows[i], .range r) :=
      List.getElem?_zip_eq_some.2 ⟨List.getElem?_eq_getElem hi, ht⟩
    rw [List.getElem?_map, this]
    rfl)
  rw [foldDebug_range] at h5
  split at h5
  · rename_i h6
    unfold valuesOf at h6
    rwa [List.length_map] at h6
  · cases h5

/-! ### All of the conversion -/

variable {p : Mps}

theorem Accepted.rhssInRange (ha : p.Accepted) : ∀ q ∈ flatten p.rhss, q.1 < p.rows.length := by
  intro q hq
  obtain ⟨g, hg, hq⟩ := List.mem_flatMap.1 hq
  exact (ha.rhss g hg).2 q hq

theorem Accepted.rangesInRange (ha : p.Accepted) : ∀ q ∈ flatten p.ranges, q.1 < p.rows.length := by
  intro q hq
  obtain ⟨g, hg, hq⟩ := List.mem_flatMap.1 hq
  exact (ha.ranges g hg).2 q hq

theorem constraintInfoDebug_eq (ha : p.Accepted)
    (ho : ∀ i r, (i, r) ∈ flatten p.ranges → r ≠ 0 → ((flatten p.rhss).filter fun q => q.1 = i).length ≤ 1) :
    computeConstraintInfoDebug p.rows p.rhss p.ranges = computeConstraintInfo p.rows p.rhss p.ranges := by
  unfold computeConstraintInfoDebug computeConstraintInfo
  refine bind_congr_ok fun ranges hr => ?_
  obtain ⟨h1, h2, -⟩ := computeRanges_ok hr
  rw [importAssert_bind (decide_eq_true h1.isChain), importAssert_bind (by
    rw [List.all_eq_true]
    exact fun q hq => decide_eq_true (ha.rangesInRange q ((h2 q).1 hq)))]
  simp only
  rw [importAssert_bind (by
      rw [List.all_eq_true]
      exact fun g hg => decide_eq_true ((ha.rhss g hg).1.imp fun h => h.le)),
    importAssert_bind (by
      simp only [List.all_eq_true]
      exact fun g hg q hq => decide_eq_true ((ha.rhss g hg).2 q hq)),
    computeBDebug_eq h1 ha.rhssInRange fun i r hm => ho i r ((h2 _).1 hm)]
  refine bind_congr_ok fun states hs => ?_
  rw [importAssert_bind]
  rw [decide_eq_true_iff, (foldlM_updateAt_ok hs).1, List.length_map, List.length_zip,
    computeConstraintTypes_length, min_self]

theorem constraintInfoDebug_once (ha : p.Accepted) {r} (h : computeConstraintInfoDebug p.rows p.rhss p.ranges = .ok r) :
    ∀ i r, (i, r) ∈ flatten p.ranges → r ≠ 0 → ((flatten p.rhss).filter fun q => q.1 = i).length ≤ 1 := by
  unfold computeConstraintInfoDebug at h
  obtain ⟨ranges, h0, h⟩ := bind_eq_ok h
  obtain ⟨h1, h2, -⟩ := computeRanges_ok h0
  obtain ⟨_, -, h⟩ := bind_eq_ok h
  obtain ⟨_, -, h⟩ := bind_eq_ok h
  simp only at h
  obtain ⟨_, -, h⟩ := bind_eq_ok h
  obtain ⟨_, -, h⟩ := bind_eq_ok h
  obtain ⟨states, h3, -⟩ := bind_eq_ok h
  intro i r hm hr
  exact computeBDebug_once h1 h3 ((h2 _).2 hm) hr (ha.rangesInRange _ hm)

theorem newDebug_eq (ha : p.Accepted) (hn : ∀ c ∈ p.columns, ∀ q ∈ c.values, q.2 ≠ 0) :
    SparseMatrix.newDebug (p.columns.map (·.values)) p.columns.length p.rows.length =
      .ok ⟨p.columns.map (·.values), p.columns.length, p.rows.length⟩ := by
  refine SparseMatrix.newDebug_ok (by simp) (fun v hv => ?_) fun v hv => ?_
  all_goals obtain ⟨c, hc, rfl⟩ := List.mem_map.1 hv
  · exact ⟨(ha.columns c hc).1, hn c hc⟩
  · exact (ha.columns c hc).2

theorem newDebug_nonzero {data : List (SVec ℕ)} {major minor : ℕ} {A}
    (h : SparseMatrix.newDebug data major minor = .ok A) : ∀ v ∈ data, ∀ p ∈ v, p.2 ≠ 0 := by
  unfold SparseMatrix.newDebug at h
  obtain ⟨-, h⟩ := okBind_eq h
  obtain ⟨-, h⟩ := okBind_eq h
  obtain ⟨-, h⟩ := okBind_eq h
  obtain ⟨h, -⟩ := okBind_eq h
  exact of_decide_eq_true (debugAssert_true h)

/-- The conversion in a debug build is that in a release build for programs that pass its checks. -/
theorem toGeneralFormDebug_eq (ha : p.Accepted) (hc : p.Checked) : p.toGeneralFormDebug = p.toGeneralForm := by
  unfold toGeneralFormDebug computeVariableInfoDebug
  rw [constraintInfoDebug_eq ha hc.rhsOnce, importAssert_bind (by
    rw [decide_eq_true_iff, ← List.length_map (f := (·.name)) (as := p.columns), names_card]
    exact hc.names), importAssert_bind (decide_eq_true ha.costs),
    processBoundsDebug_eq _ (fun v hv => ⟨(assignCosts_mem hv).1, (assignCosts_mem hv).2.1⟩), newDebug_eq ha hc.nonzero]
  match h : p.toGeneralForm with
  | .ok G =>
    obtain ⟨hcon, -⟩ := toGeneralForm_consistent_of h
      (fun c hm => ⟨(ha.columns c hm).1, hc.nonzero c hm⟩) (fun c hm => (ha.columns c hm).2)
    obtain ⟨vars, types, b, h1, h2, rfl⟩ := toGeneralForm_eq h
    rw [h1, h2]
    have hf := GeneralForm.new_fresh hcon
    have : GeneralForm.newDebug p.objective ⟨p.columns.map (·.values), p.columns.length, p.rows.length⟩ types b vars
        (p.columns.map fun c => String.ofList c.name) 0 = .ok (GeneralForm.new p.objective
        ⟨p.columns.map (·.values), p.columns.length, p.rows.length⟩ types b vars
        (p.columns.map fun c => String.ofList c.name) 0) := by
      unfold GeneralForm.newDebug
      simp only
      rw [debugAssert_bind]
      · rfl
      · refine GeneralForm.isConsistent_of_sorted hcon ?_
        rw [hf.identity]
        exact List.pairwise_lt_range
    change Import.ofRes (GeneralForm.newDebug p.objective ⟨p.columns.map (·.values), p.columns.length, p.rows.length⟩
      types b vars (p.columns.map fun c => String.ofList c.name) 0) = _
    rw [this]
    rfl
  | .error e =>
    unfold toGeneralForm computeVariableInfo at h
    cases hb : processBounds (assignCosts 0 p.columns p.costValues) p.bounds with
    | error e' =>
      rw [hb] at h
      cases h
      rfl
    | ok vars =>
      rw [hb] at h
      cases hi : computeConstraintInfo p.rows p.rhss p.ranges with
      | error e' =>
        rw [hi] at h
        cases h
        rfl
      | ok q =>
        rw [hi] at h
        cases h

/-- Programs that are converted in a debug build pass its checks. -/
theorem toGeneralFormDebug_checked (ha : p.Accepted) {G : GeneralForm} (h : p.toGeneralFormDebug = .ok G) :
    p.Checked := by
  unfold toGeneralFormDebug at h
  obtain ⟨a, h1, h⟩ := bind_eq_ok h
  obtain ⟨b, h2, -⟩ := bind_eq_ok h
  unfold computeVariableInfoDebug at h1
  obtain ⟨_, h3, h1⟩ := bind_eq_ok h1
  obtain ⟨_, -, h1⟩ := bind_eq_ok h1
  obtain ⟨_, -, h1⟩ := bind_eq_ok h1
  obtain ⟨_, h4, -⟩ := bind_eq_ok h1
  refine ⟨?_, ?_, constraintInfoDebug_once ha h2⟩
  · have := importAssert_ok h3
    rw [decide_eq_true_iff, ← List.length_map (f := (·.name)) (as := p.columns), names_card] at this
    exact this
  · intro c hc
    exact newDebug_nonzero (ofRes_ok.1 h4) _ (List.mem_map.2 ⟨c, hc, rfl⟩)

end Mps

end Relp
