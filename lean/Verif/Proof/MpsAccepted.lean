import Verif.Proof.MpsDescribes
import Verif.Proof.MpsTotal

/-!
# The indices in the result of parsing any text
-/

namespace Relp.Mps

open Spec

variable {CR : Retriever}

theorem bind_eq_ok {α β : Type} {x : Import α} {f : α → Import β} {b : β} (h : (x >>= f) = .ok b) :
    ∃ a, x = .ok a ∧ f a = .ok b := by
  cases x with
  | ok a => exact ⟨a, rfl, h⟩
  | error e => cases h

theorem sorted_ok {n : ℕ} {l m : List (ℕ × ℚ)} (h : sortedUnlessDuplicate l = .ok m) (hl : ∀ q ∈ l, q.1 < n) :
    GoodValues n m := by
  rw [sortedUnlessDuplicate_eq] at h
  split at h
  · rename_i hn
    cases h
    refine ⟨sortByIndex_strict hn, fun q hq => hl q ?_⟩
    exact (List.perm_insertionSort _ _).mem_iff.1 hq
  · cases h

theorem rowIndex_lt {rows : List Row} {name : Text} {i : ℕ} (h : rowIndex rows name = some i) : i < rows.length := by
  unfold rowIndex at h
  simp only at h
  split at h
  · cases h; assumption
  · cases h

theorem columnIndex_lt {columns : List Column} {name : Text} {j : ℕ} (h : columnIndex columns name = some j) :
    j < columns.length := by
  unfold columnIndex at h
  simp only at h
  split at h
  · cases h; omega
  · cases h

/-! ### Columns -/

/-- What holds while columns are read. -/
structure GoodState (n : ℕ) (s : ColumnState) : Prop where
  collector : ∀ c ∈ s.collector, GoodValues n c.values
  columnCollector : ∀ q ∈ s.columnCollector, q.1 < n
  costs : s.costValuesCollector.Pairwise fun a b => a.1 ≤ b.1
  costsInRange : ∀ q ∈ s.costValuesCollector, q.1 ≤ s.collector.length
  active : ∀ q ∈ s.costValuesCollector, q.1 = s.collector.length → s.columnToBeSaved.isSome

theorem saveColumn_good {n : ℕ} {new : Option Text} {s t : ColumnState} (h : GoodState n s)
    (ht : saveToColumnCollector new s = .ok t) :
    GoodState n t ∧ ∀ q ∈ t.costValuesCollector, q.1 < t.collector.length := by
  unfold saveToColumnCollector at ht
  split at ht
  · obtain ⟨values, h1, h2⟩ := bind_eq_ok ht
    cases h2
    have hlt : ∀ q ∈ s.costValuesCollector, q.1 < s.collector.length + 1 :=
      fun q hq => Nat.lt_succ_of_le (h.costsInRange q hq)
    refine ⟨⟨?_, by simp, h.costs, ?_, ?_⟩, ?_⟩
    · intro c hc
      rcases List.mem_append.1 hc with hc | hc
      · exact h.collector c hc
      · rw [List.mem_singleton] at hc
        subst hc
        exact sorted_ok h1 h.columnCollector
    · intro q hq
      have := hlt q hq
      simp only [List.length_append, List.length_singleton]
      omega
    · intro q hq he
      have := hlt q hq
      simp only [List.length_append, List.length_singleton] at he
      omega
    · intro q hq
      have := hlt q hq
      simp only [List.length_append, List.length_singleton]
      omega
  · rename_i hs
    cases ht
    have hlt : ∀ q ∈ s.costValuesCollector, q.1 < s.collector.length := by
      intro q hq
      refine lt_of_le_of_ne (h.costsInRange q hq) fun he => ?_
      have := h.active q hq he
      rw [hs] at this
      cases this
    exact ⟨⟨h.collector, h.columnCollector, h.costs, h.costsInRange, fun q hq he => absurd he (hlt q hq).ne⟩, hlt⟩

theorem saveColumnPair_good {cost : Text} {rows : List Row} {s t : ColumnState} {row value : Text}
    (h : GoodState rows.length s) (ha : s.columnToBeSaved.isSome)
    (ht : saveColumnPair cost rows s row value = .ok t) :
    GoodState rows.length t ∧ t.columnToBeSaved.isSome := by
  unfold saveColumnPair at ht
  obtain ⟨v, -, ht⟩ := bind_eq_ok ht
  split at ht
  · split at ht
    · cases ht
      refine ⟨⟨h.collector, h.columnCollector, ?_, ?_, fun _ _ _ => ha⟩, ha⟩
      · refine List.pairwise_append.2 ⟨h.costs, List.pairwise_singleton _ _, ?_⟩
        intro a hm b hb
        rw [List.mem_singleton] at hb
        subst hb
        exact h.costsInRange a hm
      · intro q hq
        rcases List.mem_append.1 hq with hq | hq
        · exact h.costsInRange q hq
        · rw [List.mem_singleton] at hq
          subst hq
          exact le_refl _
    · cases ht
  · rename_i i hi
    cases ht
    refine ⟨⟨h.collector, ?_, h.costs, h.costsInRange, h.active⟩, ha⟩
    intro q hq
    rcases List.mem_append.1 hq with hq | hq
    · exact h.columnCollector q hq
    · rw [List.mem_singleton] at hq
      subst hq
      exact rowIndex_lt hi

theorem columnData_good {cost : Text} {rows : List Row} {s t : ColumnState} {column row value : Text}
    {rest : CR.RestOfLine} (h : GoodState rows.length s)
    (ht : parseColumnData CR cost rows s column row value rest = .ok t) : GoodState rows.length t := by
  have key : ∀ s t : ColumnState, GoodState rows.length s → s.columnToBeSaved.isSome → (do
      let s ← saveColumnPair cost rows s row value
      match ← CR.fiveAndSix rest with
      | some (rowName, valueText) => saveColumnPair cost rows s rowName valueText
      | none => pure s) = .ok t → GoodState rows.length t := by
    intro s t h ha ht
    obtain ⟨u, h1, h2⟩ := bind_eq_ok ht
    obtain ⟨h3, h4⟩ := saveColumnPair_good h ha h1
    obtain ⟨r, -, h5⟩ := bind_eq_ok h2
    match r, h5 with
    | none, h5 => cases h5; exact h3
    | some (_, _), h5 => exact (saveColumnPair_good h3 h4 h5).1
  unfold parseColumnData at ht
  simp only at ht
  split at ht
  · rename_i active hs
    split at ht
    · obtain ⟨u, h1, h2⟩ := bind_eq_ok ht
      refine key u t (saveColumn_good h h1).1 ?_ h2
      unfold saveToColumnCollector at h1
      rw [hs] at h1
      obtain ⟨values, -, h3⟩ := bind_eq_ok h1
      cases h3
      rfl
    · exact key s t h (by rw [hs]; rfl) ht
  · exact key { s with columnToBeSaved := some column } t
      ⟨h.collector, h.columnCollector, h.costs, h.costsInRange, fun _ _ _ => rfl⟩ rfl ht

theorem columnLine_good {cost : Text} {rows : List Row} {s t : ColumnState} {line : Text}
    (h : GoodState rows.length s) (ht : parseColumnLine CR cost rows s line = .ok t) : GoodState rows.length t := by
  unfold parseColumnLine at ht
  obtain ⟨c, -, ht⟩ := bind_eq_ok ht
  cases c with
  | marker text =>
    obtain ⟨u, h1, h2⟩ := bind_eq_ok ht
    have hu := saveColumn_good h h1
    have : ∀ type, GoodState rows.length { u with activeVariableType := type } := fun type =>
      ⟨hu.1.collector, hu.1.columnCollector, hu.1.costs, hu.1.costsInRange, hu.1.active⟩
    split at h2
    · cases h2; exact this _
    · split at h2
      · cases h2; exact this _
      · cases h2
  | data column row value rest => exact columnData_good h ht

theorem columnSection_good {cost : Text} {rows : List Row} (ls : List Text) : ∀ {s : ColumnState} {r},
    GoodState rows.length s → parseColumnSection CR cost rows ls s = .ok r →
    (∀ c ∈ r.1, GoodValues rows.length c.values) ∧ (r.2.1.Pairwise fun a b => a.1 ≤ b.1) ∧
      ∀ q ∈ r.2.1, q.1 < r.1.length := by
  induction ls with
  | nil => intro s r _ hr; cases hr
  | cons line ls ih =>
    intro s r h hr
    unfold parseColumnSection at hr
    split at hr
    · obtain ⟨t, h1, h2⟩ := bind_eq_ok hr
      exact ih (columnLine_good h h1) h2
    · obtain ⟨next, -, hr⟩ := bind_eq_ok hr
      obtain ⟨t, h1, h2⟩ := bind_eq_ok hr
      cases h2
      obtain ⟨h3, h4⟩ := saveColumn_good h h1
      exact ⟨h3.collector, h3.costs, h4⟩

/-! ### Groups -/

/-- What holds while right-hand sides and ranges are read. -/
structure GoodGroups (n : ℕ) (s : GroupState ℚ) : Prop where
  collector : ∀ g ∈ s.collector, GoodValues n g.values
  groupCollector : ∀ q ∈ s.groupCollector, q.1 < n

theorem saveGroup_good {n : ℕ} {new : Option Text} {s t : GroupState ℚ} (h : GoodGroups n s)
    (ht : saveToGroupCollector false new s = .ok t) : GoodGroups n t := by
  unfold saveToGroupCollector at ht
  split at ht
  · simp only [Bool.false_eq_true, if_false] at ht
    obtain ⟨values, h1, h2⟩ := bind_eq_ok ht
    cases h2
    refine ⟨?_, by simp⟩
    intro g hg
    rcases List.mem_append.1 hg with hg | hg
    · exact h.collector g hg
    · rw [List.mem_singleton] at hg
      subst hg
      exact sorted_ok h1 h.groupCollector
  · cases ht
    exact ⟨h.collector, h.groupCollector⟩

theorem startGroup_good {n : ℕ} {name : Text} {s t : GroupState ℚ} (h : GoodGroups n s)
    (ht : startGroup false name s = .ok t) : GoodGroups n t := by
  unfold startGroup at ht
  split at ht
  · split at ht
    · exact saveGroup_good h ht
    · cases ht; exact h
  · cases ht; exact ⟨h.collector, h.groupCollector⟩

theorem saveGroupPair_good {rows : List Row} {s t : GroupState ℚ} {row value : Text}
    (h : GoodGroups rows.length s) (ht : saveGroupPair rows s row value = .ok t) : GoodGroups rows.length t := by
  unfold saveGroupPair at ht
  split at ht
  · cases ht
  · cases ht
  · cases ht
  · rename_i i v hi _
    cases ht
    refine ⟨h.collector, fun q hq => ?_⟩
    rcases List.mem_append.1 hq with hq | hq
    · exact h.groupCollector q hq
    · rw [List.mem_singleton] at hq
      subst hq
      exact rowIndex_lt hi

theorem valueLine_good {rows : List Row} {s t : GroupState ℚ} {line : Text}
    (h : GoodGroups rows.length s) (ht : parseValueLine CR rows s line = .ok t) : GoodGroups rows.length t := by
  unfold parseValueLine at ht
  obtain ⟨⟨⟨_, _, _⟩, rest⟩, -, ht⟩ := bind_eq_ok ht
  obtain ⟨u, h1, ht⟩ := bind_eq_ok ht
  obtain ⟨v, h2, ht⟩ := bind_eq_ok ht
  have hv := saveGroupPair_good (startGroup_good h h1) h2
  obtain ⟨r, -, h5⟩ := bind_eq_ok ht
  match r, h5 with
  | none, h5 => cases h5; exact hv
  | some (_, _), h5 => exact saveGroupPair_good hv h5

theorem optionalSection_good {valid : List Section} {rows : List Row} (ls : List Text) : ∀ {s : GroupState ℚ} {r},
    GoodGroups rows.length s → parseOptionalSection CR valid rows ls s = .ok r →
    ∀ g ∈ r.1, GoodValues rows.length g.values := by
  induction ls with
  | nil => intro s r _ hr; cases hr
  | cons line ls ih =>
    intro s r h hr
    unfold parseOptionalSection at hr
    split at hr
    · obtain ⟨t, h1, h2⟩ := bind_eq_ok hr
      exact ih (valueLine_good h h1) h2
    · obtain ⟨next, -, hr⟩ := bind_eq_ok hr
      obtain ⟨t, h1, h2⟩ := bind_eq_ok hr
      cases h2
      exact (saveGroup_good h h1).collector

/-- What holds while bounds are read. -/
structure GoodBounds (n : ℕ) (s : GroupState BoundType) : Prop where
  collector : ∀ g ∈ s.collector, ∀ q ∈ g.values, GoodBound n q
  groupCollector : ∀ q ∈ s.groupCollector, GoodBound n q

theorem saveBounds_good {n : ℕ} {new : Option Text} {s t : GroupState BoundType} (h : GoodBounds n s)
    (ht : saveToGroupCollector true new s = .ok t) : GoodBounds n t := by
  unfold saveToGroupCollector at ht
  split at ht
  · cases ht
    refine ⟨?_, by simp⟩
    intro g hg
    rcases List.mem_append.1 hg with hg | hg
    · exact h.collector g hg
    · rw [List.mem_singleton] at hg
      subst hg
      exact fun q hq => h.groupCollector q ((List.perm_insertionSort _ _).mem_iff.1 hq)
  · cases ht
    exact ⟨h.collector, h.groupCollector⟩

theorem startBounds_good {n : ℕ} {name : Text} {s t : GroupState BoundType} (h : GoodBounds n s)
    (ht : startGroup true name s = .ok t) : GoodBounds n t := by
  unfold startGroup at ht
  split at ht
  · split at ht
    · exact saveBounds_good h ht
    · cases ht; exact h
  · cases ht; exact ⟨h.collector, h.groupCollector⟩

theorem boundType_good {text : Text} {rest : CR.RestOfLine} {t : BoundType}
    (ht : parseBoundType CR text rest = .ok t) : ∀ a b, t ≠ .semiContinuous a b := by
  have hv : ∀ f : ℚ → BoundType, (∀ x a b, f x ≠ .semiContinuous a b) → (do
      let valueText ← CR.four rest
      let value ← Number.parse valueText
      pure (f value) : Import BoundType) = .ok t → ∀ a b, t ≠ .semiContinuous a b := by
    intro f hf ht a b
    obtain ⟨w, -, ht⟩ := bind_eq_ok ht
    obtain ⟨v, -, ht⟩ := bind_eq_ok ht
    cases ht
    exact hf v a b
  unfold parseBoundType at ht
  simp only at ht
  repeat' split at ht
  all_goals first
    | (cases ht; simp)
    | exact hv _ (by simp) ht
    | cases ht

theorem boundLine_good {columns : List Column} {s t : GroupState BoundType} {line : Text}
    (h : GoodBounds columns.length s) (ht : parseBoundLine CR columns s line = .ok t) :
    GoodBounds columns.length t := by
  unfold parseBoundLine at ht
  obtain ⟨⟨⟨_, _, _⟩, rest⟩, -, ht⟩ := bind_eq_ok ht
  simp only at ht
  split at ht
  · cases ht
  · rename_i j hj
    obtain ⟨u, h1, ht⟩ := bind_eq_ok ht
    obtain ⟨type, h2, ht⟩ := bind_eq_ok ht
    have hu := startBounds_good h h1
    cases ht
    refine ⟨hu.collector, fun q hq => ?_⟩
    rcases List.mem_append.1 hq with hq | hq
    · exact hu.groupCollector q hq
    · rw [List.mem_singleton] at hq
      subst hq
      exact ⟨columnIndex_lt hj, boundType_good h2⟩

theorem boundsSection_good {columns : List Column} (ls : List Text) : ∀ {s : GroupState BoundType} {r},
    GoodBounds columns.length s → parseBoundsSection CR columns ls s = .ok r →
    ∀ g ∈ r.1, ∀ q ∈ g.values, GoodBound columns.length q := by
  induction ls with
  | nil => intro s r _ hr; cases hr
  | cons line ls ih =>
    intro s r h hr
    unfold parseBoundsSection at hr
    split at hr
    · obtain ⟨t, h1, h2⟩ := bind_eq_ok hr
      exact ih (boundLine_good h h1) h2
    · obtain ⟨next, -, hr⟩ := bind_eq_ok hr
      obtain ⟨t, h1, h2⟩ := bind_eq_ok hr
      cases h2
      exact (saveBounds_good h h1).collector

/-! ### Programs -/

theorem parseLines_accepted {ls : List Text} {p : Mps} (h : parseLines CR ls = .ok p) : Accepted p := by
  unfold parseLines at h
  obtain ⟨⟨name, l1⟩, -, h⟩ := bind_eq_ok h
  obtain ⟨⟨objective, l2⟩, -, h⟩ := bind_eq_ok h
  obtain ⟨⟨cost, rows, l3⟩, -, h⟩ := bind_eq_ok h
  obtain ⟨⟨cost', rows'⟩, h4, h⟩ := bind_eq_ok h
  obtain ⟨⟨columns, costs, next, l5⟩, h5, h⟩ := bind_eq_ok h
  obtain ⟨⟨rhss, ranges, bounds, l6⟩, h6, h⟩ := bind_eq_ok h
  simp only at h h4 h5 h6
  split at h
  swap
  · cases h
  cases h
  have hrows : (cost' :: rows'.map (·.name)).Nodup := by
    cases cost with
    | none => cases h4
    | some c =>
      rw [checkRows_eq] at h4
      split at h4
      · rename_i hn
        cases h4
        have hp : (rows.insertionSort fun a b => textLe a.name b.name).Perm rows := List.perm_insertionSort _ _
        exact ((hp.map (·.name)).cons _).nodup_iff.2 hn
      · cases h4
  obtain ⟨c1, c2, c3⟩ := columnSection_good l3 (s := ⟨[], [], [], none, .continuous⟩)
    ⟨by simp, by simp, List.Pairwise.nil, by simp, by simp⟩ h5
  rw [parseOptionalSections_eq] at h6
  obtain ⟨x, x1, h6⟩ := bind_eq_ok h6
  obtain ⟨y, y1, h6⟩ := bind_eq_ok h6
  obtain ⟨u, u1, h6⟩ := bind_eq_ok h6
  obtain ⟨z, z1, h6⟩ := bind_eq_ok h6
  cases h6
  refine ⟨hrows, c1, c2, c3, ?_, ?_, ?_, ?_⟩
  · split at x1
    · exact optionalSection_good l5 (s := ⟨[], [], none⟩) ⟨by simp, by simp⟩ x1
    · cases x1
      simp
  · split at y1
    · exact optionalSection_good x.2.2 (s := ⟨[], [], none⟩) ⟨by simp, by simp⟩ y1
    · cases y1
      simp
  · unfold checkRangesConsistency at u1
    split at u1
    · assumption
    · cases u1
  · split at z1
    · exact boundsSection_good y.2.2 (s := ⟨[], [], none⟩) ⟨by simp, by simp⟩ z1
    · cases z1
      simp

end Relp.Mps
