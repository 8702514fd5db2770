import Verif.Proof.ScaleSearch

/-!
# The search for a scaling ends where no row and no column can be improved
-/

namespace Relp

namespace Scaling

/-! ### The least value of a convex penalty -/

theorem Measures.least {counts : ℤ → ℤ × ℤ} {penalty : ℤ → ℤ} (h : Measures counts penalty) {x : ℤ}
    (h1 : penalty x ≤ penalty (x + 1)) (h2 : penalty x ≤ penalty (x - 1)) (y : ℤ) : penalty x ≤ penalty y := by
  have up : ∀ k : ℕ, penalty x ≤ penalty (x + k) ∧ penalty (x + k) ≤ penalty (x + k + 1) := by
    intro k
    induction k with
    | zero => simpa using h1
    | succ k ih =>
      have := h.convex (x + k + 1)
      rw [show x + k + 1 - 1 = x + k by ring] at this
      push_cast
      rw [← add_assoc]
      omega
  have down : ∀ k : ℕ, penalty x ≤ penalty (x - k) ∧ penalty (x - k) ≤ penalty (x - k - 1) := by
    intro k
    induction k with
    | zero => simpa using h2
    | succ k ih =>
      have := h.convex (x - k - 1)
      rw [show x - k - 1 + 1 = x - k by ring] at this
      push_cast
      rw [← sub_sub]
      omega
  rcases le_total x y with hy | hy
  · have := (up (y - x).toNat).1
    rwa [show x + ((y - x).toNat : ℤ) = y by omega] at this
  · have := (down (x - y).toNat).1
    rwa [show x - ((x - y).toNat : ℤ) = y by omega] at this

theorem Measures.adjusted {counts : ℤ → ℤ × ℤ} {penalty : ℤ → ℤ} (h : Measures counts penalty) {fuel : ℕ} {x : ℤ}
    {r : ℤ × Bool} (hr : Scaling.adjust counts fuel x = .ok r) :
    (∀ y, penalty r.1 ≤ penalty y) ∧ (r.2 = false → r.1 = x) := by
  induction fuel generalizing x r with
  | zero => cases hr
  | succ fuel ih =>
    rw [Scaling.adjust, h.eq] at hr
    dsimp only at hr
    generalize (if penalty (x - 1) - penalty x < 0 then (if penalty (x + 1) - penalty x < 0 then x + 1 else x) - 1
        else if penalty (x + 1) - penalty x < 0 then x + 1 else x) = c at hr
    by_cases h1 : penalty (x + 1) - penalty x < 0 ∧ penalty (x - 1) - penalty x < 0
    · rw [if_pos h1] at hr
      cases hr
    · rw [if_neg h1] at hr
      by_cases h2 : penalty (x + 1) - penalty x < 0 ∨ penalty (x - 1) - penalty x < 0
      · rw [if_pos h2] at hr
        cases hq : Scaling.adjust counts fuel c with
        | error e => rw [hq] at hr; cases hr
        | ok q =>
          rw [hq] at hr
          cases hr
          exact ⟨(ih hq).1, fun e => (nomatch e)⟩
      · rw [if_neg h2] at hr
        cases hr
        exact ⟨h.least (by show penalty x ≤ penalty (x + 1); omega) (by show penalty x ≤ penalty (x - 1); omega),
          fun _ => rfl⟩

/-! ### What a change affects -/

theorem mem_rowEntries {d : Factorized} {i : ℕ} {p : ℕ × Factorization} (hp : p ∈ rowEntries d i) :
    (i, p.2) ∈ d.constraints.getD p.1 [] := by
  unfold rowEntries at hp
  obtain ⟨q, hq, hp⟩ := List.mem_flatMap.1 hp
  obtain ⟨p', hp', rfl⟩ := List.mem_map.1 hp
  obtain ⟨h1, h2⟩ := List.mem_filter.1 hp'
  rw [decide_eq_true_eq] at h2
  rw [List.mem_zipIdx_iff_getElem?] at hq
  simp only [List.getD_eq_getElem?_getD, hq, Option.getD_some]
  rw [← h2]
  exact h1

theorem rowEntries_mem {d : Factorized} {i j : ℕ} {f : Factorization} (h : (i, f) ∈ d.constraints.getD j []) :
    (j, f) ∈ rowEntries d i := by
  unfold rowEntries
  rw [List.getD_eq_getElem?_getD] at h
  cases hc : d.constraints[j]? with
  | none => rw [hc] at h; cases h
  | some column =>
    rw [hc] at h
    exact List.mem_flatMap.2 ⟨(column, j), List.mem_zipIdx_iff_getElem?.2 hc,
      List.mem_map.2 ⟨(i, f), List.mem_filter.2 ⟨h, by simp⟩, rfl⟩⟩

theorem rowPenalty_congr {d : Factorized} {factor i : ℕ} {columns columns' : List ℤ}
    (h : ∀ p ∈ rowEntries d i, columns.getD p.1 0 = columns'.getD p.1 0) (x : ℤ) :
    rowPenalty d factor columns i x = rowPenalty d factor columns' i x := by
  unfold rowPenalty
  congr 2
  exact List.map_congr_left fun p hp => by rw [h p hp]

theorem columnPenalty_congr {d : Factorized} {factor j : ℕ} {cost cost' : ℤ} {rows rows' : List ℤ}
    (h1 : (entry d.c j).isSome → cost = cost')
    (h2 : ∀ p ∈ d.constraints.getD j [], rows.getD p.1 0 = rows'.getD p.1 0) (x : ℤ) :
    columnPenalty d factor cost rows j x = columnPenalty d factor cost' rows' j x := by
  unfold columnPenalty
  have e1 : optPenalty factor (entry d.c j) (cost + x) = optPenalty factor (entry d.c j) (cost' + x) := by
    cases h : entry d.c j with
    | none => rfl
    | some f => rw [h1 (by rw [h]; rfl)]
  have e2 : entriesPenalty factor rows (d.constraints.getD j []) x =
      entriesPenalty factor rows' (d.constraints.getD j []) x := by
    unfold entriesPenalty
    congr 1
    exact List.map_congr_left fun p hp => by rw [h2 p hp]
  rw [e1, e2]

theorem push_keeps {α : Type} [DecidableEq α] {queue : List α} {x y : α} (h : y ∈ queue) : y ∈ push queue x := by
  unfold push
  split_ifs
  · exact h
  · simp [h]

theorem push_adds {α : Type} [DecidableEq α] (queue : List α) (x : α) : x ∈ push queue x := by
  unfold push
  split_ifs with h
  · exact h
  · simp

theorem foldl_keeps {α β : Type} (l : List α) (step : List β → α → List β)
    (h : ∀ a queue y, y ∈ queue → y ∈ step queue a) {queue : List β} {y : β} (hy : y ∈ queue) :
    y ∈ l.foldl step queue := by
  induction l generalizing queue with
  | nil => exact hy
  | cons a l ih => exact ih (h a queue y hy)

theorem foldl_adds {α β : Type} {l : List α} {step : List β → α → List β} {a : α} {y : β} (ha : a ∈ l)
    (h : ∀ a queue y, y ∈ queue → y ∈ step queue a) (h1 : ∀ queue, y ∈ step queue a) (queue : List β) :
    y ∈ l.foldl step queue := by
  induction l generalizing queue with
  | nil => cases ha
  | cons b l ih =>
    rcases List.mem_cons.1 ha with rfl | ha
    · exact foldl_keeps l step h (h1 queue)
    · exact ih ha _

/-! ### The search -/

/-- Each row and each column is queued or cannot be improved by itself. -/
structure Settled (d : Factorized) (factor : ℕ) (s : SearchState) : Prop where
  rowLength : s.changes.rows.length = d.b.length
  columnLength : s.changes.columns.length = d.c.length
  rows : ∀ i < d.b.length, .constraintRow i ∈ s.rowQueue ∨
    ∀ x, rowPenalty d factor s.changes.columns i (s.changes.rows.getD i 0) ≤
      rowPenalty d factor s.changes.columns i x
  columns : ∀ j < d.c.length, j ∈ s.columnQueue ∨
    ∀ x, columnPenalty d factor s.changes.cost s.changes.rows j (s.changes.columns.getD j 0) ≤
      columnPenalty d factor s.changes.cost s.changes.rows j x

theorem Settled.updateColumn {d : Factorized} {factor fuel j : ℕ} {s t : SearchState} {queue : List ℕ}
    (hs : Settled d factor s) (hq : s.columnQueue = j :: queue)
    (h : Scaling.updateColumn d factor fuel { s with columnQueue := queue } j = .ok t) : Settled d factor t := by
  unfold Scaling.updateColumn at h
  dsimp only at h
  cases hr : adjust (columnCounts d factor s.changes j) fuel (s.changes.columns.getD j 0) with
  | error e => rw [hr] at h; cases h
  | ok r =>
    rw [hr] at h
    simp only [bind, Except.bind, pure, Except.pure] at h
    cases h
    obtain ⟨h1, h2⟩ := (columnMeasures d factor s.changes j).adjusted hr
    refine ⟨hs.rowLength, by simpa using hs.columnLength, fun i hi => ?_, fun k hk => ?_⟩
    · dsimp only
      cases hb : r.2 with
      | false =>
        rw [h2 hb, set_getD_self]
        exact hs.rows i hi
      | true =>
        simp only [if_true]
        by_cases hm : ∃ p ∈ d.constraints.getD j [], p.1 = i
        · obtain ⟨p, hp, rfl⟩ := hm
          exact .inl (foldl_adds (step := fun queue p => push queue (RowToIncrement.constraintRow p.1)) hp
            (fun _ _ _ h => push_keeps h) (fun _ => push_adds _ _) _)
        · rcases hs.rows i hi with h | h
          · exact .inl (foldl_keeps _ _ (fun _ _ _ h => push_keeps h) h)
          · have hsame : ∀ x, rowPenalty d factor (s.changes.columns.set j r.1) i x =
                rowPenalty d factor s.changes.columns i x := by
              refine rowPenalty_congr fun p hp => ?_
              have hne : j ≠ p.1 := by
                rintro rfl
                exact hm ⟨_, mem_rowEntries hp, rfl⟩
              simp only [List.getD_eq_getElem?_getD, List.getElem?_set_ne hne]
            right
            intro x
            rw [hsame, hsame]
            exact h x
    · dsimp only
      by_cases hkj : k = j
      · subst hkj
        right
        intro x
        rw [getD_set _ _ _ _ _ (by rw [hs.columnLength]; exact hk), if_pos rfl]
        exact h1 x
      · rcases hs.columns k hk with h | h
        · rw [hq, List.mem_cons] at h
          exact .inl (h.resolve_left hkj)
        · right
          intro x
          have : (s.changes.columns.set j r.1).getD k 0 = s.changes.columns.getD k 0 := by
            simp only [List.getD_eq_getElem?_getD, List.getElem?_set_ne (Ne.symm hkj)]
          rw [this]
          exact h x

theorem Settled.doConstraint {d : Factorized} {factor fuel i : ℕ} {s t : SearchState} {queue : List RowToIncrement}
    (hs : Settled d factor s) (hq : s.rowQueue = .constraintRow i :: queue)
    (h : Scaling.doConstraint d factor fuel { s with rowQueue := queue } i = .ok t) : Settled d factor t := by
  unfold Scaling.doConstraint at h
  dsimp only at h
  cases hr : adjust (rowCounts d factor s.changes i) fuel (s.changes.rows.getD i 0) with
  | error e => rw [hr] at h; cases h
  | ok r =>
    rw [hr] at h
    simp only [bind, Except.bind, pure, Except.pure] at h
    cases h
    obtain ⟨h1, h2⟩ := (rowMeasures d factor s.changes i).adjusted hr
    refine ⟨by simpa using hs.rowLength, hs.columnLength, fun k hk => ?_, fun j hj => ?_⟩
    · dsimp only
      by_cases hki : k = i
      · subst hki
        right
        intro x
        rw [getD_set _ _ _ _ _ (by rw [hs.rowLength]; exact hk), if_pos rfl]
        exact h1 x
      · rcases hs.rows k hk with h | h
        · rw [hq, List.mem_cons] at h
          exact .inl (h.resolve_left fun e => hki (by cases e; rfl))
        · right
          intro x
          have : (s.changes.rows.set i r.1).getD k 0 = s.changes.rows.getD k 0 := by
            simp only [List.getD_eq_getElem?_getD, List.getElem?_set_ne (Ne.symm hki)]
          rw [this]
          exact h x
    · dsimp only
      cases hb : r.2 with
      | false =>
        rw [h2 hb, set_getD_self]
        exact hs.columns j hj
      | true =>
        simp only [if_true]
        by_cases hm : ∃ p ∈ rowEntries d i, p.1 = j
        · obtain ⟨p, hp, rfl⟩ := hm
          exact .inl (foldl_adds (step := fun queue p => push queue p.1) hp
            (fun _ _ _ h => push_keeps h) (fun _ => push_adds _ _) _)
        · rcases hs.columns j hj with h | h
          · exact .inl (foldl_keeps _ _ (fun _ _ _ h => push_keeps h) h)
          · have hsame : ∀ x, columnPenalty d factor s.changes.cost (s.changes.rows.set i r.1) j x =
                columnPenalty d factor s.changes.cost s.changes.rows j x := by
              refine columnPenalty_congr (fun _ => rfl) fun p hp => ?_
              have hne : i ≠ p.1 := by
                rintro rfl
                exact hm ⟨_, rowEntries_mem hp, rfl⟩
              simp only [List.getD_eq_getElem?_getD, List.getElem?_set_ne hne]
            right
            intro x
            rw [hsame, hsame]
            exact h x

theorem Settled.doCost {d : Factorized} {factor fuel : ℕ} {s t : SearchState} {queue : List RowToIncrement}
    (hs : Settled d factor s) (hq : s.rowQueue = .costRow :: queue)
    (h : Scaling.doCost d factor fuel { s with rowQueue := queue } = .ok t) : Settled d factor t := by
  unfold Scaling.doCost at h
  dsimp only at h
  cases hr : adjust (costCounts d factor s.changes) fuel s.changes.cost with
  | error e => rw [hr] at h; cases h
  | ok r =>
    rw [hr] at h
    simp only [bind, Except.bind, pure, Except.pure] at h
    cases h
    obtain ⟨-, h2⟩ := (costMeasures d factor s.changes).adjusted hr
    refine ⟨hs.rowLength, hs.columnLength, fun i hi => ?_, fun j hj => ?_⟩
    · dsimp only
      rcases hs.rows i hi with h | h
      · rw [hq, List.mem_cons] at h
        exact .inl (h.resolve_left fun e => nomatch e)
      · exact .inr h
    · dsimp only
      cases hb : r.2 with
      | false =>
        rw [h2 hb]
        exact hs.columns j hj
      | true =>
        simp only [if_true]
        have hk : ∀ (a : Option Factorization × ℕ) (queue : List ℕ) (y : ℕ), y ∈ queue →
            y ∈ if a.1.isSome then push queue a.2 else queue := by
          intro a queue y hy
          split_ifs
          · exact push_keeps hy
          · exact hy
        by_cases hm : (entry d.c j).isSome
        · left
          obtain ⟨f, hf⟩ := Option.isSome_iff_exists.1 hm
          have hmem : (some f, j) ∈ d.c.zipIdx := by
            rw [List.mem_zipIdx_iff_getElem?]
            unfold entry at hf
            rw [Option.join_eq_some_iff] at hf
            exact hf
          exact foldl_adds hmem hk (fun _ => by simp only [Option.isSome_some, if_true]; exact push_adds _ _) _
        · rcases hs.columns j hj with h | h
          · exact .inl (foldl_keeps _ _ hk h)
          · have hsame : ∀ x, columnPenalty d factor r.1 s.changes.rows j x =
                columnPenalty d factor s.changes.cost s.changes.rows j x :=
              columnPenalty_congr (fun e => absurd e hm) fun _ _ => rfl
            right
            intro x
            rw [hsame, hsame]
            exact h x

/-- No single row and no single column can be improved. -/
structure Stationary (penalty : Changes → ℤ) (m n : ℕ) (ch : Changes) : Prop where
  rows : ∀ i < m, ∀ x, penalty ch ≤ penalty { ch with rows := ch.rows.set i x }
  columns : ∀ j < n, ∀ x, penalty ch ≤ penalty { ch with columns := ch.columns.set j x }

theorem searchLoop_stationary {d : Factorized} (hd : d.Shaped) {factor fuel : ℕ} {s : SearchState} {ch : Changes}
    (hs : Settled d factor s) (h : searchLoop d factor fuel s = .ok ch) :
    Stationary (totalPenalty d factor) d.b.length d.c.length ch := by
  induction fuel generalizing s with
  | zero => cases h
  | succ fuel ih =>
    rw [searchLoop] at h
    split_ifs at h with h1 h2
    · cases h
      rw [List.isEmpty_iff, List.isEmpty_iff] at h1
      constructor
      · intro i hi x
        have h3 := (hs.rows i hi).resolve_left (by rw [h1.1]; simp) x
        have h4 := total_row d factor s.changes i x hd.columns (by rw [hs.rowLength]; exact hi) hi
        omega
      · intro j hj x
        have h3 := (hs.columns j hj).resolve_left (by rw [h1.2]; simp) x
        have h4 := total_column d factor s.changes j x (by rw [hs.columnLength]; exact hj) hj
        omega
    · cases hc : s.columnQueue with
      | nil => rw [hc] at h; cases h
      | cons j queue =>
        rw [hc] at h
        dsimp only at h
        cases ht : Scaling.updateColumn d factor fuel { s with columnQueue := queue } j with
        | error e => rw [ht] at h; cases h
        | ok t =>
          rw [ht] at h
          exact ih (hs.updateColumn hc ht) h
    · cases hc : s.rowQueue with
      | nil => rw [hc] at h; cases h
      | cons r queue =>
        rw [hc] at h
        cases r with
        | constraintRow i =>
          dsimp only at h
          cases ht : Scaling.doConstraint d factor fuel { s with rowQueue := queue } i with
          | error e => rw [ht] at h; cases h
          | ok t =>
            rw [ht] at h
            exact ih (hs.doConstraint hc ht) h
        | costRow =>
          dsimp only at h
          cases ht : Scaling.doCost d factor fuel { s with rowQueue := queue } with
          | error e => rw [ht] at h; cases h
          | ok t =>
            rw [ht] at h
            exact ih (hs.doCost hc ht) h

theorem solveSingle_stationary {d : Factorized} (hd : d.Shaped) {factor fuel : ℕ} {ch : Changes}
    (h : solveSingle fuel d factor = .ok ch) : Stationary (totalPenalty d factor) d.b.length d.c.length ch :=
  searchLoop_stationary hd ⟨by simp, by simp, fun i hi => .inl (by simp [hi]), fun j hj => .inl (by simp [hj])⟩ h

end Scaling

end Relp
