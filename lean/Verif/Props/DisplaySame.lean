import Verif.Props.DisplayProblem

/-!
# C81: problems with the same text

`text` is how the number type writes numbers.
-/

namespace Relp.Display

/-- A way to write numbers: different numbers have different texts, without blanks, and zero is written as `0`. -/
structure Writes (text : ℚ → Line) : Prop where
  injective : Function.Injective text
  noBlank : ∀ q, ' ' ∉ text q
  zero : text 0 = ['0']

theorem center_inj {w : ℕ} {t t' : Line} (ht : ' ' ∉ t) (ht' : ' ' ∉ t') (h : center w t = center w t') : t = t' := by
  have key (t : Line) (ht : ' ' ∉ t) (a b : ℕ) :
      (List.replicate a ' ' ++ t ++ List.replicate b ' ').filter (fun c => c != ' ') = t := by
    have hself : t.filter (fun c => c != ' ') = t := List.filter_eq_self.2 fun c hc => by
      simp only [bne_iff_ne]; rintro rfl; exact ht hc
    rw [List.filter_append, List.filter_append, hself]
    simp
  have h1 := congrArg (List.filter fun c => c != ' ') h
  unfold center at h1
  rwa [key t ht, key t' ht'] at h1

theorem center_ne_nil {t : Line} (ht : t.length ≤ 7) : center 8 t ≠ [] := by
  intro h
  have := length_center (width := 8) (text := t) (by omega)
  rw [h] at this
  simp at this

theorem head_center {t : Line} {c : Char} (hc : c ≠ ' ') (ht : c ∉ t) (w : ℕ) : (center w t).head? ≠ some c := by
  intro h
  have hm : c ∈ center w t := List.mem_of_mem_head? (by rw [h]; rfl)
  unfold center at hm
  simp only [List.mem_append, List.mem_replicate] at hm
  rcases hm with (⟨-, h⟩ | h) | ⟨-, h⟩
  · exact hc h
  · exact ht h
  · exact hc h

/-- From a line with the numbers of the columns, the number of columns and the places of the marks can be read. -/
theorem header_unique {mark mark' : ℕ → Line} (hm : ∀ j, mark j = [] ∨ mark j = ['|'])
    (hm' : ∀ j, mark' j = [] ∨ mark' j = ['|']) : ∀ (n n' a : ℕ), a + n ≤ 10000000 → a + n' ≤ 10000000 →
    ((List.range' a n).flatMap fun j => mark j ++ center 8 (digits j)) =
      ((List.range' a n').flatMap fun j => mark' j ++ center 8 (digits j)) →
    n = n' ∧ ∀ j, a ≤ j → j < a + n → mark j = mark' j
  | 0, 0, _, _, _, _ => ⟨rfl, fun j h1 h2 => by omega⟩
  | 0, n' + 1, a, _, hb, h => by
    exfalso
    have hd : (digits a).length ≤ 7 := (digits_length (by omega)).2 (by omega)
    rw [List.range'_succ] at h
    simp only [List.range'_zero, List.flatMap_nil, List.flatMap_cons] at h
    have h1 := (List.append_eq_nil_iff.1 h.symm).1
    exact center_ne_nil hd (List.append_eq_nil_iff.1 h1).2
  | n + 1, 0, a, hb, _, h => by
    exfalso
    have hd : (digits a).length ≤ 7 := (digits_length (by omega)).2 (by omega)
    rw [List.range'_succ] at h
    simp only [List.range'_zero, List.flatMap_nil, List.flatMap_cons] at h
    have h1 := (List.append_eq_nil_iff.1 h).1
    exact center_ne_nil hd (List.append_eq_nil_iff.1 h1).2
  | n + 1, n' + 1, a, hb, hb', h => by
    have hd : (digits a).length ≤ 7 := (digits_length (by omega)).2 (by omega)
    have hhead : (center 8 (digits a)).head? ≠ some '|' := head_center (by decide) (not_mem_digits rfl a) 8
    have hne := center_ne_nil hd
    rw [List.range'_succ, List.range'_succ, List.flatMap_cons, List.flatMap_cons] at h
    obtain ⟨c, cs, hc⟩ := List.exists_cons_of_ne_nil hne
    have hcp : c ≠ '|' := by
      rintro rfl
      rw [hc] at hhead
      exact hhead rfl
    have hmark : mark a = mark' a := by
      rcases hm a with h1 | h1 <;> rcases hm' a with h2 | h2 <;> rw [h1, h2]
      · rw [h1, h2, hc] at h
        simp only [List.nil_append, List.cons_append, List.cons.injEq] at h
        exact absurd h.1 hcp
      · rw [h1, h2, hc] at h
        simp only [List.nil_append, List.cons_append, List.cons.injEq] at h
        exact absurd h.1.symm hcp
    rw [hmark, List.append_cancel_left_eq] at h
    obtain ⟨h1, h2⟩ := header_unique hm hm' n n' (a + 1) (by omega) (by omega) h
    refine ⟨by omega, fun j hj hj' => ?_⟩
    rcases Nat.eq_or_lt_of_le hj with rfl | hlt
    · exact hmark
    · exact h2 j (by omega) (by omega)

/-- From a line with entries, the entries can be read. -/
theorem cells_unique {mark mark' f f' : ℕ → Line} : ∀ (n a : ℕ), (∀ j, a ≤ j → j < a + n → mark j = mark' j) →
    (∀ j, a ≤ j → j < a + n → (f j).length ≤ 7 ∧ ' ' ∉ f j) → (∀ j, a ≤ j → j < a + n → (f' j).length ≤ 7 ∧ ' ' ∉ f' j) →
    ((List.range' a n).flatMap fun j => mark j ++ center 8 (f j)) =
      ((List.range' a n).flatMap fun j => mark' j ++ center 8 (f' j)) →
    ∀ j, a ≤ j → j < a + n → f j = f' j
  | 0, a, _, _, _, _ => fun j h1 h2 => by omega
  | n + 1, a, hm, hf, hf', h => by
    have h1 := hf a le_rfl (by omega)
    have h2 := hf' a le_rfl (by omega)
    rw [List.range'_succ, List.flatMap_cons, List.flatMap_cons, hm a le_rfl (by omega), List.append_assoc,
      List.append_assoc, List.append_cancel_left_eq] at h
    obtain ⟨e1, e2⟩ := List.append_inj h (by rw [length_center (by omega), length_center (by omega)])
    have ih := cells_unique n (a + 1) (fun j hj hj' => hm j (by omega) (by omega))
      (fun j hj hj' => hf j (by omega) (by omega)) (fun j hj hj' => hf' j (by omega) (by omega)) e2
    intro j hj hj'
    rcases Nat.eq_or_lt_of_le hj with rfl | hlt
    · exact center_inj h1.2 h2.2 e1
    · exact ih j (by omega) (by omega)

theorem columnMark_cases (M : MatrixData) (j : ℕ) : columnMark M j = [] ∨ columnMark M j = ['|'] := by
  unfold columnMark
  split_ifs
  exacts [.inr rfl, .inl rfl]

theorem rowCounter_head (i : ℕ) : ∃ c cs, rowCounter i = c :: cs ∧ c ≠ '-' := by
  have hmem : ∀ c ∈ rowCounter i, c ≠ '-' := by
    intro c hc
    unfold rowCounter alignRight at hc
    simp only [List.mem_append, List.mem_replicate, List.mem_cons, List.not_mem_nil, or_false] at hc
    rcases hc with ⟨-, rfl⟩ | h | rfl | rfl
    · decide
    · rintro rfl
      exact not_mem_digits rfl i h
    · decide
    · decide
  have hne : rowCounter i ≠ [] := by
    unfold rowCounter alignRight
    simp
  obtain ⟨c, cs, h⟩ := List.exists_cons_of_ne_nil hne
  exact ⟨c, cs, h, hmem c (by rw [h]; simp)⟩

theorem rowSeparator_cases (M : MatrixData) (i : ℕ) :
    rowSeparator M i = [] ∨ rowSeparator M i = List.replicate (separatorWidth M) '-' := by
  unfold rowSeparator
  split_ifs
  exacts [.inr rfl, .inl rfl]

/-- Separators before a row do not hide where it starts. -/
theorem separator_unique {w : ℕ} {a b r r' : Line} {i : ℕ} (ha : a = [] ∨ a = List.replicate w '-')
    (hb : b = [] ∨ b = List.replicate w '-') (h : a ++ rowCounter i ++ r = b ++ rowCounter i ++ r') : r = r' := by
  obtain ⟨c, cs, hc, hne⟩ := rowCounter_head i
  have hab : a = b := by
    rcases ha with rfl | rfl <;> rcases hb with rfl | rfl
    · rfl
    · cases w with
      | zero => rfl
      | succ w =>
        rw [hc, List.replicate_succ] at h
        simp only [List.nil_append, List.cons_append, List.cons.injEq] at h
        exact absurd h.1 hne
    · cases w with
      | zero => rfl
      | succ w =>
        rw [hc, List.replicate_succ] at h
        simp only [List.nil_append, List.cons_append, List.cons.injEq] at h
        exact absurd h.1.symm hne
    · rfl
  rw [hab, List.append_assoc, List.append_assoc, List.append_cancel_left_eq, List.append_cancel_left_eq] at h
  exact h

section

variable {text : ℚ → Line}

theorem element_eq (hw : Writes text) (M : MatrixData) (h : M.Valid) (i : Fin M.nrRows) (j : Fin M.nrColumns) :
    elementText text (M.column j).tuples i = text (M.toProvider.toLP.A i j) := by
  rw [elementText_eq text (h.wf_tuples j j.isLt), M.toLP_entry]
  unfold MatrixData.entry
  split_ifs with h0
  · rw [h0, hw.zero]
  · rfl

theorem cost_eq (hw : Writes text) (M : MatrixData) (j : Fin M.nrColumns) :
    costText text M j = text (M.toProvider.toLP.c j) := by
  have hc : M.toProvider.toLP.c j = M.costValue j := rfl
  rw [hc]
  unfold costText MatrixData.costValue
  rcases M.columnType j with ⟨_ | _ | _ | _ | _ | _, _⟩ <;> first | rfl | exact hw.zero.symm

/-- **C81**, what remains of it for different problems: if no number needs more than 7 characters, problems with the
same text have the same numbers of rows and columns, the same entries and the same costs. Missing: longer numbers
(`C81_not_problem`) and the right-hand side (`C81_not_rhs`). -/
theorem C81_same_text_partial (hw : Writes text) (M M' : MatrixData) (h : M.Valid) (h' : M'.Valid)
    (hcols : M.nrColumns ≤ 10000000) (hcols' : M'.nrColumns ≤ 10000000)
    (hcost : ∀ j, (text (M.toProvider.toLP.c j)).length ≤ 7) (htext : ∀ i j, (text (M.toProvider.toLP.A i j)).length ≤ 7)
    (hcost' : ∀ j, (text (M'.toProvider.toLP.c j)).length ≤ 7)
    (htext' : ∀ i j, (text (M'.toProvider.toLP.A i j)).length ≤ 7)
    (hsame : problem text M = problem text M') :
    M.nrRows = M'.nrRows ∧ M.nrColumns = M'.nrColumns ∧
    (∀ (j : ℕ) (hj : j < M.nrColumns) (hj' : j < M'.nrColumns),
      M.toProvider.toLP.c ⟨j, hj⟩ = M'.toProvider.toLP.c ⟨j, hj'⟩) ∧
    ∀ (i j : ℕ) (hi : i < M.nrRows) (hi' : i < M'.nrRows) (hj : j < M.nrColumns) (hj' : j < M'.nrColumns),
      M.toProvider.toLP.A ⟨i, hi⟩ ⟨j, hj⟩ = M'.toProvider.toLP.A ⟨i, hi'⟩ ⟨j, hj'⟩ := by
  have hrows : M.nrRows = M'.nrRows := by
    have hlen (N : MatrixData) : (problem text N).length = N.nrRows + 3 := by
      have hb (s : Line) (ls : List Line) (hls : ls ≠ []) : (beforeFirst s ls).length = ls.length := by
        cases ls with
        | nil => exact absurd rfl hls
        | cons l ls => rfl
      unfold problem
      rw [List.length_append, hb _ _ (by simp), List.length_append, hb _ _ (by simp)]
      simp
      omega
    have := congrArg List.length hsame
    rw [hlen, hlen] at this
    omega
  unfold problem at hsame
  simp only [List.singleton_append] at hsame
  rw [List.cons.injEq] at hsame
  obtain ⟨hhead, hlines⟩ := hsame
  obtain ⟨hcosts, hrest⟩ := List.cons.inj hlines
  rw [List.append_cancel_left_eq] at hhead
  unfold problemCells at hhead
  rw [List.range_eq_range', List.range_eq_range'] at hhead
  obtain ⟨hn, hmark⟩ := header_unique (columnMark_cases M) (columnMark_cases M') _ _ 0 (by omega) (by omega) hhead
  have hwidth : separatorWidth M = separatorWidth M' := by unfold separatorWidth; rw [hn]
  refine ⟨hrows, hn, ?_, ?_⟩
  · rw [hwidth, List.append_cancel_left_eq, List.append_cancel_left_eq] at hcosts
    unfold problemCells at hcosts
    rw [← hn, List.range_eq_range'] at hcosts
    have key := cells_unique _ 0 hmark
      (fun j _ hj => by
        rw [cost_eq hw M ⟨j, by omega⟩]
        exact ⟨hcost _, hw.noBlank _⟩)
      (fun j _ hj => by
        rw [cost_eq hw M' ⟨j, by omega⟩]
        exact ⟨hcost' _, hw.noBlank _⟩) hcosts
    intro j hj hj'
    have := key j (by omega) (by omega)
    rw [cost_eq hw M ⟨j, hj⟩, cost_eq hw M' ⟨j, hj'⟩] at this
    exact hw.injective this
  · intro i j hi hi' hj hj'
    have hline (N : MatrixData) (hi : i < N.nrRows) (s : Line) :
        (beforeFirst s (((List.range N.nrRows).map fun i =>
          rowSeparator N i ++ rowCounter i ++ problemCells N fun j => elementText text (N.column j).tuples i) ++ [[]]))[i]? =
        some ((if i = 0 then s else []) ++ (rowSeparator N i ++ rowCounter i ++
          problemCells N fun j => elementText text (N.column j).tuples i)) := by
      refine beforeFirst_get ?_
      rw [List.getElem?_append_left (by simpa using hi)]
      simp [hi]
    have hl := congrArg (fun ls : List Line => ls[i]?) hrest
    rw [hline M hi, hline M' hi', Option.some.injEq, hwidth, List.append_cancel_left_eq] at hl
    have hcells := separator_unique (rowSeparator_cases M i) (hwidth ▸ rowSeparator_cases M' i) hl
    unfold problemCells at hcells
    rw [← hn, List.range_eq_range'] at hcells
    have key := cells_unique _ 0 hmark
      (fun k _ hk => by
        rw [element_eq hw M h ⟨i, hi⟩ ⟨k, by omega⟩]
        exact ⟨htext _ _, hw.noBlank _⟩)
      (fun k _ hk => by
        rw [element_eq hw M' h' ⟨i, hi'⟩ ⟨k, by omega⟩]
        exact ⟨htext' _ _, hw.noBlank _⟩) hcells
    have := key j (by omega) (by omega)
    rw [element_eq hw M h ⟨i, hi⟩ ⟨j, hj⟩, element_eq hw M' h' ⟨i, hi'⟩ ⟨j, hj'⟩] at this
    exact hw.injective this

/-- **C81**, what remains of it for different problems of which rows were removed: under the same conditions, the rows
that were kept have the same entries. -/
theorem C81_same_filtered_partial (hw : Writes text) (M M' : MatrixData) (h : M.Valid) (h' : M'.Valid)
    (hcols : M.nrColumns ≤ 10000000) (hcols' : M'.nrColumns ≤ 10000000)
    (htext : ∀ i j, (text (M.toProvider.toLP.A i j)).length ≤ 7)
    (htext' : ∀ i j, (text (M'.toProvider.toLP.A i j)).length ≤ 7)
    (skip skip' : List ℕ) (hs : skip.Pairwise (· < ·)) (hr : ∀ r ∈ skip, r < M.nrEquality)
    (hs' : skip'.Pairwise (· < ·)) (hr' : ∀ r ∈ skip', r < M'.nrEquality)
    (hsame : filteredProblem text M skip = filteredProblem text M' skip') :
    (keptIndices skip M.nrRows).length = (keptIndices skip' M'.nrRows).length ∧ M.nrColumns = M'.nrColumns ∧
    ∀ (i j : ℕ) (u : Fin M.nrRows) (u' : Fin M'.nrRows) (hj : j < M.nrColumns) (hj' : j < M'.nrColumns),
      (keptIndices skip M.nrRows)[i]? = some u.val → (keptIndices skip' M'.nrRows)[i]? = some u'.val →
      M.toProvider.toLP.A u ⟨j, hj⟩ = M'.toProvider.toLP.A u' ⟨j, hj'⟩ := by
  have hall (N : MatrixData) (skip : List ℕ) (hr : ∀ r ∈ skip, r < N.nrEquality) : ∀ r ∈ skip, r < N.nrRows := by
    intro r hrs
    have := hr r hrs
    simp only [MatrixData.nrRows, MatrixData.nrConstraints, MatrixData.lowerEnd, MatrixData.upperEnd,
      MatrixData.rangeEnd, MatrixData.equalityEnd]
    omega
  have hkept : (keptIndices skip M.nrRows).length = M.nrRows - skip.length :=
    keptIndices_length (hs.imp fun h => ne_of_lt h) (hall M skip hr)
  have hkept' : (keptIndices skip' M'.nrRows).length = M'.nrRows - skip'.length :=
    keptIndices_length (hs'.imp fun h => ne_of_lt h) (hall M' skip' hr')
  have helement (N : MatrixData) (hN : N.Valid) (skip : List ℕ) (hs : skip.Pairwise (· < ·))
      (hr : ∀ r ∈ skip, r < N.nrEquality) (i : ℕ) (u : Fin N.nrRows) (j : Fin N.nrColumns)
      (hu : (keptIndices skip N.nrRows)[i]? = some u.val) :
      elementText text ((N.column j).intoFiltered skip).tuples i = text (N.toProvider.toLP.A u j) := by
    have hi : i < N.nrRows - skip.length := by
      rw [← keptIndices_length (hs.imp fun h => ne_of_lt h) (hall N skip hr)]
      exact (List.getElem?_eq_some_iff.1 hu).1
    obtain ⟨h1, h2⟩ := C25_column N hN skip hs hr j j.isLt
    have h3 := C25_row_index skip hs N.nrRows (hall N skip hr) i hi
    rw [hu, Option.some.injEq] at h3
    rw [elementText_eq text h1, h2, ← h3, N.toLP_entry]
    unfold MatrixData.entry
    split_ifs with h0
    · rw [h0, hw.zero]
    · rfl
  have hrows : M.nrRows - skip.length = M'.nrRows - skip'.length := by
    have hlen (N : MatrixData) (skip : List ℕ) : (filteredProblem text N skip).length = N.nrRows - skip.length + 2 := by
      have hb (s : Line) (ls : List Line) (hls : ls ≠ []) : (beforeFirst s ls).length = ls.length := by
        cases ls with
        | nil => exact absurd rfl hls
        | cons l ls => rfl
      unfold filteredProblem removeRows
      rw [List.length_append, hb _ _ (by simp)]
      simp
      omega
    have := congrArg List.length hsame
    rw [hlen, hlen] at this
    omega
  unfold filteredProblem removeRows at hsame
  simp only [List.singleton_append, List.cons.injEq] at hsame
  obtain ⟨hhead, hrest⟩ := hsame
  rw [List.append_cancel_left_eq, List.range_eq_range', List.range_eq_range'] at hhead
  obtain ⟨hn, -⟩ := header_unique (mark := fun _ => []) (mark' := fun _ => []) (fun _ => .inl rfl) (fun _ => .inl rfl)
    _ _ 0 (by omega) (by omega) hhead
  refine ⟨by omega, hn, ?_⟩
  intro i j u u' hj hj' hu hu'
  have hi : i < M.nrRows - skip.length := hkept ▸ (List.getElem?_eq_some_iff.1 hu).1
  have hline (N : MatrixData) (skip : List ℕ) (hi : i < N.nrRows - skip.length) (s : Line) :
      (beforeFirst s (((List.range (N.nrRows - skip.length)).map fun i =>
        rowCounter i ++ (List.range N.nrColumns).flatMap fun j =>
          center 8 (elementText text ((N.column j).intoFiltered skip).tuples i)) ++ [[]]))[i]? =
      some ((if i = 0 then s else []) ++ (rowCounter i ++ (List.range N.nrColumns).flatMap fun j =>
          center 8 (elementText text ((N.column j).intoFiltered skip).tuples i))) := by
    refine beforeFirst_get ?_
    rw [List.getElem?_append_left (by simpa using hi)]
    simp [hi]
  have hl := congrArg (fun ls : List Line => ls[i]?) hrest
  rw [hline M skip hi, hline M' skip' (hrows ▸ hi), Option.some.injEq, hn, List.append_cancel_left_eq,
    List.append_cancel_left_eq, ← hn, List.range_eq_range'] at hl
  have key := cells_unique (mark := fun _ => []) (mark' := fun _ => []) _ 0 (fun _ _ _ => rfl)
    (fun k _ hk => by
      rw [helement M h skip hs hr i u ⟨k, by omega⟩ hu]
      exact ⟨htext _ _, hw.noBlank _⟩)
    (fun k _ hk => by
      rw [helement M' h' skip' hs' hr' i u' ⟨k, by omega⟩ hu']
      exact ⟨htext' _ _, hw.noBlank _⟩) hl
  have := key j (by omega) (by omega)
  rw [helement M h skip hs hr i u ⟨j, hj⟩ hu, helement M' h' skip' hs' hr' i u' ⟨j, hj'⟩ hu'] at this
  exact hw.injective this

end

/-! ### The hypotheses can be met -/

/-- The usual way to write fractions. -/
theorem writes_exampleText : Writes exampleText where
  injective := by
    intro p q h
    have hslash (n : ℕ) : '/' ∉ digits n := not_mem_digits rfl n
    have hminus (n : ℕ) : '-' ∉ digits n := not_mem_digits rfl n
    have hone : ∀ n : ℕ, digits n ≠ [] := fun n => List.ne_nil_of_length_pos Nat.length_toDigits_pos
    -- the part behind the sign
    have hrest (p q : ℚ) (h : digits p.num.natAbs ++ (if p.den = 1 then [] else ['/'] ++ digits p.den) =
        digits q.num.natAbs ++ (if q.den = 1 then [] else ['/'] ++ digits q.den)) :
        p.num.natAbs = q.num.natAbs ∧ p.den = q.den := by
      split_ifs at h with h1 h2 h2
      · simp only [List.append_nil] at h
        exact ⟨digits_inj h, by rw [h1, h2]⟩
      · exfalso
        have : '/' ∈ digits p.num.natAbs ++ ([] : Line) := by rw [h]; simp
        simp only [List.append_nil] at this
        exact hslash _ this
      · exfalso
        have : '/' ∈ digits q.num.natAbs ++ ([] : Line) := by rw [← h]; simp
        simp only [List.append_nil] at this
        exact hslash _ this
      · obtain ⟨e1, e2⟩ := split_unique (hslash _) (hslash _) h
        exact ⟨digits_inj e1, digits_inj e2⟩
    have hhead (p : ℚ) (r : Line) :
        digits p.num.natAbs ++ (if p.den = 1 then [] else ['/'] ++ digits p.den) ≠ '-' :: r := by
      intro he
      obtain ⟨c, cs, hc⟩ := List.exists_cons_of_ne_nil (hone p.num.natAbs)
      rw [hc] at he
      simp only [List.cons_append, List.cons.injEq] at he
      exact hminus p.num.natAbs (by rw [hc, he.1]; simp)
    unfold exampleText at h
    simp only [List.append_assoc] at h
    have hfinish (hs : (p < 0 ↔ q < 0)) (hparts : p.num.natAbs = q.num.natAbs ∧ p.den = q.den) : p = q := by
      refine Rat.ext ?_ hparts.2
      have := hparts.1
      rw [← Rat.num_neg, ← Rat.num_neg] at hs
      omega
    by_cases hp : p < 0 <;> by_cases hq : q < 0
    · rw [if_pos hp, if_pos hq, List.append_cancel_left_eq] at h
      exact hfinish (by tauto) (hrest p q h)
    · rw [if_pos hp, if_neg hq] at h
      exact absurd h.symm (hhead q _)
    · rw [if_neg hp, if_pos hq] at h
      exact absurd h (hhead p _)
    · rw [if_neg hp, if_neg hq, List.append_cancel_left_eq] at h
      exact hfinish (by tauto) (hrest p q h)
  noBlank q h := by
    have hd (n : ℕ) : ' ' ∉ digits n := not_mem_digits rfl n
    unfold exampleText at h
    simp only [List.mem_append] at h
    rcases h with (h | h) | h
    · split_ifs at h <;> simp at h
    · exact hd _ h
    · split_ifs at h
      · simp at h
      · rcases List.mem_append.1 h with h | h
        · simp at h
        · exact hd _ h
  zero := by decide +kernel

/-- Two different problems with different texts: for these, the theorems say that the entries that differ show. -/
example : problem exampleText (exampleProblem 3 (-1 / 2)) ≠ problem exampleText (exampleProblem 3 (1 / 2)) := by
  decide +kernel

/-- The hypotheses hold for a problem with all kinds of constraints and bounds, with and without a removed row. -/
example : Writes exampleText ∧ Example.data.Valid ∧ Example.data.nrColumns ≤ 10000000 ∧
    (∀ j, (exampleText (Example.data.toProvider.toLP.c j)).length ≤ 7) ∧
    (∀ i j, (exampleText (Example.data.toProvider.toLP.A i j)).length ≤ 7) ∧
    ([1] : List ℕ).Pairwise (· < ·) ∧ ∀ r ∈ [1], r < Example.data.nrEquality :=
  ⟨writes_exampleText, Example.data_valid, by decide +kernel, by decide +kernel, by decide +kernel, by decide,
    by decide +kernel⟩

end Relp.Display
