import Verif.Model.DisplayProblem
import Verif.Proof.Display
import Verif.Props.Display
import Verif.Props.MatrixData
import Verif.Props.Network

/-!
# C81, C82: displayed problems

The specification is in `Spec/Display.lean`. `text` is how the number type writes numbers.
-/

namespace Relp.Display

open Spec

/-! ### Places in lines -/

theorem shown_append {line : Line} {start width : ℕ} {t : Line} (h : ShownAt line start width t) (more : Line) :
    ShownAt (line ++ more) start width t := by
  obtain ⟨hl, a, b, hab⟩ := h
  refine ⟨by rw [List.length_append]; omega, a, b, ?_⟩
  rw [List.drop_append_of_le_length (by omega), List.take_append_of_le_length (by rw [List.length_drop]; omega), hab]

theorem shown_prepend {line : Line} {start width : ℕ} {t : Line} (h : ShownAt line start width t) (before : Line)
    {p : ℕ} (hp : p = before.length + start) : ShownAt (before ++ line) p width t := by
  obtain ⟨hl, a, b, hab⟩ := h
  subst hp
  refine ⟨by rw [List.length_append]; omega, a, b, ?_⟩
  rw [List.drop_append, List.drop_eq_nil_of_le (by omega), List.nil_append, Nat.add_sub_cancel_left, hab]

theorem shown_center_short {width : ℕ} {t : Line} (h : t.length ≤ width) : ShownAt (center (width + 1) t) 0 width t := by
  refine ⟨by rw [length_center (by omega)]; omega, ?_⟩
  refine ⟨(width + 1 - t.length) / 2, width - t.length - (width + 1 - t.length) / 2, ?_⟩
  unfold center
  rw [List.drop_zero, List.take_append, List.take_of_length_le (by simp; omega), List.take_replicate]
  congr 2
  simp only [List.length_append, List.length_replicate]
  omega

/-- The position of the cell of a column, after the beginning of the cells. -/
def cellStart (mark : ℕ → Line) (j : ℕ) : ℕ := ∑ k ∈ Finset.range j, ((mark k).length + 8) + (mark j).length

theorem cells_length (mark f : ℕ → Line) (n : ℕ) (hf : ∀ j < n, (f j).length ≤ 7) :
    ((List.range n).flatMap fun j => mark j ++ center 8 (f j)).length =
      ∑ k ∈ Finset.range n, ((mark k).length + 8) := by
  induction n with
  | zero => simp
  | succ n ih =>
    rw [List.range_succ, List.flatMap_append, List.length_append, ih fun j hj => hf j (by omega), Finset.sum_range_succ]
    simp only [List.flatMap_cons, List.flatMap_nil, List.append_nil, List.length_append]
    rw [length_center (by have := hf n (by omega); omega)]

theorem marked_shown (mark f : ℕ → Line) (n : ℕ) (hf : ∀ j < n, (f j).length ≤ 7) (j : ℕ) (hj : j < n) :
    ShownAt ((List.range n).flatMap fun j => mark j ++ center 8 (f j)) (cellStart mark j) 7 (f j) := by
  induction n with
  | zero => omega
  | succ n ih =>
    have hf' : ∀ j < n, (f j).length ≤ 7 := fun j hj => hf j (by omega)
    rw [List.range_succ, List.flatMap_append]
    rcases Nat.lt_succ_iff_lt_or_eq.1 hj with h | rfl
    · exact shown_append (ih hf' h) _
    · simp only [List.flatMap_cons, List.flatMap_nil, List.append_nil]
      refine shown_prepend (start := (mark j).length) ?_ _ (by rw [cells_length mark f j hf']; rfl)
      exact shown_prepend (start := 0) (shown_center_short (hf j hj)) _ rfl

theorem cellStart_separated (mark : ℕ → Line) {j k : ℕ} (h : j < k) : cellStart mark j + 7 < cellStart mark k := by
  induction k with
  | zero => omega
  | succ k ih =>
    have hstep : cellStart mark (k + 1) = cellStart mark k + 8 + (mark (k + 1)).length := by
      simp only [cellStart, Finset.sum_range_succ]
      omega
    rcases Nat.lt_succ_iff_lt_or_eq.1 h with h | rfl
    · have := ih h; omega
    · omega

theorem rowCounter_shown {i : ℕ} (hi : i < 10 ^ 6) : (rowCounter i).length = 8 ∧ ShownAt (rowCounter i) 0 6 (digits i) := by
  have hd : (digits i).length ≤ 6 := (digits_length (by omega)).2 hi
  have hlen : (rowCounter i).length = 8 := length_alignRight (by simp; omega)
  refine ⟨hlen, by omega, 6 - (digits i).length, 0, ?_⟩
  unfold rowCounter alignRight
  rw [← List.append_assoc, List.drop_zero, List.take_append_of_le_length (by simp; omega), List.take_of_length_le
    (by simp; omega)]
  simp

theorem elementText_eq (text : ℚ → Line) {v : SVec ℕ} (hv : SVec.WF v) (i : ℕ) :
    elementText text v i = if SVec.val v i = 0 then ['0'] else text (SVec.val v i) := by
  unfold elementText
  rw [SVec.get?_eq hv]
  split_ifs <;> rfl

theorem beforeFirst_get {separator line : Line} {lines : List Line} {k : ℕ} (h : lines[k]? = some line) :
    (beforeFirst separator lines)[k]? = some ((if k = 0 then separator else []) ++ line) := by
  cases lines with
  | nil => simp at h
  | cons l ls =>
    cases k with
    | zero =>
      simp only [List.getElem?_cons_zero, Option.some.injEq] at h
      subst h
      simp [beforeFirst]
    | succ k => simpa [beforeFirst] using h

section

variable (text : ℚ → Line)

/-- **C81**, what remains of it for a problem in matrix form: if there are at most 1000000 rows and 10000000 columns
and no number needs more than 7 characters, then all numbers are shown: for every column there is one range of
positions, counted from the end of the separators with which a line may begin, at which all its entries are shown,
in full, with a blank between columns. Missing: a line for each row, every number of
characters, and the right-hand side, which is not shown. -/
theorem C81_problem_partial (M : MatrixData) (h : M.Valid) (hrows : M.nrRows ≤ 1000000) (hcols : M.nrColumns ≤ 10000000)
    (hcost : ∀ j, (text (M.toProvider.toLP.c j)).length ≤ 7) (htext : ∀ i j, (text (M.toProvider.toLP.A i j)).length ≤ 7) :
    ∃ (start : Fin M.nrColumns → ℕ) (separator cost : Line) (header : Line) (separators row : Fin M.nrRows → Line),
      (problem text M)[0]? = some header ∧
      (problem text M)[1]? = some (separator ++ cost) ∧
      (∀ i : Fin M.nrRows, (problem text M)[2 + i.val]? = some (separators i ++ row i)) ∧
      (∀ c ∈ separator, c = '=') ∧ (∀ i, ∀ c ∈ separators i, c = '=' ∨ c = '-') ∧
      Separated start (fun _ => 7) ∧ (∀ j, 8 ≤ start j) ∧
      (∀ j, ShownAt header (start j) 7 (digits j.val)) ∧
      (∀ j, ShownAt cost (start j) 7 (if j.val < M.vars.length then text (M.toProvider.toLP.c j) else ['0'])) ∧
      (∀ i j, ShownAt (row i) (start j) 7 (if M.toProvider.toLP.A i j = 0 then ['0'] else text (M.toProvider.toLP.A i j))) ∧
      ∀ i, ShownAt (row i) 0 6 (digits i.val) := by
  have hzero : ['0'].length ≤ 7 := by simp
  have hcolumn (j : ℕ) (hj : j < M.nrColumns) : (digits j).length ≤ 7 := (digits_length (by omega)).2 (by omega)
  have hcostText (j : Fin M.nrColumns) :
      costText text M j = if j.val < M.vars.length then text (M.toProvider.toLP.c j) else ['0'] := by
    unfold costText
    split_ifs with hj
    · rw [M.columnType_normal hj]; rfl
    · have : (M.columnType j).1 ≠ .normal := by
        unfold MatrixData.columnType
        rw [if_neg (by exact hj)]
        split_ifs <;> simp
      revert this
      rcases M.columnType j with ⟨_ | _ | _ | _ | _ | _, _⟩ <;> simp
  have helement (i : Fin M.nrRows) (j : Fin M.nrColumns) : elementText text (M.column j).tuples i =
      if M.toProvider.toLP.A i j = 0 then ['0'] else text (M.toProvider.toLP.A i j) := by
    rw [elementText_eq text (h.wf_tuples j j.isLt), M.toLP_entry]; rfl
  have hcost' (j : ℕ) (hj : j < M.nrColumns) : (costText text M j).length ≤ 7 := by
    rw [hcostText ⟨j, hj⟩]
    split_ifs
    · exact hcost _
    · exact hzero
  have htext' (i : Fin M.nrRows) (j : ℕ) (hj : j < M.nrColumns) :
      (elementText text (M.column j).tuples i).length ≤ 7 := by
    rw [helement i ⟨j, hj⟩]
    split_ifs
    · exact hzero
    · exact htext _ _
  refine ⟨fun j => 8 + cellStart (columnMark M) j, List.replicate (separatorWidth M) '=',
    alignRight 8 "cost |".toList ++ problemCells M (costText text M), alignRight 8 ['|'] ++ problemCells M digits,
    fun i => (if i.val = 0 then List.replicate (separatorWidth M) '=' else []) ++ rowSeparator M i,
    fun i => rowCounter i ++ problemCells M fun j => elementText text (M.column j).tuples i,
    rfl, rfl, fun i => ?_, ?_, ?_, ?_, fun j => Nat.le_add_right _ _, ?_, ?_, ?_, ?_⟩
  · rw [show 2 + i.val = i.val + 1 + 1 by omega]
    change (beforeFirst _ _)[i.val]? = _
    rw [beforeFirst_get (line := rowSeparator M i ++ rowCounter i ++
      problemCells M fun j => elementText text (M.column j).tuples i)]
    · simp only [List.append_assoc]
    · rw [List.getElem?_append_left (by simp)]
      simp
  · exact fun c hc => List.eq_of_mem_replicate hc
  · intro i c hc
    rcases List.mem_append.1 hc with hc | hc
    · split_ifs at hc
      · exact .inl (List.eq_of_mem_replicate hc)
      · simp at hc
    · unfold rowSeparator at hc
      split_ifs at hc
      · exact .inr (List.eq_of_mem_replicate hc)
      · simp at hc
  · intro j k hjk
    have := cellStart_separated (columnMark M) (show j.val < k.val from hjk)
    dsimp only
    omega
  · exact fun j => shown_prepend (marked_shown _ _ _ hcolumn j j.isLt) _ rfl
  · intro j
    rw [← hcostText j]
    exact shown_prepend (marked_shown _ _ _ hcost' j j.isLt) _ rfl
  · intro i j
    rw [← helement i j]
    exact shown_prepend (marked_shown _ _ _ (htext' i) j j.isLt) _
      (by rw [(rowCounter_shown (show i.val < 10 ^ 6 by omega)).1])
  · exact fun i => shown_append (rowCounter_shown (show i.val < 10 ^ 6 by omega)).2 _

/-- **C81**, what remains of it for a problem of which equality rows were removed: the rows that were kept are shown
like those of a problem. -/
theorem C81_filtered_partial (M : MatrixData) (h : M.Valid) (hrows : M.nrRows ≤ 1000000)
    (hcols : M.nrColumns ≤ 10000000) (htext : ∀ i j, (text (M.toProvider.toLP.A i j)).length ≤ 7)
    (skip : List ℕ) (hs : skip.Pairwise (· < ·)) (hr : ∀ r ∈ skip, r < M.nrEquality) :
    ∃ (start : Fin M.nrColumns → ℕ) (header : Line) (separators row : Fin (M.nrRows - skip.length) → Line),
      (filteredProblem text M skip)[0]? = some header ∧
      (∀ i : Fin (M.nrRows - skip.length), (filteredProblem text M skip)[1 + i.val]? = some (separators i ++ row i)) ∧
      (∀ i, ∀ c ∈ separators i, c = '-') ∧
      Separated start (fun _ => 7) ∧ (∀ j, 8 ≤ start j) ∧
      (∀ j, ShownAt header (start j) 7 (digits j.val)) ∧
      (∀ (i : Fin (M.nrRows - skip.length)) (u : Fin M.nrRows) (j : Fin M.nrColumns),
        (keptIndices skip M.nrRows)[i.val]? = some u.val →
        ShownAt (row i) (start j) 7 (if M.toProvider.toLP.A u j = 0 then ['0'] else text (M.toProvider.toLP.A u j))) ∧
      ∀ i, ShownAt (row i) 0 6 (digits i.val) := by
  have hall : ∀ r ∈ skip, r < M.nrRows := fun r hrs => by
    have := hr r hrs
    simp only [MatrixData.nrRows, MatrixData.nrConstraints, MatrixData.lowerEnd, MatrixData.upperEnd,
      MatrixData.rangeEnd, MatrixData.equalityEnd]
    omega
  have hcolumn (j : ℕ) (hj : j < M.nrColumns) : (digits j).length ≤ 7 := (digits_length (by omega)).2 (by omega)
  have helement (i : Fin (M.nrRows - skip.length)) (u : Fin M.nrRows) (j : Fin M.nrColumns)
      (hu : (keptIndices skip M.nrRows)[i.val]? = some u.val) :
      elementText text ((M.column j).intoFiltered skip).tuples i =
        if M.toProvider.toLP.A u j = 0 then ['0'] else text (M.toProvider.toLP.A u j) := by
    obtain ⟨h1, h2⟩ := C25_column M h skip hs hr j j.isLt
    have h3 := C25_row_index skip hs M.nrRows hall i i.isLt
    rw [hu, Option.some.injEq] at h3
    rw [elementText_eq text h1, h2, ← h3, M.toLP_entry]; rfl
  have hexists (i : Fin (M.nrRows - skip.length)) :
      ∃ u : Fin M.nrRows, (keptIndices skip M.nrRows)[i.val]? = some u.val := by
    have h3 := C25_row_index skip hs M.nrRows hall i i.isLt
    have := ((keptIndices_spec skip M.nrRows).2 _).1 (List.mem_of_getElem? h3)
    exact ⟨⟨_, this.1⟩, h3⟩
  have htext' (i : Fin (M.nrRows - skip.length)) (j : ℕ) (hj : j < M.nrColumns) :
      (elementText text ((M.column j).intoFiltered skip).tuples i).length ≤ 7 := by
    obtain ⟨u, hu⟩ := hexists i
    rw [helement i u ⟨j, hj⟩ hu]
    split_ifs
    · simp
    · exact htext _ _
  refine ⟨fun j => 8 + cellStart (fun _ => []) j,
    List.replicate 8 ' ' ++ (List.range M.nrColumns).flatMap fun j => center 8 (digits j),
    fun i => if i.val = 0 then List.replicate ((1 + M.nrColumns) * 8) '-' else [],
    fun i => rowCounter i ++ (List.range M.nrColumns).flatMap fun j =>
      center 8 (elementText text ((M.column j).intoFiltered skip).tuples i),
    rfl, fun i => ?_, ?_, ?_, fun j => Nat.le_add_right _ _, ?_, ?_, ?_⟩
  · rw [show 1 + i.val = i.val + 1 by omega]
    change (beforeFirst _ _)[i.val]? = _
    rw [beforeFirst_get (line := rowCounter i ++ (List.range M.nrColumns).flatMap fun j =>
      center 8 (elementText text ((M.column j).intoFiltered skip).tuples i))]
    rw [List.getElem?_append_left (by simp)]
    simp
  · intro i c hc
    dsimp only at hc
    split_ifs at hc
    · exact List.eq_of_mem_replicate hc
    · simp at hc
  · intro j k hjk
    have := cellStart_separated (fun _ => []) (show j.val < k.val from hjk)
    dsimp only
    omega
  · exact fun j => shown_prepend (marked_shown (fun _ => []) _ _ hcolumn j j.isLt) _ rfl
  · intro i u j hu
    rw [← helement i u j hu]
    exact shown_prepend (marked_shown (fun _ => []) _ _ (htext' i) j j.isLt) _
      (by rw [(rowCounter_shown (show i.val < 10 ^ 6 by omega)).1])
  · exact fun i => shown_append (rowCounter_shown (show i.val < 10 ^ 6 by omega)).2 _

theorem not_shown_separator {c d : Char} {n width : ℕ} {rest t : Line} (hw : width ≤ n) (hd : d ∈ t) (hne : d ≠ c) :
    ¬ShownAt (List.replicate n c ++ rest) 0 width t := by
  rintro ⟨-, a, b, hab⟩
  rw [List.drop_zero, List.take_append_of_le_length (by simpa using hw), List.take_replicate] at hab
  have : d ∈ List.replicate (min width n) c := by rw [hab]; simp [hd]
  exact hne (List.eq_of_mem_replicate this)

/-- C81 does not hold for the lines: the line with the costs and the one with the first row, of every problem, begin
with a separator that was meant to be a line of its own, and so does the first row of a problem of which rows were
removed. -/
theorem C81_not_lines (M : MatrixData) (skip : List ℕ) :
    (∀ line, (problem text M)[1]? = some line → ¬ShownAt line 0 6 "cost".toList) ∧
    (∀ line, (problem text M)[2]? = some line → ¬ShownAt line 0 6 (digits 0)) ∧
    ∀ line, (filteredProblem text M skip)[1]? = some line → ¬ShownAt line 0 6 (digits 0) := by
  have hwidth : 6 ≤ separatorWidth M := by unfold separatorWidth; omega
  have hfirst (separator : Line) (lines : List Line) : ∃ rest, (beforeFirst separator lines)[0]? = some (separator ++ rest) := by
    cases lines with
    | nil => exact ⟨[], by simp [beforeFirst]⟩
    | cons l ls => exact ⟨l, rfl⟩
  have hdigit : '0' ∈ digits 0 := by decide +kernel
  refine ⟨?_, ?_, ?_⟩
  · intro line hline
    change (beforeFirst _ _)[0]? = _ at hline
    obtain ⟨rest, hrest⟩ := hfirst (List.replicate (separatorWidth M) '=')
      ([alignRight 8 "cost |".toList ++ problemCells M (costText text M)] ++
        beforeFirst (List.replicate (separatorWidth M) '=')
          (((List.range M.nrRows).map fun i =>
            rowSeparator M i ++ rowCounter i ++ problemCells M fun j => elementText text (M.column j).tuples i) ++ [[]]))
    rw [hrest, Option.some.injEq] at hline
    subst hline
    exact not_shown_separator hwidth (d := 'c') (by decide) (by decide)
  · intro line hline
    change (beforeFirst _ _)[0]? = _ at hline
    obtain ⟨rest, hrest⟩ := hfirst (List.replicate (separatorWidth M) '=')
      (((List.range M.nrRows).map fun i =>
        rowSeparator M i ++ rowCounter i ++ problemCells M fun j => elementText text (M.column j).tuples i) ++ [[]])
    rw [hrest, Option.some.injEq] at hline
    subst hline
    exact not_shown_separator hwidth hdigit (by decide)
  · intro line hline
    change (beforeFirst _ _)[0]? = _ at hline
    obtain ⟨rest, hrest⟩ := hfirst (List.replicate ((1 + M.nrColumns) * 8) '-')
      (((List.range (M.nrRows - skip.length)).map fun i =>
        rowCounter i ++ (List.range M.nrColumns).flatMap fun j =>
          center 8 (elementText text ((M.column j).intoFiltered skip).tuples i)) ++ [[]])
    rw [hrest, Option.some.injEq] at hline
    subst hline
    exact not_shown_separator (by omega) hdigit (by decide)

/-- C81 does not hold: the right-hand side is not shown. -/
theorem C81_not_rhs (text : ℚ → Line) (M : MatrixData) (b : List ℚ) (skip : List ℕ) :
    problem text { M with b := b } = problem text M ∧
    filteredProblem text { M with b := b } skip = filteredProblem text M skip :=
  ⟨rfl, rfl⟩

/-- For the witness: one equation for two variables. -/
def exampleProblem (first second : ℚ) : MatrixData where
  constraints := ⟨[[(0, first)], [(0, second)]], 2, 1⟩
  b := [1]
  ranges := []
  nrEquality := 1
  nrRange := 0
  nrUpper := 0
  nrLower := 0
  vars := [⟨.continuous, 1, some 0, none, 0, false⟩, ⟨.continuous, 1, some 0, none, 0, false⟩]

/-- C81 does not hold for long numbers: entries can run together, and then different problems have the same text. -/
theorem C81_not_problem :
    problem exampleText (exampleProblem 123456789 12345678) = problem exampleText (exampleProblem 12345678 912345678) ∧
    filteredProblem exampleText (exampleProblem 123456789 12345678) [] =
      filteredProblem exampleText (exampleProblem 12345678 912345678) [] ∧
    ((exampleProblem 123456789 12345678).column 0).tuples ≠ ((exampleProblem 12345678 912345678).column 0).tuples := by
  decide +kernel

example : Example.data.Valid ∧ (∀ j, (exampleText (Example.data.toProvider.toLP.c j)).length ≤ 7) ∧
    ∀ i j, (exampleText (Example.data.toProvider.toLP.A i j)).length ≤ 7 :=
  ⟨Example.data_valid, by decide +kernel, by decide +kernel⟩

example : problem exampleText (exampleProblem 3 (-1 / 2)) =
    ["       ||   0       1    ".toList,
      "==============================  cost ||   1       1    ".toList,
      "==============================------------------------------     0 ||   3      -1/2  ".toList,
      []] := by
  decide +kernel

example : filteredProblem exampleText Example.data [1] =
    ["           0       1       2       3       4       5       6       7       8    ".toList,
      "--------------------------------------------------------------------------------".toList ++
        "     0 |   1       1       1       0       0       0       0       0       0    ".toList,
      "     1 |   1       -1      1       1       0       0       0       0       0    ".toList,
      "     2 |   0       1       3       0       1       0       0       0       0    ".toList,
      "     3 |   1       1       0       0       0       -1      0       0       0    ".toList,
      "     4 |   1       0       0       0       0       0       1       0       0    ".toList,
      "     5 |   0       0       1       0       0       0       0       1       0    ".toList,
      "     6 |   0       0       0       1       0       0       0       0       1    ".toList,
      []] := by
  decide +kernel

end

section Graph

open Network

theorem arcText_eq {tuples : List (ℕ × ArcDirection)} (h : SVec.WF (numbers tuples)) (i : ℕ) :
    arcText tuples i = if SVec.val (numbers tuples) i = 1 then ['1'] else
      if SVec.val (numbers tuples) i = -1 then ['-', '1'] else ['0'] := by
  have key : arcText tuples i = match SVec.get? (numbers tuples) i with
      | none => ['0']
      | some q => if q = 1 then ['1'] else ['-', '1'] := by
    clear h
    unfold arcText
    induction tuples with
    | nil => rfl
    | cons p l ih =>
      by_cases hp : p.1 = i
      · simp only [List.find?_cons, hp, decide_true, numbers, List.map_cons, SVec.get?, if_true]
        cases p.2 <;> simp [directionText, ArcDirection.toRat] <;> norm_num
      · simp only [List.find?_cons, hp, decide_false, numbers, List.map_cons, SVec.get?, if_false]
        exact ih
  rw [key, SVec.get?_eq h]
  by_cases h0 : SVec.val (numbers tuples) i = 0
  · rw [h0]; norm_num
  · rw [if_neg h0]
    dsimp only
    have hmem := SVec.get?_eq h i
    rw [if_neg h0] at hmem
    have : SVec.val (numbers tuples) i = 1 ∨ SVec.val (numbers tuples) i = -1 := by
      have hin : ∀ (l : List (ℕ × ArcDirection)) q, SVec.get? (numbers l) i = some q → q = 1 ∨ q = -1 := by
        intro l
        induction l with
        | nil => intro q hq; simp [numbers, SVec.get?] at hq
        | cons p l ih =>
          intro q hq
          simp only [numbers, List.map_cons, SVec.get?] at hq
          split_ifs at hq
          · rw [Option.some.injEq] at hq
            subst hq
            cases p.2 <;> simp [ArcDirection.toRat]
          · exact ih q hq
      exact hin _ _ hmem
    rcases this with h1 | h1 <;> rw [h1] <;> norm_num

theorem right_shown (f : ℕ → Line) (n : ℕ) (hf : ∀ j < n, (f j).length ≤ 9) :
    ((List.range n).flatMap fun j => alignRight 10 (f j)).length = 10 * n ∧
    ∀ j < n, ShownAt ((List.range n).flatMap fun j => alignRight 10 (f j)) (1 + 10 * j) 9 (f j) := by
  induction n with
  | zero => simp
  | succ n ih =>
    obtain ⟨h1, h2⟩ := ih fun j hj => hf j (by omega)
    have hn := hf n (by omega)
    rw [List.range_succ, List.flatMap_append]
    simp only [List.flatMap_cons, List.flatMap_nil, List.append_nil]
    refine ⟨by rw [List.length_append, h1, length_alignRight (by omega)]; omega, fun j hj => ?_⟩
    rcases Nat.lt_succ_iff_lt_or_eq.1 hj with h | rfl
    · exact shown_append (h2 j h) _
    · refine shown_prepend (start := 1) ⟨by rw [length_alignRight (by omega)], 9 - (f j).length, 0, ?_⟩ _ (by rw [h1]; omega)
      unfold alignRight
      rw [List.drop_append_of_le_length (by simp; omega), List.drop_replicate, List.take_of_length_le (by simp; omega)]
      simp; omega

/-- **C82.** The text of a shortest path problem has, after a title, the numbers of vertices and arcs, the source and
the sink, and the incidence matrix without the source: a line with the numbers of the arcs, and one for each vertex
`v` but the source, with `1` for arcs that end and `-1` for arcs that start there. All numbers of an arc are shown in
the same range of positions, with a blank between arcs. -/
theorem C82_graph (A : SparseMatrix) (hA : Adjacency A) (s t : ℕ) (hs : s < A.major) (hrows : A.major ≤ 100000)
    (hcols : (arcs A).length ≤ 1000000000) :
    let lines := shortestPath (ShortestPath.new A s t)
    lines.length = 4 + (A.major - 1) ∧
    lines[1]? = some ("Vertices: ".toList ++ digits A.major ++ "\tEdges: ".toList ++ digits (arcs A).length) ∧
    lines[2]? = some ("Source: ".toList ++ digits s ++ "\tSink: ".toList ++ digits t) ∧
    ∃ (header : Line) (row : ℕ → Line),
      lines[3]? = some header ∧
      (∀ j : Fin (arcs A).length, ShownAt header (6 + 10 * j.val) 9 (digits j.val)) ∧
      ∀ i v, (keptIndices [s] A.major)[i]? = some v →
        lines[4 + i]? = some (row i) ∧ ShownAt (row i) 0 5 (digits i) ∧
        ∀ j : Fin (arcs A).length, ShownAt (row i) (6 + 10 * j.val) 9
          (if (arcs A)[j].target = v then ['1'] else if (arcs A)[j].source = v then ['-', '1'] else ['0']) := by
  intro lines
  obtain ⟨-, hv, he, hr, hcol⟩ := C41_incidence_matrix A hA [s] (by simp) (by simpa using hs)
  have hV : (ShortestPath.new A s t).matrix.nrVertices = A.major := hv
  have hE : (ShortestPath.new A s t).matrix.nrEdges = (arcs A).length := he
  have hR : (ShortestPath.new A s t).nrRows = A.major - 1 := by unfold ShortestPath.nrRows; rw [hV]
  have hhead := right_shown digits (arcs A).length fun j hj => (digits_length (by omega)).2 (by omega)
  refine ⟨by simp only [lines, shortestPath, List.length_append, List.length_map, List.length_range, hR]; rfl,
    by simp only [lines, shortestPath, hV, hE]; rfl, rfl, _,
    fun i => digits i ++ List.replicate (5 - (digits i).length) ' ' ++ (List.range (arcs A).length).flatMap fun j =>
      alignRight 10 ((arcText ((ShortestPath.new A s t).matrix.column j) i).take 5), rfl, ?_, ?_⟩
  · intro j
    rw [hE]
    exact shown_prepend (hhead.2 j j.isLt) _ (by simp [alignRight]; omega)
  · intro i v hiv
    have hi : i < A.major - 1 := by
      have h1 := (List.getElem?_eq_some_iff.1 hiv).1
      rwa [keptIndices_length (by simp) (by simpa using hs)] at h1
    have hd : (digits i).length ≤ 5 := (digits_length (by omega)).2 (by omega)
    have htext (j : ℕ) (hj : j < (arcs A).length) :
        (arcText ((ShortestPath.new A s t).matrix.column j) i).take 5 =
          if (arcs A)[j].target = v then ['1'] else if (arcs A)[j].source = v then ['-', '1'] else ['0'] := by
      obtain ⟨h1, -, h3⟩ := hcol ⟨j, hj⟩
      have h4 : SVec.val (numbers ((ShortestPath.new A s t).matrix.column j)) i = _ := h3 i v hiv
      have h5 : SVec.WF (numbers ((ShortestPath.new A s t).matrix.column j)) := numbers_wf h1
      rw [arcText_eq h5, h4]
      have hne := (arc_ok hA (List.getElem_mem hj)).2.2.1
      by_cases ha : (arcs A)[j].target = v
      · have hb : (arcs A)[j].source ≠ v := by rw [← ha]; exact hne
        simp [ha, hb]
      · by_cases hb : (arcs A)[j].source = v
        · simp [ha, hb]; norm_num
        · simp [ha, hb]
    have hcells := right_shown (fun j => (arcText ((ShortestPath.new A s t).matrix.column j) i).take 5) (arcs A).length
      fun j hj => by simp
    have hpad : (digits i ++ List.replicate (5 - (digits i).length) ' ').length = 5 := by simp; omega
    refine ⟨?_, shown_append ⟨by omega, 0, 5 - (digits i).length, ?_⟩ _, fun j => ?_⟩
    · simp only [lines, shortestPath, hE]
      rw [List.getElem?_append_right (by simp), List.getElem?_map]
      simp [hR, hi]
    · rw [List.drop_zero, List.take_of_length_le (by omega)]
      simp
    · have := hcells.2 j j.isLt
      rw [htext j j.isLt] at this
      exact shown_prepend this _ (by rw [hpad]; omega)

/-- The example in shortest_path.rs. -/
example : shortestPath (ShortestPath.new Relp.Example.graph 0 3) =
    ["Shortest Path Network".toList, "Vertices: 4\tEdges: 5".toList, "Source: 0\tSink: 3".toList,
      "              0         1         2         3         4".toList,
      "0             1         0        -1        -1         0".toList,
      "1             0         1         1         0        -1".toList,
      "2             0         0         0         1         1".toList] := by
  decide +kernel

theorem digits_inj {a b : ℕ} (h : digits a = digits b) : a = b := by
  have h1 : Nat.ofDigitChars 10 (digits a) 0 = Nat.ofDigitChars 10 (digits b) 0 := by rw [h]
  unfold digits at h1
  rwa [Nat.ofDigitChars_ten_toDigits, Nat.ofDigitChars_ten_toDigits] at h1

theorem not_mem_digits {c : Char} (hc : c.isDigit = false) (n : ℕ) : c ∉ digits n := by
  intro h
  have := Nat.isDigit_of_mem_toDigits (by omega) (by omega) h
  rw [hc] at this
  exact Bool.noConfusion this

theorem split_unique {c : Char} : ∀ {a b r r' : Line}, c ∉ a → c ∉ b → a ++ c :: r = b ++ c :: r' → a = b ∧ r = r'
  | [], [], _, _, _, _, h => by simpa using h
  | [], d :: b, _, _, _, hb, h => by
    simp only [List.nil_append, List.cons_append, List.cons.injEq] at h
    exact absurd (h.1 ▸ List.mem_cons_self) hb
  | d :: a, [], _, _, ha, _, h => by
    simp only [List.nil_append, List.cons_append, List.cons.injEq] at h
    exact absurd (h.1 ▸ List.mem_cons_self) ha
  | d :: a, e :: b, _, _, ha, hb, h => by
    simp only [List.cons_append, List.cons.injEq] at h
    obtain ⟨h1, h2⟩ := split_unique (fun h => ha (List.mem_cons_of_mem _ h)) (fun h => hb (List.mem_cons_of_mem _ h)) h.2
    exact ⟨by rw [h.1, h1], h2⟩

/-- There is one way to read a text without blanks at a place. -/
theorem shown_unique {line : Line} {start width : ℕ} {t t' : Line} (h : ShownAt line start width t)
    (h' : ShownAt line start width t') (ht : ' ' ∉ t) (ht' : ' ' ∉ t') : t = t' := by
  obtain ⟨-, a, b, hab⟩ := h
  obtain ⟨-, c, d, hcd⟩ := h'
  have key (t : Line) (ht : ' ' ∉ t) (a b : ℕ) :
      (List.replicate a ' ' ++ t ++ List.replicate b ' ').filter (fun c => c != ' ') = t := by
    have hself : t.filter (fun c => c != ' ') = t := List.filter_eq_self.2 fun c hc => by
      simp only [bne_iff_ne]; rintro rfl; exact ht hc
    rw [List.filter_append, List.filter_append, hself]
    simp
  rw [← key t ht a b, ← hab, hcd, key t' ht' c d]

/-- **C82.** Shortest path problems with the same text have the same number of vertices, source, sink and arcs. -/
theorem C82_same_text (A B : SparseMatrix) (hA : Adjacency A) (hB : Adjacency B) (s t s' t' : ℕ) (hs : s < A.major)
    (hs' : s' < B.major) (hrowsA : A.major ≤ 100000) (hcolsA : (arcs A).length ≤ 1000000000)
    (hrowsB : B.major ≤ 100000) (hcolsB : (arcs B).length ≤ 1000000000)
    (h : shortestPath (ShortestPath.new A s t) = shortestPath (ShortestPath.new B s' t')) :
    A.major = B.major ∧ s = s' ∧ t = t' ∧
      (arcs A).map (fun a => (a.source, a.target)) = (arcs B).map fun a => (a.source, a.target) := by
  obtain ⟨-, h1, h2, -, row, -, -, h3⟩ := C82_graph A hA s t hs hrowsA hcolsA
  obtain ⟨-, h1', h2', -, row', -, -, h3'⟩ := C82_graph B hB s' t' hs' hrowsB hcolsB
  rw [h, h1', Option.some.injEq] at h1
  rw [h, h2', Option.some.injEq] at h2
  have htab (n : ℕ) : '\t' ∉ digits n := not_mem_digits rfl n
  have parts (p q : Line) (a b c d : ℕ) (hpq : p ++ digits a ++ ('\t' :: q) ++ digits b = p ++ digits c ++ ('\t' :: q) ++ digits d) :
      a = c ∧ b = d := by
    simp only [List.append_assoc, List.append_cancel_left_eq, List.cons_append] at hpq
    obtain ⟨e1, e2⟩ := split_unique (htab a) (htab c) hpq
    exact ⟨digits_inj e1, digits_inj (List.append_cancel_left e2)⟩
  obtain ⟨hm, hlen⟩ := parts _ _ _ _ _ _ h1
  obtain ⟨es, et⟩ := parts _ _ _ _ _ _ h2
  subst es et
  have hentry (j : ℕ) (hj : j < (arcs A).length) (hj' : j < (arcs B).length) (v : ℕ) (hv : v < A.major) (hvs : v ≠ s') :
      (if (arcs A)[j].target = v then ['1'] else if (arcs A)[j].source = v then ['-', '1'] else ['0']) =
      (if (arcs B)[j].target = v then ['1'] else if (arcs B)[j].source = v then ['-', '1'] else ['0'] : Line) := by
    have hk := keptIndices_getElem (indices := [s']) hv (by simpa using hvs)
    have hk' := keptIndices_getElem (indices := [s']) (hm ▸ hv : v < B.major) (by simpa using hvs)
    obtain ⟨a1, -, a2⟩ := h3 _ v hk
    obtain ⟨b1, -, b2⟩ := h3' _ v hk'
    rw [h, b1, Option.some.injEq] at a1
    have e1 := a2 ⟨j, hj⟩
    have e2 := b2 ⟨j, hj'⟩
    rw [a1] at e2
    refine shown_unique e1 e2 ?_ ?_ <;> split_ifs <;> decide
  refine ⟨hm.symm, rfl, rfl, List.ext_getElem (by simp [hlen]) fun j hj hj' => ?_⟩
  simp only [List.length_map] at hj hj'
  simp only [List.getElem_map, Prod.mk.injEq]
  have hent := hentry j hj hj'
  obtain ⟨a1, a2, a3, -⟩ := arc_ok hA (List.getElem_mem hj)
  obtain ⟨b1, b2, b3, -⟩ := arc_ok hB (List.getElem_mem hj')
  rw [hm] at b1 b2
  generalize (arcs A)[j] = a at *
  generalize (arcs B)[j] = b at *
  have ne1 : (['-', '1'] : Line) ≠ ['1'] := by decide
  have ne2 : (['0'] : Line) ≠ ['1'] := by decide
  have ne3 : (['0'] : Line) ≠ ['-', '1'] := by decide
  have htarget : a.target = b.target := by
    by_cases h1 : a.target = s'
    · by_contra h2
      have h4 := hent b.target b2 fun e => h2 (by rw [h1, e])
      rw [if_neg h2, if_pos rfl] at h4
      split_ifs at h4
      exacts [ne1 h4, ne2 h4]
    · have h4 := hent a.target a2 h1
      rw [if_pos rfl] at h4
      by_contra h2
      rw [if_neg fun e => h2 e.symm] at h4
      split_ifs at h4
      exacts [ne1 h4.symm, ne2 h4.symm]
  refine ⟨?_, htarget⟩
  by_cases h1 : a.source = s'
  · by_contra h2
    have h4 := hent b.source b1 fun e => h2 (by rw [h1, e])
    rw [htarget, if_neg b3.symm, if_neg h2, if_neg b3.symm, if_pos rfl] at h4
    exact ne3 h4
  · by_contra h2
    have h4 := hent a.source a1 h1
    rw [if_neg a3.symm, if_pos rfl, ← htarget, if_neg a3.symm, if_neg fun e => h2 e.symm] at h4
    exact ne3 h4.symm

/-- The graph of the example meets the hypotheses. -/
example : Adjacency Relp.Example.graph ∧ 0 < Relp.Example.graph.major ∧ Relp.Example.graph.major ≤ 100000 ∧
    (arcs Relp.Example.graph).length ≤ 1000000000 :=
  ⟨Relp.Example.graph_ok, by decide, by decide, by decide +kernel⟩

end Graph

end Relp.Display
