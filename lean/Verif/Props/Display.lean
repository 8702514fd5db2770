import Verif.Proof.Display
import Verif.Proof.LUSolve

/-!
# C78: displayed tableaus, basis inverses and vectors

The specification is in `Spec/Display.lean`. `text` is how the number type writes numbers.
-/

namespace Relp.Display

open Spec BasisInverse

variable (text : ℚ → Line)

/-- For the examples: numbers as they are written by `relp_num`. -/
def exampleText (q : ℚ) : Line :=
  (if q < 0 then ['-'] else []) ++ digits q.num.natAbs ++ if q.den = 1 then [] else ['/'] ++ digits q.den

/-- The items of a list, separated by commas. -/
def listed (opening closing : Char) (items : List Line) : Line :=
  [opening] ++ List.intercalate [',', ' '] items ++ [closing]

section Tableau

variable {BI : ℕ → Type} [BasisInverse BI] {m N : ℕ}

theorem generateColumns_iff (t : Tableau BI m N) :
    (∃ columns, generateColumns t = .ok columns) ↔ ∀ j, ∃ info, t.generateColumn j = .ok info := by
  rw [← tabulateM_iff]
  unfold generateColumns
  cases tabulateM fun j => t.generateColumn j <;> simp

theorem generateColumns_get {t : Tableau BI m N} {columns : Fin N → Sparse m}
    (h : generateColumns t = .ok columns) (j : Fin N) :
    ∃ info, t.generateColumn j = .ok info ∧ columns j = infoColumn info := by
  unfold generateColumns at h
  cases ht : tabulateM fun j => t.generateColumn j with
  | error e => simp [ht] at h
  | ok g =>
    simp only [ht, Except.ok.injEq] at h
    subst h
    exact ⟨g j, tabulateM_get ht j, rfl⟩

theorem columnWidth_iff {column : List Line} {j : ℕ} {cost : Line} :
    (∃ w, columnWidth column j cost = .ok w) ↔ column ≠ [] := by
  rw [← maxLength_iff]
  unfold columnWidth
  cases maxLength column <;> simp [bind, Except.bind, pure, Except.pure]

theorem columnWidth_ok {column : List Line} {j : ℕ} {cost : Line} {w : ℕ}
    (h : columnWidth column j cost = .ok w) :
    (∀ l ∈ column, l.length ≤ w) ∧ (digits j).length ≤ w ∧ cost.length ≤ w := by
  unfold columnWidth at h
  cases hm : maxLength column with
  | error e => simp [hm, bind, Except.bind] at h
  | ok v =>
    simp only [hm, bind, Except.bind, pure, Except.pure, Except.ok.injEq] at h
    subst h
    have := maxLength_ok hm
    refine ⟨fun l hl => ?_, ?_, ?_⟩
    · have := this l hl; omega
    · omega
    · omega

theorem table_iff (t : Tableau BI m N) :
    (∃ lines, table text t = .ok lines) ↔ 0 < m ∧ ∀ j, ∃ info, t.generateColumn j = .ok info := by
  rw [← generateColumns_iff]
  unfold table
  cases hc : generateColumns t with
  | error e => simp [bind, Except.bind]
  | ok columns =>
    simp only [bind, Except.bind, pure, Except.pure]
    by_cases hm : m = 0
    · subst hm
      cases (List.finRange N).mapM fun j =>
        columnWidth ((List.finRange 0).map (cell text (columns j))) j (text (t.relativeCost j)) <;>
        simp [maxLength]
    · obtain ⟨ws, hw⟩ := mapM_isOk (l := List.finRange N) (f := fun j : Fin N =>
        columnWidth ((List.finRange m).map (cell text (columns j))) j (text (t.relativeCost j)))
        fun j _ => columnWidth_iff.2 (by simpa using hm)
      obtain ⟨bw, hb⟩ := (maxLength_iff (lines := List.ofFn fun i => text (t.carry.b i))).2 (by simpa using hm)
      rw [hw, hb]
      simp; omega

/-- C78: a tableau can be displayed exactly if it has at least one and at most 9999 rows, its columns can be
computed and its basis inverse can be displayed. -/
theorem C78_tableau_iff (inverse : BI m → Except Failure (List Line)) (t : Tableau BI m N) :
    (∃ lines, tableau text inverse t = .ok lines) ↔
      0 < m ∧ m ≤ 9999 ∧ (∀ j, ∃ info, t.generateColumn j = .ok info) ∧
        ∃ lines, inverse t.carry.basisInverse = .ok lines := by
  have ht := table_iff text t
  have hd : (digits m).length ≤ 4 ↔ m < 10 ^ 4 := digits_length (by omega)
  unfold tableau carry
  by_cases h : 4 < (digits m).length
  · simp only [h, if_true, bind, Except.bind, throw, throwThe, MonadExceptOf.throw]
    simp; omega
  · have hm : m ≤ 9999 := by omega
    simp only [h, if_false, bind, Except.bind, pure, Except.pure, hm, true_and]
    cases htab : table text t with
    | error e =>
      simp only [htab] at ht
      simp; intro h0 hj
      simpa using ht.2 ⟨h0, hj⟩
    | ok lines =>
      simp only [htab] at ht
      obtain ⟨h0, hj⟩ := ht.1 ⟨lines, rfl⟩
      cases inverse t.carry.basisInverse <;> simp [h0, hj]

/-- C78 does not hold for tableaus with more than 9999 rows, or none: they can not be displayed. -/
theorem C78_not_tableau (hm : m = 0 ∨ 9999 < m) (inverse : BI m → Except Failure (List Line))
    (t : Tableau BI m N) : ¬∃ lines, tableau text inverse t = .ok lines := by
  rw [C78_tableau_iff]
  omega

/-- C78: in the text of a tableau, lines 1 to `4 + m` are a table. All its lines are equally long. Line 1 has the
numbers of the columns, line 3 the costs and line `5 + i` row `i`; lines 2 and 4 separate them. For every column
there is one range of positions at which all its entries are shown, in full, with a blank between columns. -/
theorem C78_tableau (htext : ∀ q, text q ≠ []) (inverse : BI m → Except Failure (List Line)) (t : Tableau BI m N) (lines : List Line)
    (h : tableau text inverse t = .ok lines) :
    ∃ (total bStart bWidth : ℕ) (start width : Fin N → ℕ) (header cost : Line) (row : Fin m → Line),
      lines[1]? = some header ∧ lines[2]? = some (List.replicate total '-') ∧ lines[3]? = some cost ∧
      lines[4]? = some (List.replicate total '-') ∧ (∀ i : Fin m, lines[5 + i.val]? = some (row i)) ∧
      header.length = total ∧ cost.length = total ∧ (∀ i, (row i).length = total) ∧
      Separated start width ∧ (∀ j, bStart + bWidth < start j) ∧ 4 < bStart ∧
      (∀ j, ShownAt header (start j) (width j) (digits j.val)) ∧
      (∀ j, ShownAt cost (start j) (width j) (text (t.relativeCost j))) ∧
      (∀ i j info, t.generateColumn j = .ok info →
        ShownAt (row i) (start j) (width j)
          (((SVec.get? (infoColumn info) i).map text).getD [])) ∧
      ShownAt cost bStart bWidth (text (-t.objectiveFunctionValue)) ∧
      (∀ i, ShownAt (row i) bStart bWidth (text (t.carry.b i))) ∧
      ∀ i, ShownAt (row i) 0 4 (digits i.val) := by
  unfold tableau at h
  by_cases hm : 4 < (digits m).length
  · simp [hm, bind, Except.bind, throw, throwThe, MonadExceptOf.throw] at h
  have hm' : m < 10 ^ 4 := (digits_length (by omega)).1 (by omega)
  have hcounter (i : Fin m) : (digits i.val).length ≤ 4 := (digits_length (by omega)).2 (by omega)
  simp only [hm, if_false, bind, Except.bind, pure, Except.pure] at h
  cases htab : table text t with
  | error e => simp [htab] at h
  | ok tab =>
  cases hcar : carry text inverse t.carry with
  | error e => simp [htab, hcar] at h
  | ok rest =>
  simp only [htab, hcar, Except.ok.injEq] at h
  unfold table at htab
  cases hgen : generateColumns t with
  | error e => simp [hgen, bind, Except.bind] at htab
  | ok columns =>
  simp only [hgen, bind, Except.bind, pure, Except.pure] at htab
  split at htab
  · cases htab
  rename_i widths hwidths
  split at htab
  · cases htab
  rename_i bw hbw
  simp only [Except.ok.injEq] at htab
  obtain ⟨hwl, hwidth⟩ := mapM_ok hwidths
  rw [List.length_finRange] at hwl
  set bWidth := max bw (text (-t.objectiveFunctionValue)).length with hbWidth
  have hw' (j : Fin N) : ∃ w, widths[j.val]? = some w ∧
      columnWidth ((List.finRange m).map (cell text (columns j))) j (text (t.relativeCost j)) = .ok w :=
    hwidth j.val j (by simp)
  choose width hwj hcw using hw'
  have hfit (j : Fin N) := columnWidth_ok (hcw j)
  have hbfit (i : Fin m) : (text (t.carry.b i)).length ≤ bWidth := by
    have := maxLength_ok hbw (text (t.carry.b i)) (by simp)
    omega
  have hone : ['b'].length ≤ bWidth := by
    have := List.length_pos_iff.2 (htext (-t.objectiveFunctionValue))
    simp only [List.length_singleton]
    omega
  have hfitH := fits width hwj (f := fun j => digits j.val) fun j => (hfit j).2.1
  have hfitC := fits width hwj (f := fun j => text (t.relativeCost j)) fun j => (hfit j).2.2
  have hfitR (i : Fin m) := fits width hwj (f := fun j => cell text (columns j) i) fun j =>
    (hfit j).1 _ (List.mem_map.2 ⟨i, by simp, rfl⟩)
  have hlen (f : Fin N → Line) : widths.length = ((List.finRange N).map f).length := by simp [hwl]
  rw [range_digits] at htab
  subst h htab
  refine ⟨_, 7, bWidth, fun j => 9 + bWidth + offset widths j, width, _, _,
    fun i => tableauLine (digits i) bWidth (text (t.carry.b i)) widths
      ((List.finRange N).map fun j => cell text (columns j) i),
    rfl, rfl, rfl, rfl, ?_, ?_, ?_, ?_, ?_, ?_, by omega, ?_, ?_, ?_, ?_, ?_, ?_⟩
  · intro i
    simp only [List.cons_append, List.nil_append, List.append_assoc]
    rw [show 5 + i.val = i.val + 1 + 1 + 1 + 1 + 1 by omega]
    simp only [List.getElem?_cons_succ]
    rw [List.getElem?_append_left (by simp)]
    simp
  · exact tableauLine_length (by simp) hone (hlen _) hfitH
  · exact tableauLine_length (by simp) (le_max_right _ _) (hlen _) hfitC
  · exact fun i => tableauLine_length (hcounter i) (hbfit i) (hlen _) (hfitR i)
  · intro j k hjk
    have := offset_separated widths (k := k.val) hjk (hwj j) (by omega)
    dsimp only
    omega
  · intro j
    dsimp only
    unfold offset
    omega
  · exact fun j => tableauLine_cell (by simp) hone (hlen _) hfitH (hwj j) (by simp)
  · exact fun j => tableauLine_cell (by simp) (le_max_right _ _) (hlen _) hfitC (hwj j) (by simp)
  · intro i j info hinfo
    obtain ⟨info', hinfo', hcol⟩ := generateColumns_get hgen j
    rw [hinfo] at hinfo'
    cases hinfo'
    have hcell : ((SVec.get? (infoColumn info) i).map text).getD [] = cell text (columns j) i := by
      unfold cell
      rw [hcol]
      cases SVec.get? (infoColumn info) i <;> rfl
    rw [hcell]
    exact tableauLine_cell (hcounter i) (hbfit i) (hlen _) (hfitR i) (hwj j) (by simp)
  · exact tableauLine_b (by simp) (le_max_right _ _)
  · exact fun i => tableauLine_b (hcounter i) (hbfit i)
  · exact fun i => tableauLine_counter (hcounter i)

/-- C78: after its table, the text of a tableau has for every row the column of its basis variable, once as a pair
and once alone, the negative dual values and the basis inverse. -/
theorem C78_tableau_basis (inverse : BI m → Except Failure (List Line)) (t : Tableau BI m N) (lines : List Line)
    (h : tableau text inverse t = .ok lines) :
    ∃ inverseLines, inverse t.carry.basisInverse = .ok inverseLines ∧
      lines[0]? = some "=== Tableau ===".toList ∧
      lines[5 + m]? = some [] ∧
      lines[6 + m]? = some "=== Basis Columns ===".toList ∧
      lines[7 + m]? = some (listed '[' ']' ((List.finRange m).map fun i : Fin m =>
        listed '(' ')' [digits i.val, digits (t.carry.basisIndices i).val])) ∧
      lines[8 + m]? = some "=== Basis Inverse ===".toList ∧
      lines[9 + m]? = some "Column ordering:".toList ∧
      lines[10 + m]? = some (listed '[' ']' ((List.finRange m).map fun i => digits (t.carry.basisIndices i).val)) ∧
      lines[11 + m]? = some "Minus PI:".toList ∧
      (∀ i : Fin m, lines[12 + m + i.val]? = some (text (t.carry.minusPi i))) ∧
      lines[12 + m + m]? = some [] ∧
      lines[13 + m + m]? = some "B^-1:".toList ∧
      lines.drop (14 + m + m) = inverseLines ++ [[]] := by
  unfold tableau at h
  by_cases hm : 4 < (digits m).length
  · simp [hm, bind, Except.bind, throw, throwThe, MonadExceptOf.throw] at h
  simp only [hm, if_false, bind, Except.bind, pure, Except.pure] at h
  cases htab : table text t with
  | error e => simp [htab] at h
  | ok tab =>
  have hlen : tab.length = 4 + m := by
    unfold table at htab
    cases hgen : generateColumns t with
    | error e => simp [hgen, bind, Except.bind] at htab
    | ok columns =>
    simp only [hgen, bind, Except.bind, pure, Except.pure] at htab
    split at htab
    · cases htab
    split at htab
    · cases htab
    simp only [Except.ok.injEq] at htab
    subst htab
    simp; omega
  unfold carry at h
  cases hinv : inverse t.carry.basisInverse with
  | error e => simp [htab, hinv, bind, Except.bind] at h
  | ok inverseLines =>
  simp only [htab, hinv, bind, Except.bind, pure, Except.pure, Except.ok.injEq] at h
  have hpairs : debugPairs ((List.finRange m).map fun i => (i.val, (t.carry.basisIndices i).val)) =
      listed '[' ']' ((List.finRange m).map fun i : Fin m =>
        listed '(' ')' [digits i.val, digits (t.carry.basisIndices i).val]) := by
    unfold debugPairs listed
    rw [List.map_map]
    congr 2
    simp [List.intercalate, Function.comp_def]
  have hindices : debugIndices ((List.ofFn t.carry.basisIndices).map (·.val)) =
      listed '[' ']' ((List.finRange m).map fun i => digits (t.carry.basisIndices i).val) := by
    unfold debugIndices listed
    rw [List.ofFn_eq_map, List.map_map, List.map_map]
    rfl
  rw [hpairs, hindices] at h
  set pairs := listed '[' ']' ((List.finRange m).map fun i : Fin m =>
        listed '(' ')' [digits i.val, digits (t.carry.basisIndices i).val])
  set indices := listed '[' ']' ((List.finRange m).map fun i => digits (t.carry.basisIndices i).val)
  have hdrop : lines.drop (5 + m) = [] :: "=== Basis Columns ===".toList :: pairs :: "=== Basis Inverse ===".toList ::
      "Column ordering:".toList :: indices :: "Minus PI:".toList ::
        ((List.ofFn t.carry.minusPi).map text ++ ([] :: "B^-1:".toList :: (inverseLines ++ [[]]))) := by
    subst h
    rw [show 5 + m = tab.length + 1 by omega]
    simp [List.drop_append, dense]
  have hget (k : ℕ) : lines[5 + m + k]? = (lines.drop (5 + m))[k]? := by rw [List.getElem?_drop]
  have hat (k n : ℕ) (hk : n = 5 + m + k) : lines[n]? = (lines.drop (5 + m))[k]? := by rw [hk, hget]
  refine ⟨inverseLines, rfl, by subst h; rfl, ?_, ?_, ?_, ?_, ?_, ?_, ?_, fun i => ?_, ?_, ?_, ?_⟩
  · rw [hat 0 _ (by omega), hdrop]; rfl
  · rw [hat 1 _ (by omega), hdrop]; rfl
  · rw [hat 2 _ (by omega), hdrop]; rfl
  · rw [hat 3 _ (by omega), hdrop]; rfl
  · rw [hat 4 _ (by omega), hdrop]; rfl
  · rw [hat 5 _ (by omega), hdrop]; rfl
  · rw [hat 6 _ (by omega), hdrop]; rfl
  · rw [hat (i.val + 1 + 1 + 1 + 1 + 1 + 1 + 1) _ (by omega), hdrop]
    simp only [List.getElem?_cons_succ]
    rw [List.getElem?_append_left (by simp)]
    simp
  · rw [hat (m + 1 + 1 + 1 + 1 + 1 + 1 + 1) _ (by omega), hdrop]
    simp only [List.getElem?_cons_succ]
    rw [List.getElem?_append_right (by simp)]
    simp
  · rw [hat (m + 1 + 1 + 1 + 1 + 1 + 1 + 1 + 1) _ (by omega), hdrop]
    simp only [List.getElem?_cons_succ]
    rw [List.getElem?_append_right (by simp)]
    simp
  · rw [show 14 + m + m = 5 + m + (m + 2 + 1 + 1 + 1 + 1 + 1 + 1 + 1) by omega, ← List.drop_drop, hdrop]
    simp only [List.drop_succ_cons]
    rw [List.drop_append]
    simp

/-- For the examples: a tableau with two rows and three columns. -/
def exampleTableau : Tableau BasisInverseRows 2 3 where
  carry := {
    minusObjective := -3
    minusPi := fun _ => 0
    b := fun i => if i = 0 then 1 / 2 else 10
    basisIndices := fun i => if i = 0 then 2 else 0
    basisInverse := .identity 2 }
  basisColumns := {0, 2}
  kind := {
    start := 0
    cost := fun j => j.val
    column := fun j => if j = 0 then [(1, 1)] else if j = 1 then [(0, -7 / 3), (1, 12)] else [(0, 1)] }

/-- The table of the example. -/
def exampleTable : List Line :=
  ["     |  b  | 0  1   2".toList,
    "---------------------".toList,
    "cost | -3  | 0  1   2".toList,
    "---------------------".toList,
    "   0 | 1/2 |   -7/3 1".toList,
    "   1 | 10  | 1  12   ".toList]

example : table exampleText exampleTableau = .ok exampleTable := by decide +kernel

example : ∃ lines, tableau exampleText (inverseRows exampleText) exampleTableau = .ok lines := by
  rw [C78_tableau_iff]
  exact ⟨by omega, by omega, fun j => ⟨_, rfl⟩, _, rfl⟩

example : (tableau exampleText (inverseRows exampleText) exampleTableau).map (·.drop 7) =
    .ok [[], "=== Basis Columns ===".toList, "[(0, 2), (1, 0)]".toList, "=== Basis Inverse ===".toList,
      "Column ordering:".toList, "[2, 0]".toList, "Minus PI:".toList, "0".toList, "0".toList, [], "B^-1:".toList,
      "  | 0 1".toList, "-------".toList, "0 | 1 0".toList, "1 | 0 1".toList, [], []] := by
  decide +kernel

example : ∀ q, exampleText q ≠ [] := by
  intro q h
  have : (digits q.num.natAbs).length = 0 := by
    simp only [exampleText, List.append_eq_nil_iff] at h
    simp [h.1.2]
  have hpos : 0 < (digits q.num.natAbs).length := Nat.length_toDigits_pos
  omega

end Tableau

section Inverse

variable {m : ℕ}

theorem rows_widths (bi : BasisInverseRows m) {widths : List ℕ}
    (h : ((List.finRange m).mapM fun j : Fin m => (do
      let width ← maxLength ((List.finRange m).map fun i => entry text (bi.rows i) j)
      pure (max (digits j).length width) : Except Failure ℕ)) = .ok widths) :
    widths.length = m ∧ ∃ width : Fin m → ℕ, (∀ j : Fin m, widths[j.val]? = some (width j)) ∧
      ∀ j, (digits j.val).length ≤ width j ∧ ∀ i, (entry text (bi.rows i) j).length ≤ width j := by
  obtain ⟨hl, hw⟩ := mapM_ok h
  have hw' (j : Fin m) := hw j.val j (by simp)
  choose width h1 h2 using hw'
  refine ⟨by simpa using hl, width, h1, fun j => ?_⟩
  have h2j := h2 j
  cases hm : maxLength ((List.finRange m).map fun i => entry text (bi.rows i) j) with
  | error e => simp [hm, bind, Except.bind] at h2j
  | ok w =>
    simp only [hm, bind, Except.bind, pure, Except.pure, Except.ok.injEq] at h2j
    have hmax := maxLength_ok hm
    rw [← h2j]
    refine ⟨le_max_left _ _, fun i => le_trans (hmax _ (List.mem_map.2 ⟨i, by simp, rfl⟩)) (le_max_right _ _)⟩

/-- C78: a basis inverse that is stored by rows can be displayed exactly if it has at least one row. -/
theorem C78_rows_iff (bi : BasisInverseRows m) : (∃ lines, inverseRows text bi = .ok lines) ↔ 0 < m := by
  unfold inverseRows
  by_cases hm : m = 0
  · simp [hm, bind, Except.bind, throw, throwThe, MonadExceptOf.throw]
  · simp only [hm, if_false, bind, Except.bind, pure, Except.pure]
    obtain ⟨ws, hw⟩ := mapM_isOk (l := List.finRange m) (f := fun j : Fin m => (do
      let width ← maxLength ((List.finRange m).map fun i => entry text (bi.rows i) j)
      pure (max (digits j).length width) : Except Failure ℕ)) fun j _ => by
        obtain ⟨w, hw⟩ := (maxLength_iff (lines := (List.finRange m).map fun i => entry text (bi.rows i) j)).2
          (by simpa using hm)
        exact ⟨max (digits j).length w, by simp only [hw, bind, Except.bind, pure, Except.pure]⟩
    simp only [bind, Except.bind, pure, Except.pure] at hw
    simp only [hw]
    simp; omega

/-- C78: the text of a basis inverse that is stored by rows is a table. All its lines are equally long. Line 0 has
the numbers of the columns and line `2 + i` row `i`; line 1 separates them. For every column there is one range of
positions at which all its entries are shown, in full, with a blank between columns. -/
theorem C78_rows (bi : BasisInverseRows m) (lines : List Line) (h : inverseRows text bi = .ok lines) :
    ∃ (total counter : ℕ) (start width : Fin m → ℕ) (header : Line) (row : Fin m → Line),
      lines[0]? = some header ∧ lines[1]? = some (List.replicate total '-') ∧
      (∀ i : Fin m, lines[2 + i.val]? = some (row i)) ∧
      header.length = total ∧ (∀ i, (row i).length = total) ∧
      Separated start width ∧ (∀ j, counter < start j) ∧
      (∀ j, ShownAt header (start j) (width j) (digits j.val)) ∧
      (∀ i j, ShownAt (row i) (start j) (width j) (((SVec.get? (bi.rows i) j).map text).getD ['0'])) ∧
      ∀ i, ShownAt (row i) 0 counter (digits i.val) := by
  unfold inverseRows at h
  by_cases hm : m = 0
  · simp [hm, bind, Except.bind, throw, throwThe, MonadExceptOf.throw] at h
  simp only [hm, if_false, bind, Except.bind, pure, Except.pure] at h
  split at h
  · cases h
  rename_i widths hwidths
  obtain ⟨hl, width, hwj, hfit⟩ := rows_widths text bi (by simpa only [bind, Except.bind, pure, Except.pure] using hwidths)
  simp only [Except.ok.injEq] at h
  rw [range_digits] at h
  have hlen (f : Fin m → Line) : widths.length = ((List.finRange m).map f).length := by simp [hl]
  have hfitH := fits width hwj (f := fun j => digits j.val) fun j => (hfit j).1
  have hfitR (i : Fin m) := fits width hwj (f := entry text (bi.rows i)) fun j => (hfit j).2 i
  set cw := (digits (m - 1)).length with hcw
  have hcounter (i : Fin m) : (digits i.val).length ≤ cw := digits_mono (by omega)
  have hbefore (l : Line) (hl : l.length ≤ cw) : (alignRight cw l ++ [' ', '|']).length = cw + 2 := by
    simp [length_alignRight hl]
  subst h
  refine ⟨_, cw, fun j => cw + 2 + offset widths j, width, _,
    fun i => alignRight cw (digits i) ++ [' ', '|'] ++ cells widths ((List.finRange m).map (entry text (bi.rows i))),
    rfl, rfl, ?_, ?_, ?_, ?_, ?_, ?_, ?_, ?_⟩
  · intro i
    simp only [List.cons_append, List.nil_append, List.append_assoc]
    rw [show 2 + i.val = i.val + 1 + 1 by omega]
    simp only [List.getElem?_cons_succ]
    rw [List.getElem?_append_left (by simp)]
    simp
  · rw [List.length_append, hbefore [] (by simp), length_cells _ _ (hlen _) hfitH]
  · intro i
    rw [List.length_append, hbefore _ (hcounter i), length_cells _ _ (hlen _) (hfitR i)]
  · intro j k hjk
    have := offset_separated widths (k := k.val) hjk (hwj j) (by omega)
    dsimp only
    omega
  · intro j
    dsimp only
    omega
  · intro j
    have := cells_shown (alignRight cw [] ++ [' ', '|']) widths _ (hlen _) hfitH (hwj j)
      (t := digits j.val) (by simp)
    rwa [hbefore [] (by simp)] at this
  · intro i j
    have := cells_shown (alignRight cw (digits i) ++ [' ', '|']) widths _ (hlen _) (hfitR i) (hwj j)
      (t := entry text (bi.rows i) j) (by simp)
    rw [hbefore _ (hcounter i)] at this
    have hcell : ((SVec.get? (bi.rows i) j).map text).getD ['0'] = entry text (bi.rows i) j := by
      unfold entry
      cases SVec.get? (bi.rows i) j <;> rfl
    rw [hcell]
    exact this
  · intro i
    refine ⟨by simp only [List.length_append, length_alignRight (hcounter i)]; omega, cw - (digits i.val).length, 0, ?_⟩
    dsimp only
    rw [List.append_assoc, List.drop_zero, List.take_append_of_le_length
      (le_of_eq (length_alignRight (hcounter i)).symm), List.take_of_length_le (le_of_eq (length_alignRight (hcounter i)))]
    simp [alignRight]

example : inverseRows exampleText (⟨fun i => if i = 0 then [(0, 1 / 2)] else [(0, -15), (1, 1)]⟩ : BasisInverseRows 2) =
    .ok ["  |  0  1".toList, "---------".toList, "0 | 1/2 0".toList, "1 | -15 1".toList, []] := by
  decide +kernel

/-- What remains of C78 for a table of an LU decomposition: if there are at most 1000 rows and no entry needs more
than 9 characters, then entry `j` of a row is shown at position `5 + 10 * j`, with a blank between columns. -/
theorem C78_lu_partial (hm : m ≤ 1000) (entries : Fin m → Fin m → Line) (hentries : ∀ i j, (entries i j).length ≤ 9) :
    ∃ (header : Line) (row : Fin m → Line),
      (triangular entries)[0]? = some header ∧
      (triangular entries)[1]? = some (List.replicate (5 + 10 * m) '-') ∧
      (∀ i : Fin m, (triangular entries)[2 + i.val]? = some (row i)) ∧
      header.length = 5 + 10 * m ∧ (∀ i, (row i).length = 5 + 10 * m) ∧
      (∀ j : Fin m, ShownAt header (5 + 10 * j.val) 9 (digits j.val)) ∧
      (∀ i j, ShownAt (row i) (5 + 10 * j.val) 9 (entries i j)) ∧
      ∀ i, ShownAt (row i) 0 3 (digits i.val) := by
  have hdig (j : Fin m) : (digits j.val).length ≤ 3 := (digits_length (by omega)).2 (by omega)
  have key (counter : Line) (f : Fin m → Line) (hc : counter.length ≤ 3) (hf : ∀ j, (f j).length ≤ 9) :
      (alignRight 3 counter ++ [' ', '|'] ++ (List.finRange m).flatMap fun j => center 10 (f j)).length = 5 + 10 * m ∧
      ∀ j : Fin m, ShownAt (alignRight 3 counter ++ [' ', '|'] ++ (List.finRange m).flatMap fun j => center 10 (f j))
        (5 + 10 * j.val) 9 (f j) := by
    have hblocks : ∀ l ∈ (List.finRange m).map fun j => center 10 (f j), l.length = 10 := by
      intro l hl
      obtain ⟨j, _, rfl⟩ := List.mem_map.1 hl
      exact length_center (by have := hf j; omega)
    have hbefore : (alignRight 3 counter ++ [' ', '|']).length = 5 := by simp [length_alignRight hc]
    have hlen : (alignRight 3 counter ++ [' ', '|'] ++
        (List.finRange m).flatMap fun j => center 10 (f j)).length = 5 + 10 * m := by
      rw [List.length_append, hbefore, List.flatMap_def, flatten_length _ hblocks]
      simp; omega
    refine ⟨hlen, fun j => ⟨by omega, ?_⟩⟩
    have hat := flatten_at _ j.val (center 10 (f j)) hblocks (by simp)
    rw [List.drop_append, List.drop_eq_nil_of_le (by omega), List.nil_append, hbefore, List.flatMap_def,
      show 5 + 10 * j.val - 5 = j.val * 10 by omega]
    obtain ⟨a, b, hab⟩ := take_center (hf j)
    refine ⟨a, b, ?_⟩
    rw [← hab, ← hat, List.take_take]
    congr 1
  have hrow (i : Fin m) := key (digits i.val) (entries i) (hdig i) (hentries i)
  have hhead := key [] (fun j => digits j.val) (by simp) fun j => le_trans (hdig j) (by omega)
  have hrange : ((List.range m).flatMap fun j => center 10 (digits j)) =
      (List.finRange m).flatMap fun j : Fin m => center 10 (digits j.val) := by
    rw [← List.map_coe_finRange_eq_range, List.flatMap_map]
  refine ⟨_, _, rfl, ?_, fun i => ?_, ?_, fun i => (hrow i).1, ?_, fun i j => (hrow i).2 j, ?_⟩
  · simp [triangular]; omega
  · unfold triangular
    rw [show 2 + i.val = i.val + 1 + 1 by omega]
    simp only [List.cons_append, List.nil_append, List.getElem?_cons_succ]
    simp
  · rw [hrange]; exact hhead.1
  · rw [hrange]; exact hhead.2
  · intro i
    refine ⟨by rw [(hrow i).1]; omega, 3 - (digits i.val).length, 0, ?_⟩
    rw [List.append_assoc, List.drop_zero, List.take_append_of_le_length
      (le_of_eq (length_alignRight (hdig i)).symm), List.take_of_length_le (le_of_eq (length_alignRight (hdig i)))]
    simp [alignRight]

example (i j : Fin 2) : ((fun i j : Fin 2 => digits (i.val + j.val + 41)) i j).length ≤ 9 := by
  revert i j
  decide +kernel

/-- **C78**, what remains of it for an LU decomposition: under the same conditions, both triangular matrices are
shown, the lower one with its unit diagonal, zeros as `0` on one side of the diagonal and as blanks on the other. -/
theorem C78_lu_matrices_partial (hm : m ≤ 1000) (lu : LU m) (rest : List Line)
    (hl : ∀ j h, SVec.WF (lu.lowerColumn j h)) (hu : ∀ j h, SVec.WF (lu.upperColumn j h))
    (lower upper : Fin m → Fin m → Line)
    (hlower : ∀ i j, lower i j =
      if i < j then [] else if i = j then ['1']
      else if lu.lowerMatrix i j = 0 then ['0'] else text (lu.lowerMatrix i j))
    (hupper : ∀ i j, upper i j =
      if j < i then [] else if i = j then text (lu.upperDiagonal j)
      else if lu.upperMatrix i j = 0 then ['0'] else text (lu.upperMatrix i j))
    (hlower9 : ∀ i j, (lower i j).length ≤ 9) (hupper9 : ∀ i j, (upper i j).length ≤ 9) :
    ∃ rowLower rowUpper : Fin m → Line,
      (inverseLU text rest lu)[0]? = some "Lower:".toList ∧
      (∀ i : Fin m, (inverseLU text rest lu)[3 + i.val]? = some (rowLower i)) ∧
      (inverseLU text rest lu)[4 + m]? = some "Upper:".toList ∧
      (∀ i : Fin m, (inverseLU text rest lu)[7 + m + i.val]? = some (rowUpper i)) ∧
      ∀ i j, ShownAt (rowLower i) (5 + 10 * j.val) 9 (lower i j) ∧
        ShownAt (rowUpper i) (5 + 10 * j.val) 9 (upper i j) := by
  have hentry {v : Sparse m} (hv : SVec.WF v) (i : Fin m) :
      entry text v i = if SVec.val v i = 0 then ['0'] else text (SVec.val v i) := by
    unfold entry
    rw [SVec.get?_eq hv]
    split_ifs <;> rfl
  have hlow : lowerEntry text lu = lower := by
    funext i j
    rw [hlower]
    unfold lowerEntry
    by_cases h1 : i < j
    · rw [if_pos h1, if_pos h1]
    by_cases h2 : i = j
    · rw [if_neg h1, if_neg h1, if_pos h2, if_pos h2]
    have hj : j.val < m - 1 := by omega
    have e : lu.lowerMatrix i j = SVec.val (lu.lowerColumn j hj) i := by
      simp [LU.lowerMatrix, h2, hj]
    rw [if_neg h1, if_neg h1, if_neg h2, if_neg h2, dif_pos hj, hentry (hl j hj), e]
  have hup : upperEntry text lu = upper := by
    funext i j
    rw [hupper]
    unfold upperEntry
    by_cases h1 : j < i
    · rw [if_pos h1, if_pos h1]
    by_cases h2 : i = j
    · rw [if_neg h1, if_neg h1, if_pos h2, if_pos h2]
    have hj : 0 < j.val := by omega
    have e : lu.upperMatrix i j = SVec.val (lu.upperColumn j hj) i := by
      simp [LU.upperMatrix, h2, hj]
    rw [if_neg h1, if_neg h1, if_neg h2, if_neg h2, dif_pos hj, hentry (hu j hj), e]
  obtain ⟨_, rowL, _, _, l1, _, _, _, l2, _⟩ := C78_lu_partial hm lower hlower9
  obtain ⟨_, rowU, _, _, u1, _, _, _, u2, _⟩ := C78_lu_partial hm upper hupper9
  have hlen (f : Fin m → Fin m → Line) : (triangular f).length = 2 + m := by
    unfold triangular
    rw [List.length_append, List.length_map, List.length_finRange]
    rfl
  have one (l : Line) : [l].length = 1 := rfl
  have two (l l' : Line) : [l, l'].length = 2 := rfl
  refine ⟨rowL, rowU, rfl, fun i => ?_, ?_, fun i => ?_, fun i j => ⟨l2 i j, u2 i j⟩⟩
  · rw [← l1 i, inverseLU, hlow, hup]
    simp only [List.append_assoc]
    rw [List.getElem?_append_right (by rw [one]; omega), List.getElem?_append_left (by rw [one, hlen]; omega), one,
      show 3 + i.val - 1 = 2 + i.val by omega]
  · rw [inverseLU, hlow, hup]
    simp only [List.append_assoc]
    rw [List.getElem?_append_right (by rw [one]; omega), List.getElem?_append_right (by rw [one, hlen]; omega), one,
      hlen, show 4 + m - 1 - (2 + m) = 1 by omega]
    rfl
  · rw [← u1 i, inverseLU, hlow, hup]
    simp only [List.append_assoc]
    rw [List.getElem?_append_right (by rw [one]; omega), List.getElem?_append_right (by rw [one, hlen]; omega),
      List.getElem?_append_right (by rw [one, hlen, two]; omega),
      List.getElem?_append_left (by rw [one, hlen, two, hlen]; omega), one, hlen, two,
      show 7 + m + i.val - 1 - (2 + m) - 2 = 2 + i.val by omega]

/-- For the witness: an LU decomposition with two rows. -/
def exampleLU (diagonal entry : ℚ) : LU 2 where
  rowPermutation := .identity 2
  columnPermutation := .identity 2
  lowerTriangular := fun _ => []
  upperTriangular := fun _ => [(0, entry)]
  upperDiagonal := fun i => if i = 0 then diagonal else 1
  updates := []

/-- C78 does not hold for the text of an LU decomposition: entries can run together, and then different
decompositions have the same text. -/
theorem C78_not_lu :
    inverseLU exampleText [] (exampleLU 1234567890 12345678901) =
      inverseLU exampleText [] (exampleLU 12345678901 2345678901) ∧
    (exampleLU 1234567890 12345678901).upperDiagonal 0 ≠ (exampleLU 12345678901 2345678901).upperDiagonal 0 := by
  decide +kernel

example : inverseLU exampleText [] (exampleLU (3 / 2) (-7)) =
    ["Lower:".toList,
      "    |    0         1     ".toList,
      "-------------------------".toList,
      "  0 |    1               ".toList,
      "  1 |    0         1     ".toList,
      [],
      "Upper:".toList,
      "    |    0         1     ".toList,
      "-------------------------".toList,
      "  0 |   3/2        -7    ".toList,
      "  1 |              1     ".toList,
      []] := by
  decide +kernel

end Inverse

section Vector

/-- C78: the text of a sparse vector is the list of its entries exactly if all entries but the last are at the
indices 0, 1, 2, …. For other vectors, separators are missing. -/
theorem C78_vector_iff (v : SVec ℕ) (hv : SVec.WF v) :
    sparse text v = listed '[' ']' (v.map fun p => ['('] ++ digits p.1 ++ [' '] ++ text p.2 ++ [')']) ↔
      ∀ (k i : ℕ) (q : ℚ), k + 1 < v.length → v[k]? = some (i, q) → i = k := by
  rcases List.eq_nil_or_concat v with rfl | ⟨l, last, rfl⟩
  · simp [sparse, listed, List.intercalate]
  rw [List.concat_eq_append] at *
  set part : ℕ × ℚ → Line := fun p => ['('] ++ digits p.1 ++ [' '] ++ text p.2 ++ [')'] with hpart
  have hsorted : ((l ++ [last]).map (·.1)).Pairwise (· < ·) := by
    rw [List.pairwise_map]; exact hv.sorted
  have hsortedl : (l.map (·.1)).Pairwise (· < ·) := by
    rw [List.map_append, List.pairwise_append] at hsorted
    exact hsorted.1
  have hlen : (l ++ [last]).length - 1 = l.length := by simp
  have hlast : ¬last.1 < l.length := by
    have := position_le _ 0 (by simp) hsorted l.length last.1 (by simp)
    omega
  unfold sparse listed
  rw [hlen, List.append_left_inj, List.append_right_inj]
  have hget (k : ℕ) (hk : k < l.length) : (l ++ [last])[k]? = l[k]? := List.getElem?_append_left hk
  constructor
  · intro h
    have hl := congrArg List.length h
    have h1 := length_parts part (fun p : ℕ × ℚ => p.1 < l.length) (l ++ [last])
    have h2 := length_intercalate part last l
    rw [hl, h2] at h1
    have hcount : l.countP (fun p => decide (p.1 < l.length)) = l.length := by
      rw [List.countP_append] at h1
      simp [hlast] at h1
      omega
    rw [List.countP_eq_length] at hcount
    intro k i q hk hq
    have hk' : k < l.length := by simp at hk; omega
    rw [hget k hk'] at hq
    have := position_eq (l.map (·.1)) 0 (by simp) hsortedl (by
      intro a ha
      obtain ⟨p, hp, rfl⟩ := List.mem_map.1 ha
      simpa using hcount p hp) k i (by simp [hq])
    omega
  · intro h
    refine separate part [',', ' '] (fun p : ℕ × ℚ => p.1 < l.length) last hlast l ?_
    intro p hp
    obtain ⟨k, hk, rfl⟩ := List.getElem_of_mem hp
    have := h k (l[k]).1 (l[k]).2 (by simp; omega) (by rw [hget k hk, List.getElem?_eq_getElem hk])
    omega

/-- C78 does not hold for all sparse vectors. -/
theorem C78_not_vector :
    ∃ v : SVec ℕ, SVec.WF v ∧ sparse exampleText v ≠
      listed '[' ']' (v.map fun p => ['('] ++ digits p.1 ++ [' '] ++ exampleText p.2 ++ [')']) :=
  ⟨[(5, 1), (7, 2)], by decide, by decide +kernel⟩

example : SVec.WF ([(0, 3), (1, -1), (9, 1)] : SVec ℕ) ∧
    sparse exampleText [(0, 3), (1, -1), (9, 1)] = "[(0 3), (1 -1), (9 1)]".toList := by
  constructor
  · decide
  · decide +kernel

/-- C78: the text of a permutation is the list of its values. -/
theorem C78_permutation (forward : List ℕ) : permutation forward = listed '(' ')' (forward.map digits) := by
  unfold permutation listed
  cases forward with
  | nil => simp [List.intercalate]
  | cons i rest =>
    simp only
    congr 2
    induction rest generalizing i with
    | nil => simp [List.intercalate]
    | cons k rest ih =>
      have := ih k
      simp [List.intercalate] at this ⊢
      exact this

end Vector

end Relp.Display
