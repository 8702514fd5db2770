import Verif.Proof.MatrixData
import Verif.Spec.ColumnRange

/-!
# The data that the column range example builds
-/

namespace Relp

namespace ColumnRange

variable {m n : ℕ}

/-! ### Transposition -/

/-- The tuples that a row contributes to column `c`. -/
def rowPart (c : ℕ) (p : SVec ℕ × ℕ) : SVec ℕ :=
  p.1.filterMap fun q => if q.1 = c then some (p.2, q.2) else none

theorem modify_row (row : SVec ℕ) (r : ℕ) (columns : List (SVec ℕ)) :
    (row.foldl (fun columns q => columns.modify q.1 (· ++ [(r, q.2)])) columns).length =
        columns.length ∧
      ∀ c < columns.length,
        (row.foldl (fun columns q => columns.modify q.1 (· ++ [(r, q.2)])) columns).getD c [] =
          columns.getD c [] ++ rowPart c (row, r) := by
  induction row generalizing columns with
  | nil => exact ⟨rfl, fun c _ => by simp [rowPart]⟩
  | cons q row ih =>
    obtain ⟨h1, h2⟩ := ih (columns.modify q.1 (· ++ [(r, q.2)]))
    rw [List.length_modify] at h1 h2
    refine ⟨h1, fun c hc => ?_⟩
    rw [List.foldl_cons, h2 c hc]
    simp only [rowPart, List.getD_eq_getElem?_getD, List.getElem?_modify]
    rw [List.getElem?_eq_getElem hc]
    by_cases hq : q.1 = c
    · simp [hq]
    · simp [hq]

theorem transpose_append (nrColumns : ℕ) (rows : List (SVec ℕ)) (row : SVec ℕ) :
    transpose nrColumns (rows ++ [row]) =
      row.foldl (fun columns q => columns.modify q.1 (· ++ [(rows.length, q.2)]))
        (transpose nrColumns rows) := by
  unfold transpose
  rw [List.zipIdx_append, List.foldl_append]
  simp

theorem transpose_spec (nrColumns : ℕ) (rows : List (SVec ℕ)) :
    (transpose nrColumns rows).length = nrColumns ∧
      ∀ c < nrColumns, (transpose nrColumns rows).getD c [] = rows.zipIdx.flatMap (rowPart c) := by
  induction rows using List.reverseRecOn with
  | nil =>
    refine ⟨by simp [transpose], fun c hc => ?_⟩
    simp [transpose, List.getD_eq_getElem?_getD, hc]
  | append_singleton rows row ih =>
    obtain ⟨h1, h2⟩ := modify_row row rows.length (transpose nrColumns rows)
    rw [transpose_append]
    refine ⟨h1.trans ih.1, fun c hc => ?_⟩
    rw [h2 c (by rw [ih.1]; exact hc), ih.2 c hc, List.zipIdx_append, List.flatMap_append]
    simp

theorem val_rowPart (row : SVec ℕ) (r c i : ℕ) :
    SVec.val (rowPart c (row, r)) i = if r = i then SVec.val row c else 0 := by
  induction row with
  | nil => simp [rowPart, SVec.val]
  | cons q row ih =>
    unfold rowPart at ih ⊢
    simp only [List.filterMap_cons]
    by_cases hq : q.1 = c
    · rw [if_pos hq]
      simp only [SVec.val_cons, ih, if_pos hq]
      split <;> simp
    · rw [if_neg hq]
      simp only [SVec.val_cons, ih, if_neg hq, zero_add]

/-- The entry of the transposed matrix. -/
theorem val_transpose (nrColumns : ℕ) (rows : List (SVec ℕ)) {c : ℕ} (hc : c < nrColumns) (i : ℕ) :
    SVec.val ((transpose nrColumns rows).getD c []) i = SVec.val (rows.getD i []) c := by
  rw [(transpose_spec nrColumns rows).2 c hc]
  induction rows using List.reverseRecOn with
  | nil => rfl
  | append_singleton rows row ih =>
    rw [List.zipIdx_append, List.flatMap_append, SVec.val_append', ih]
    simp only [Nat.zero_add, List.zipIdx_cons, List.zipIdx_nil, List.flatMap_cons, List.flatMap_nil,
      List.append_nil, val_rowPart, List.getD_eq_getElem?_getD]
    rcases Nat.lt_trichotomy i rows.length with h | h | h
    · rw [if_neg (by omega), List.getElem?_append_left h, add_zero]
    · subst h
      simp [SVec.val]
    · rw [if_neg (by omega), List.getElem?_eq_none h.le, List.getElem?_eq_none (by simp; omega),
        add_zero]

theorem rowPart_fst {c : ℕ} {p : SVec ℕ × ℕ} {q : ℕ × ℚ} (h : q ∈ rowPart c p) : q.1 = p.2 := by
  obtain ⟨a, -, h2⟩ := List.mem_filterMap.1 h
  split_ifs at h2
  cases h2
  rfl

theorem rowPart_pairwise {row : SVec ℕ} (h : (row.map (·.1)).Nodup) (c r : ℕ) :
    (rowPart c (row, r)).Pairwise fun a b => a.1 < b.1 := by
  unfold rowPart
  rw [List.pairwise_filterMap]
  have := List.pairwise_map.1 h
  refine this.imp fun {a b} hab x hx y hy => ?_
  split_ifs at hx hy with h1 h2
  exact absurd (h1.trans h2.symm) hab

theorem wf_transpose {nrColumns : ℕ} {rows : List (SVec ℕ)} (h : ∀ row ∈ rows, (row.map (·.1)).Nodup)
    (hz : ∀ row ∈ rows, ∀ q ∈ row, q.2 ≠ 0) :
    ∀ v ∈ transpose nrColumns rows, SVec.WF v ∧ ∀ p ∈ v, p.1 < rows.length := by
  intro v hv
  obtain ⟨c, hc, rfl⟩ := List.mem_iff_getElem.1 hv
  obtain ⟨h1, h2⟩ := transpose_spec nrColumns rows
  have := h2 c (h1 ▸ hc)
  rw [List.getD_eq_getElem?_getD, List.getElem?_eq_getElem hc, Option.getD_some] at this
  rw [this]
  have hmem : ∀ p ∈ rows.zipIdx, p.1 ∈ rows ∧ p.2 < rows.length := by
    intro p hp
    have h3 := List.mem_zipIdx_iff_getElem?.1 hp
    obtain ⟨h4, h5⟩ := List.getElem?_eq_some_iff.1 h3
    exact ⟨h5 ▸ List.getElem_mem h4, h4⟩
  refine ⟨⟨?_, ?_⟩, ?_⟩
  · rw [List.pairwise_flatMap]
    refine ⟨fun p hp => rowPart_pairwise (h p.1 (hmem p hp).1) c p.2, ?_⟩
    have : rows.zipIdx.Pairwise fun p q => p.2 < q.2 := by
      rw [← List.pairwise_map (f := Prod.snd), List.zipIdx_map_snd]
      exact List.pairwise_lt_range'
    refine this.imp ?_
    intro p q hpq a ha b hb
    rw [rowPart_fst ha, rowPart_fst hb]
    exact hpq
  · intro q hq
    obtain ⟨p, hp, hq⟩ := List.mem_flatMap.1 hq
    obtain ⟨a, ha, h3⟩ := List.mem_filterMap.1 hq
    split_ifs at h3
    cases h3
    exact hz p.1 (hmem p hp).1 a ha
  · intro q hq
    obtain ⟨p, hp, hq⟩ := List.mem_flatMap.1 hq
    rw [rowPart_fst hq]
    exact (hmem p hp).2

/-! ### The loops -/

/-- A value of the input with its row and column. -/
abbrev Cell (m n : ℕ) := Fin m × Fin n × ℤ

/-- The values in the order of the loops. -/
def cells (input : Input m n) : List (Cell m n) :=
  (List.finRange n).flatMap fun j => (List.finRange m).filterMap fun i =>
    (input i j).map fun v => (i, j, v)

theorem mem_cells {input : Input m n} {c : Cell m n} : c ∈ cells input ↔ input c.1 c.2.1 = some c.2.2 := by
  obtain ⟨i, j, v⟩ := c
  simp only [cells, List.mem_flatMap, List.mem_filterMap, List.mem_finRange, true_and,
    Option.map_eq_some_iff, Prod.mk.injEq]
  constructor
  · rintro ⟨j', i', v', h, rfl, rfl, rfl⟩
    exact h
  · intro h
    exact ⟨j, i, v, h, rfl, rfl, rfl⟩

theorem loop_eq (offset slack : ℕ) (extreme : List ℤ) (input : Input m n) (s : State) :
    loop offset slack extreme input s =
      (cells input).foldl (fun s c => add offset slack extreme s c.1 c.2.1 c.2.2) s := by
  unfold loop cells
  rw [List.foldl_flatMap]
  congr 1
  funext s j
  rw [List.foldl_filterMap]
  congr 1
  funext s i
  cases input i j <;> rfl

/-- The cell has the extreme value of its column, and none of the cells before it has. -/
def First (extreme : Fin n → ℤ) (before : List (Cell m n)) (c : Cell m n) : Prop :=
  c.2.2 = extreme c.2.1 ∧ ∀ d ∈ before, d.2.1 = c.2.1 → d.2.2 ≠ extreme c.2.1

instance (extreme : Fin n → ℤ) (before : List (Cell m n)) (c : Cell m n) :
    Decidable (First extreme before c) := by unfold First; infer_instance

/-- The constraint of a cell. -/
def rowOf (offset : ℕ) (c : Cell m n) : SVec ℕ := [(c.1.val, 1), (offset + c.2.1.val, 1)]

/-- The basis column of the `k`-th cell. -/
def basisOf (offset slack : ℕ) (extreme : Fin n → ℤ) (L : List (Cell m n)) (k : ℕ) (c : Cell m n) : ℕ :=
  if First extreme (L.take k) c then offset + c.2.1.val else slack + k

theorem loop_spec (offset slack : ℕ) {e : List ℤ} (extreme : Fin n → ℤ)
    (he : ∀ j : Fin n, e.getD j 0 = extreme j) (L : List (Cell m n)) (rows : List (SVec ℕ)) (b : List ℚ)
    (basis : List ℕ) :
    ∃ had : List Bool,
      L.foldl (fun s c => add offset slack e s c.1 c.2.1 c.2.2)
          ⟨rows, b, basis, 0, List.replicate n false⟩ =
        ⟨rows ++ L.map (rowOf offset), b ++ L.map (fun c => (c.2.2 : ℚ)),
          basis ++ L.mapIdx (basisOf offset slack extreme L), L.length, had⟩ ∧
      had.length = n ∧
      ∀ j : Fin n, had.getD j false = true ↔ ∃ d ∈ L, d.2.1 = j ∧ d.2.2 = extreme j := by
  induction L using List.reverseRecOn with
  | nil =>
    refine ⟨List.replicate n false, by simp, by simp, fun j => ?_⟩
    simp [List.getD_eq_getElem?_getD]
  | append_singleton L c ih =>
    obtain ⟨had, h1, h2, h3⟩ := ih
    rw [List.foldl_append, h1]
    have hiff : (c.2.2 = e.getD c.2.1 0 ∧ ¬ had.getD c.2.1 false = true) ↔ First extreme L c := by
      rw [he, h3, First]
      refine and_congr_right fun _ => ?_
      push Not
      rfl
    have hb : (L ++ [c]).mapIdx (basisOf offset slack extreme (L ++ [c])) =
        L.mapIdx (basisOf offset slack extreme L) ++
          [if First extreme L c then offset + c.2.1.val else slack + L.length] := by
      rw [List.mapIdx_append]
      congr 1
      · rw [List.mapIdx_eq_mapIdx_iff]
        intro i hi
        simp only [basisOf, List.take_append_of_le_length hi.le]
      · simp [basisOf]
    refine ⟨if First extreme L c then had.set c.2.1 true else had, ?_, ?_, fun j => ?_⟩
    · simp only [List.foldl_cons, List.foldl_nil, add, hiff, hb]
      simp [rowOf]
    · split <;> simp [h2]
    · have hext : (∃ d ∈ L ++ [c], d.2.1 = j ∧ d.2.2 = extreme j) ↔
          (∃ d ∈ L, d.2.1 = j ∧ d.2.2 = extreme j) ∨ (c.2.1 = j ∧ c.2.2 = extreme j) := by
        simp only [List.mem_append, List.mem_singleton, or_and_right, exists_or, exists_eq_left]
      rw [hext, ← h3]
      by_cases hF : First extreme L c
      · rw [if_pos hF, List.getD_eq_getElem?_getD, List.getElem?_set]
        by_cases hj : c.2.1 = j
        · subst hj
          rw [if_pos rfl, if_pos (by rw [h2]; exact c.2.1.2)]
          simp [hF.1]
        · rw [if_neg (fun h => hj (Fin.ext h)), ← List.getD_eq_getElem?_getD]
          simp [hj]
      · rw [if_neg hF]
        refine ⟨Or.inl, fun h => h.elim id ?_⟩
        rintro ⟨rfl, h5⟩
        by_contra h6
        rw [h3] at h6
        exact hF ⟨h5, fun d hd h7 h8 => h6 ⟨d, hd, h7, h8⟩⟩

end ColumnRange

end Relp
