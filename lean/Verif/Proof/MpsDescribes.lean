import Verif.Proof.MpsFile
import Verif.Proof.MpsRows

/-!
# Running through the contents of a file gives the program that it describes
-/

namespace Relp.Mps

open Spec

/-! ### Sorting -/

theorem textLe_refl (s : Text) : textLe s s = true := by
  induction s with
  | nil => rfl
  | cons a s ih => rw [textLe, if_pos rfl, ih]

theorem textLe_total (s t : Text) : textLe s t = true ∨ textLe t s = true := by
  induction s generalizing t with
  | nil => exact Or.inl (by cases t <;> rfl)
  | cons a s ih =>
    cases t with
    | nil => exact Or.inr rfl
    | cons b t =>
      unfold textLe
      by_cases h : a = b
      · rw [if_pos h, if_pos h.symm]; exact ih t
      · rw [if_neg h, if_neg (Ne.symm h)]
        have : a.toNat ≠ b.toNat := fun e => h (Char.toNat_inj.1 e)
        simp only [decide_eq_true_eq]
        omega

theorem textLe_antisymm {s t : Text} (h1 : textLe s t = true) (h2 : textLe t s = true) : s = t := by
  induction s generalizing t with
  | nil =>
    cases t with
    | nil => rfl
    | cons b t => cases h2
  | cons a s ih =>
    cases t with
    | nil => cases h1
    | cons b t =>
      unfold textLe at h1 h2
      by_cases h : a = b
      · subst h
        rw [if_pos rfl] at h1 h2
        rw [ih h1 h2]
      · rw [if_neg h] at h1
        rw [if_neg (Ne.symm h)] at h2
        simp only [decide_eq_true_eq] at h1 h2
        omega

theorem textLe_trans {s t u : Text} (h1 : textLe s t = true) (h2 : textLe t u = true) : textLe s u = true := by
  induction s generalizing t u with
  | nil => cases u <;> rfl
  | cons a s ih =>
    cases t with
    | nil => cases h1
    | cons b t =>
      cases u with
      | nil => cases h2
      | cons c u =>
        unfold textLe at h1 h2 ⊢
        by_cases hab : a = b
        · subst hab
          rw [if_pos rfl] at h1
          by_cases hac : a = c
          · subst hac
            rw [if_pos rfl] at h2 ⊢
            exact ih h1 h2
          · rw [if_neg hac] at h2 ⊢
            exact h2
        · rw [if_neg hab] at h1
          simp only [decide_eq_true_eq] at h1
          by_cases hbc : b = c
          · subst hbc
            rw [if_neg hab]
            simpa using h1
          · rw [if_neg hbc] at h2
            simp only [decide_eq_true_eq] at h2
            rw [if_neg (by rintro rfl; omega)]
            simp only [decide_eq_true_eq]
            omega

/-- In a sorted list, equal names are next to each other. -/
theorem adjacent_names {rows : List Row} (hs : rows.Pairwise fun a b => textLe a.name b.name = true) :
    ((rows.zip rows.tail).any fun w => w.1.name = w.2.name) = false ↔ (rows.map (·.name)).Nodup := by
  induction rows with
  | nil => simp
  | cons a rows ih =>
    cases rows with
    | nil => simp
    | cons b rows =>
      obtain ⟨h1, h2⟩ := List.pairwise_cons.1 hs
      have ih := ih h2
      rw [List.tail_cons] at ih
      rw [List.tail_cons, List.zip_cons_cons, List.any_cons, Bool.or_eq_false_iff, List.map_cons, List.nodup_cons, ih]
      refine and_congr_left fun _ => ?_
      simp only [decide_eq_false_iff_not]
      constructor
      · intro hab hm
        rw [List.map_cons, List.mem_cons] at hm
        rcases hm with hm | hm
        · exact hab hm
        · obtain ⟨c, hc, he⟩ := List.mem_map.1 hm
          have hbc := (List.pairwise_cons.1 h2).1 c hc
          rw [he] at hbc
          exact hab (textLe_antisymm (h1 b (by simp)) hbc)
      · intro hm hab
        exact hm (by rw [hab]; simp)

theorem sortedUnlessDuplicate_eq {α : Type} (l : List (ℕ × α)) :
    sortedUnlessDuplicate l = if (l.map (·.1)).Nodup then .ok (sortByIndex l) else .error .inconsistency := by
  unfold sortedUnlessDuplicate
  have hp : (sortByIndex l).Perm l := List.perm_insertionSort _ _
  by_cases h : hasAdjacentDuplicate (sortByIndex l) = true
  · rw [if_pos h, if_neg]
    rw [← (hp.map (·.1)).nodup_iff]
    exact duplicate_of_hasAdjacentDuplicate h
  · rw [if_neg h, if_pos]
    have := strict_of_no_duplicate (sortByIndex_sorted l) (by simpa using h)
    rw [← (hp.map (·.1)).nodup_iff, List.nodup_iff_pairwise_ne, List.pairwise_map]
    exact this.imp fun h => ne_of_lt h

theorem sortByIndex_strict {α : Type} {l : List (ℕ × α)} (h : (l.map (·.1)).Nodup) :
    (sortByIndex l).Pairwise fun p q => p.1 < q.1 := by
  refine strict_of_no_duplicate (sortByIndex_sorted l) ?_
  by_contra hc
  have := duplicate_of_hasAdjacentDuplicate (by simpa using hc : hasAdjacentDuplicate (sortByIndex l) = true)
  exact this (((List.perm_insertionSort _ l).map (·.1)).nodup_iff.2 h)

/-! ### Looking up names -/

theorem rowIndex_some {rows : List Row} {name : Text} {i : ℕ} (h : rowIndex rows name = some i) :
    (rows[i]?).map (·.name) = some name := by
  unfold rowIndex at h
  simp only at h
  split at h
  · rename_i hi
    cases h
    have := List.findIdx_getElem (w := hi)
    rw [List.getElem?_eq_getElem hi]
    simpa using this
  · cases h

theorem rowIndex_none {rows : List Row} {name : Text} : rowIndex rows name = none ↔ name ∉ rows.map (·.name) := by
  unfold rowIndex
  simp only
  split
  · rename_i hi
    simp only [reduceCtorEq, false_iff, not_not]
    have := List.findIdx_getElem (w := hi)
    exact List.mem_map.2 ⟨_, List.getElem_mem hi, by simpa using this⟩
  · rename_i hi
    simp only [true_iff]
    intro hm
    obtain ⟨r, hr, he⟩ := List.mem_map.1 hm
    exact hi (List.findIdx_lt_length_of_exists ⟨r, hr, by simpa using he⟩)

theorem columnIndex_some {columns : List Column} {name : Text} {j : ℕ} (h : columnIndex columns name = some j) :
    (columns[j]?).map (·.name) = some name := by
  unfold columnIndex at h
  simp only at h
  split at h
  · rename_i hi
    cases h
    have hi' : columns.reverse.findIdx (fun column => decide (column.name = name)) < columns.reverse.length := by
      rwa [List.length_reverse]
    have := List.findIdx_getElem (w := hi')
    rw [List.getElem_reverse] at this
    rw [List.getElem?_eq_getElem (by omega)]
    simpa using this
  · cases h

theorem columnIndex_none {columns : List Column} {name : Text} :
    columnIndex columns name = none ↔ name ∉ columns.map (·.name) := by
  unfold columnIndex
  simp only
  split
  · rename_i hi
    simp only [reduceCtorEq, false_iff, not_not]
    have hi' : columns.reverse.findIdx (fun column => decide (column.name = name)) < columns.reverse.length := by
      rwa [List.length_reverse]
    have := List.findIdx_getElem (w := hi')
    exact List.mem_map.2 ⟨_, List.mem_reverse.1 (List.getElem_mem hi'), by simpa using this⟩
  · rename_i hi
    simp only [true_iff]
    intro hm
    obtain ⟨r, hr, he⟩ := List.mem_map.1 hm
    have := List.findIdx_lt_length_of_exists (p := fun column : Column => decide (column.name = name))
      ⟨r, List.mem_reverse.2 hr, by simpa using he⟩
    rw [List.length_reverse] at this
    exact hi this

/-! ### Values of entries -/

/-- The values of the entries for constraints. -/
def vals (rows : List Row) (l : List Entry) : List (ℕ × ℚ) :=
  l.filterMap fun e => (rowIndex rows e.row).map fun i => (i, e.number.value)

theorem vals_append (rows : List Row) (l m : List Entry) : vals rows (l ++ m) = vals rows l ++ vals rows m :=
  List.filterMap_append

theorem vals_names (rows : List Row) (l : List Entry) :
    (vals rows l).map (fun q => ((rows[q.1]?).map (·.name), q.2)) =
      (l.filter fun e => (rowIndex rows e.row).isSome).map fun e => (some e.row, e.number.value) := by
  unfold vals
  induction l with
  | nil => rfl
  | cons e l ih =>
    cases h : rowIndex rows e.row with
    | none =>
      rw [List.filterMap_cons_none (by rw [h]; rfl), List.filter_cons_of_neg (by rw [h]; simp), ih]
    | some i =>
      rw [List.filterMap_cons_some (by rw [h]; rfl), List.filter_cons_of_pos (by rw [h]; rfl), List.map_cons,
        List.map_cons, ih]
      simp only [rowIndex_some h]

theorem vals_nodup (rows : List Row) (l : List Entry) :
    ((vals rows l).map (·.1)).Nodup ↔
      ((l.filter fun e => (rowIndex rows e.row).isSome).map (·.row)).Nodup := by
  unfold vals
  induction l with
  | nil => simp
  | cons e l ih =>
    cases h : rowIndex rows e.row with
    | none =>
      rw [List.filterMap_cons_none (by rw [h]; rfl), List.filter_cons_of_neg (by rw [h]; simp), ih]
    | some i =>
      rw [List.filterMap_cons_some (by rw [h]; rfl), List.filter_cons_of_pos (by rw [h]; rfl), List.map_cons,
        List.map_cons, List.nodup_cons, List.nodup_cons, ih]
      refine and_congr_left fun _ => not_congr ?_
      constructor
      · intro hm
        obtain ⟨q, hq, he⟩ := List.mem_map.1 hm
        obtain ⟨e', he', hq'⟩ := List.mem_filterMap.1 hq
        cases h' : rowIndex rows e'.row with
        | none => rw [h'] at hq'; cases hq'
        | some i' =>
          rw [h'] at hq'
          cases hq'
          simp only at he
          subst he
          have := rowIndex_some h
          rw [rowIndex_some h'] at this
          exact List.mem_map.2 ⟨e', List.mem_filter.2 ⟨he', by rw [h']; rfl⟩, Option.some.inj this⟩
      · intro hm
        obtain ⟨e', he', hn⟩ := List.mem_map.1 hm
        refine List.mem_map.2 ⟨(i, e'.number.value), List.mem_filterMap.2 ⟨e', (List.mem_filter.1 he').1, ?_⟩, rfl⟩
        rw [hn, h]
        rfl

/-! ### Rows -/

/-- Names of cost rows. -/
def costNames (l : List (Option Relation × Text)) : List Text :=
  l.filterMap fun r => if r.1.isNone then some r.2 else none

/-- The constraints. -/
def constraintRows (l : List (Option Relation × Text)) : List Row :=
  l.filterMap fun r => r.1.map fun relation => ⟨r.2, relation⟩

theorem runRows_eq (l : List (Option Relation × Text)) : ∀ cost rows, runRows l cost rows =
    if (cost.toList ++ costNames l).length ≤ 1 ∨ costNames l = [] then
      .ok ((cost.toList ++ costNames l).head?, rows ++ constraintRows l) else .error .parse := by
  induction l with
  | nil =>
    intro cost rows
    rw [if_pos (Or.inr (show costNames [] = [] from rfl))]
    cases cost <;> simp [runRows, costNames, constraintRows]
  | cons r l ih =>
    intro cost rows
    obtain ⟨type, name⟩ := r
    cases type with
    | none =>
      have h1 : costNames ((none, name) :: l) = name :: costNames l := rfl
      have h2 : constraintRows ((none, name) :: l) = constraintRows l := rfl
      rw [runRows, h1, h2]
      cases cost with
      | some c =>
        rw [if_pos (show (some c).isSome = true from rfl), if_neg]
        simp
      | none =>
        rw [if_neg (by simp), ih]
        simp only [Option.toList_some, Option.toList_none, List.nil_append, List.cons_append, List.length_cons,
          List.head?_cons, List.cons_ne_nil, or_false]
        congr 1
        simp
    | some relation =>
      have h1 : costNames ((some relation, name) :: l) = costNames l := rfl
      have h2 : constraintRows ((some relation, name) :: l) = ⟨name, relation⟩ :: constraintRows l := rfl
      rw [runRows, h1, h2, ih]
      simp

theorem costNames_mem {l : List (Option Relation × Text)} {name : Text} :
    name ∈ costNames l ↔ (none, name) ∈ l := by
  unfold costNames
  rw [List.mem_filterMap]
  constructor
  · rintro ⟨⟨t, n⟩, h, he⟩
    cases t with
    | none => cases he; exact h
    | some t => cases he
  · intro h
    exact ⟨_, h, rfl⟩

theorem costNames_length (l : List (Option Relation × Text)) :
    (l.filter fun row => row.1.isNone).length = (costNames l).length := by
  unfold costNames
  induction l with
  | nil => rfl
  | cons r l ih =>
    obtain ⟨t, n⟩ := r
    cases t with
    | none => rw [List.filter_cons_of_pos rfl, List.length_cons, ih]; rfl
    | some t => rw [List.filter_cons_of_neg (by simp), ih]; rfl

theorem constraintRows_map (l : List (Option Relation × Text)) :
    (constraintRows l).map (fun row => (some row.relation, row.name)) = l.filter fun row => row.1.isSome := by
  unfold constraintRows
  induction l with
  | nil => rfl
  | cons r l ih =>
    obtain ⟨t, n⟩ := r
    cases t with
    | none => rw [List.filter_cons_of_neg (by simp), List.filterMap_cons_none rfl, ih]
    | some t => rw [List.filter_cons_of_pos rfl, ← ih]; rfl

theorem constraintRows_mem {l : List (Option Relation × Text)} {name : Text} :
    name ∈ (constraintRows l).map (·.name) ↔ ∃ relation, (some relation, name) ∈ l := by
  unfold constraintRows
  rw [List.mem_map]
  constructor
  · rintro ⟨row, h, rfl⟩
    obtain ⟨⟨t, n⟩, h', he⟩ := List.mem_filterMap.1 h
    cases t with
    | none => cases he
    | some t => cases he; exact ⟨t, h'⟩
  · rintro ⟨relation, h⟩
    exact ⟨⟨name, relation⟩, List.mem_filterMap.2 ⟨_, h, rfl⟩, rfl⟩

theorem names_perm (l : List (Option Relation × Text)) :
    (l.map (·.2)).Perm (costNames l ++ (constraintRows l).map (·.name)) := by
  induction l with
  | nil => exact .refl _
  | cons r l ih =>
    obtain ⟨t, n⟩ := r
    cases t with
    | none => exact ih.cons n
    | some t =>
      have h1 : costNames ((some t, n) :: l) = costNames l := rfl
      have h2 : constraintRows ((some t, n) :: l) = ⟨n, t⟩ :: constraintRows l := rfl
      rw [h1, h2, List.map_cons, List.map_cons]
      exact (ih.cons n).trans List.perm_middle.symm

/-- The rows after the check. -/
theorem checkRows_eq (cost : Text) (rows : List Row) :
    checkRowSectionConsistency (some cost) rows =
      if (cost :: rows.map (·.name)).Nodup then
        .ok (cost, rows.insertionSort fun a b => textLe a.name b.name) else .error .inconsistency := by
  unfold checkRowSectionConsistency
  simp only
  have hp : (rows.insertionSort fun a b => textLe a.name b.name).Perm rows := List.perm_insertionSort _ _
  have hs : (rows.insertionSort fun a b => textLe a.name b.name).Pairwise
      fun a b => textLe a.name b.name = true := by
    have : Std.Total fun a b : Row => textLe a.name b.name = true := ⟨fun a b => textLe_total _ _⟩
    have : IsTrans Row fun a b : Row => textLe a.name b.name = true := ⟨fun a b c => textLe_trans⟩
    exact List.pairwise_insertionSort _ rows
  have hn := adjacent_names hs
  rw [(hp.map (·.name)).nodup_iff] at hn
  have hany : ((rows.insertionSort fun a b => textLe a.name b.name).any fun row => row.name = cost) = true ↔
      cost ∈ rows.map (·.name) := by
    rw [List.any_eq_true]
    simp only [hp.mem_iff, List.mem_map, decide_eq_true_eq]
  have hcons : (cost :: rows.map (·.name)).Nodup ↔ cost ∉ rows.map (·.name) ∧ (rows.map (·.name)).Nodup :=
    List.nodup_cons
  by_cases h1 : cost ∈ rows.map (·.name)
  · rw [if_pos (hany.2 h1), if_neg (by rw [hcons]; tauto)]
  · rw [if_neg (by rw [hany]; exact h1)]
    by_cases h2 : (rows.map (·.name)).Nodup
    · rw [if_pos (hcons.2 ⟨h1, h2⟩), hn.2 h2]
      rfl
    · rw [if_neg (c := (cost :: rows.map (·.name)).Nodup) (by rw [hcons]; tauto), if_pos]
      by_contra hc
      exact h2 (hn.1 (by simpa using hc))

/-! ### Columns -/

section

variable {cost : Text} {rows : List Row}

/-- The names of the entries are known. -/
def Known (cost : Text) (rows : List Row) (l : List Entry) : Prop :=
  ∀ e ∈ l, e.row = cost ∨ (rowIndex rows e.row).isSome

/-- Costs in the entries of a column. -/
def costsOf (cost : Text) (j : ℕ) (l : List Entry) : List (ℕ × ℚ) :=
  (l.filter fun e => e.row = cost).map fun e => (j, e.number.value)

theorem addEntries_eq (hc : rowIndex rows cost = none) (l : List Entry) : ∀ s : ColumnState,
    (Known cost rows l ∧ l.foldlM (addEntry cost rows) s = .ok { s with
      columnCollector := s.columnCollector ++ vals rows l
      costValuesCollector := s.costValuesCollector ++ costsOf cost s.collector.length l }) ∨
    (¬Known cost rows l ∧ l.foldlM (addEntry cost rows) s = .error .inconsistency) := by
  induction l with
  | nil =>
    intro s
    refine Or.inl ⟨fun e he => (by cases he), ?_⟩
    simp [vals, costsOf, pure, Except.pure]
  | cons e l ih =>
    intro s
    have hk : Known cost rows (e :: l) ↔ (e.row = cost ∨ (rowIndex rows e.row).isSome) ∧ Known cost rows l :=
      List.forall_mem_cons
    rw [foldlM_cons', hk]
    cases h : rowIndex rows e.row with
    | none =>
      by_cases he : e.row = cost
      · have h1 : addEntry cost rows s e = .ok { s with costValuesCollector :=
            s.costValuesCollector ++ [(s.collector.length, e.number.value)] } := by
          unfold addEntry
          rw [h]
          exact if_pos he
        rw [h1, ok_bind]
        have h2 : vals rows (e :: l) = vals rows l := by
          unfold vals
          rw [List.filterMap_cons_none (by rw [h]; rfl)]
        have h3 : ∀ j, costsOf cost j (e :: l) = (j, e.number.value) :: costsOf cost j l := by
          intro j
          unfold costsOf
          rw [List.filter_cons_of_pos (by simpa using he), List.map_cons]
        rw [h2, h3]
        rcases ih { s with costValuesCollector :=
            s.costValuesCollector ++ [(s.collector.length, e.number.value)] } with ⟨k, hi⟩ | ⟨k, hi⟩
        · refine Or.inl ⟨⟨Or.inl he, k⟩, ?_⟩
          rw [hi]
          simp
        · exact Or.inr ⟨fun h => k h.2, hi⟩
      · refine Or.inr ⟨fun h => by simp [he] at h, ?_⟩
        have h1 : addEntry cost rows s e = .error .inconsistency := by
          unfold addEntry
          rw [h]
          exact if_neg he
        rw [h1]
        rfl
    | some i =>
      have he : e.row ≠ cost := by
        intro he
        rw [he, hc] at h
        cases h
      have h1 : addEntry cost rows s e = .ok { s with columnCollector :=
          s.columnCollector ++ [(i, e.number.value)] } := by
        unfold addEntry
        rw [h]
      rw [h1, ok_bind]
      have h2 : vals rows (e :: l) = (i, e.number.value) :: vals rows l := by
        unfold vals
        rw [List.filterMap_cons_some (by rw [h]; rfl)]
      have h3 : ∀ j, costsOf cost j (e :: l) = costsOf cost j l := by
        intro j
        unfold costsOf
        rw [List.filter_cons_of_neg (by simpa using he)]
      rw [h2, h3]
      rcases ih { s with columnCollector := s.columnCollector ++ [(i, e.number.value)] } with ⟨k, hi⟩ | ⟨k, hi⟩
      · refine Or.inl ⟨⟨Or.inr rfl, k⟩, ?_⟩
        rw [hi]
        simp
      · exact Or.inr ⟨fun h => k h.2, hi⟩

/-- The entries of a column are for rows that are there, and different. -/
def OkColumn (cost : Text) (rows : List Row) (b : Block EntryLine) : Prop :=
  Known cost rows b.entries ∧ ((vals rows b.entries).map (·.1)).Nodup

/-- The column of a block. -/
def columnOf (rows : List Row) (q : VariableType × Block EntryLine) : Column :=
  ⟨q.2.name, q.1, sortByIndex (vals rows q.2.entries)⟩

/-- All that was read before is saved if the next column starts. -/
def Saved (s : ColumnState) (done : List Column) (costs : List (ℕ × ℚ)) (type : VariableType) : Prop :=
  ∀ new, saveToColumnCollector new s = .ok ⟨done, [], costs, new, type⟩

/-- The blocks among items. -/
def blocksOf (items : List ColumnItem) : List (Block EntryLine) :=
  items.filterMap fun item =>
    match item with
    | .marker _ => none
    | .column block => some block

theorem items_spec (hc : rowIndex rows cost = none) (items : List ColumnItem) :
    ∀ (s : ColumnState) (done : List Column) (costs : List (ℕ × ℚ)) (integer : Bool),
    Saved s done costs (if integer then .integer else .continuous) →
    ((∀ b ∈ blocksOf items, OkColumn cost rows b) ∧ ∃ type,
      (items.foldlM (runItem cost rows) s >>= saveToColumnCollector none) =
        .ok ⟨done ++ (typedColumns integer items).map (columnOf rows), [],
          costs ++ ((blocksOf items).zipIdx done.length).flatMap fun q => costsOf cost q.2 q.1.entries,
          none, type⟩) ∨
    (¬(∀ b ∈ blocksOf items, OkColumn cost rows b) ∧
      (items.foldlM (runItem cost rows) s >>= saveToColumnCollector none) = .error .inconsistency) := by
  induction items with
  | nil =>
    intro s done costs integer hs
    refine Or.inl ⟨fun b hb => (by cases hb), if integer then .integer else .continuous, ?_⟩
    show saveToColumnCollector none s = _
    rw [hs none]
    simp [typedColumns, blocksOf]
  | cons item items ih =>
    intro s done costs integer hs
    rw [foldlM_cons', bind_assoc]
    cases item with
    | marker i =>
      have h1 : runItem cost rows s (.marker i) =
          .ok ⟨done, [], costs, none, if i then .integer else .continuous⟩ := by
        unfold runItem
        simp only
        rw [hs none]
        rfl
      rw [h1, ok_bind]
      exact ih _ done costs i fun new => rfl
    | column b =>
      have h1 : runItem cost rows s (.column b) = b.entries.foldlM (addEntry cost rows)
          ⟨done, [], costs, some b.name, if integer then .integer else .continuous⟩ := by
        unfold runItem
        simp only
        rw [hs (some b.name)]
        rfl
      have hbl : blocksOf (.column b :: items) = b :: blocksOf items := rfl
      have hty : typedColumns integer (.column b :: items) =
        (if integer then .integer else .continuous, b) :: typedColumns integer items := rfl
      rw [h1, hbl, List.forall_mem_cons]
      rcases addEntries_eq hc b.entries
        ⟨done, [], costs, some b.name, if integer then .integer else .continuous⟩ with ⟨k, hi⟩ | ⟨k, hi⟩
      · rw [hi, ok_bind]
        simp only [List.nil_append]
        by_cases hn : ((vals rows b.entries).map (·.1)).Nodup
        · have hsave : Saved ⟨done, vals rows b.entries, costs ++ costsOf cost done.length b.entries, some b.name,
              if integer then .integer else .continuous⟩
              (done ++ [columnOf rows (if integer then .integer else .continuous, b)])
              (costs ++ costsOf cost done.length b.entries) (if integer then .integer else .continuous) := by
            intro new
            unfold saveToColumnCollector
            simp only
            rw [sortedUnlessDuplicate_eq, if_pos hn]
            rfl
          rcases ih _ _ _ integer hsave with ⟨h2, type, h3⟩ | ⟨h2, h3⟩
          · refine Or.inl ⟨⟨⟨k, hn⟩, h2⟩, type, ?_⟩
            rw [h3, hty]
            simp
          · exact Or.inr ⟨fun h => h2 h.2, h3⟩
        · refine Or.inr ⟨fun h => hn h.1.2, ?_⟩
          -- the next save fails
          have hfail : ∀ new, saveToColumnCollector new ⟨done, vals rows b.entries,
              costs ++ costsOf cost done.length b.entries, some b.name,
              if integer then .integer else .continuous⟩ = .error .inconsistency := by
            intro new
            unfold saveToColumnCollector
            simp only
            rw [sortedUnlessDuplicate_eq, if_neg hn]
            rfl
          cases items with
          | nil => exact hfail none
          | cons item items =>
            rw [foldlM_cons']
            have : runItem cost rows ⟨done, vals rows b.entries,
                costs ++ costsOf cost done.length b.entries, some b.name,
                if integer then .integer else .continuous⟩ item = .error .inconsistency := by
              cases item with
              | marker i => unfold runItem; simp only; rw [hfail]; rfl
              | column c => unfold runItem; simp only; rw [hfail]; rfl
            rw [this]
            rfl
      · refine Or.inr ⟨fun h => k h.1.1, ?_⟩
        rw [hi]
        rfl

/-! ### Right-hand sides and ranges -/

/-- All entries are for constraints. -/
def AllRows (rows : List Row) (l : List Entry) : Prop := ∀ e ∈ l, (rowIndex rows e.row).isSome

theorem addValues_eq (l : List Entry) : ∀ s : GroupState ℚ,
    (AllRows rows l ∧ l.foldlM (addValue rows) s =
      .ok { s with groupCollector := s.groupCollector ++ vals rows l }) ∨
    (¬AllRows rows l ∧ l.foldlM (addValue rows) s = .error .inconsistency) := by
  induction l with
  | nil =>
    intro s
    refine Or.inl ⟨fun e he => (by cases he), ?_⟩
    simp [vals, pure, Except.pure]
  | cons e l ih =>
    intro s
    have hk : AllRows rows (e :: l) ↔ (rowIndex rows e.row).isSome ∧ AllRows rows l := List.forall_mem_cons
    rw [foldlM_cons', hk]
    cases h : rowIndex rows e.row with
    | none =>
      refine Or.inr ⟨fun h => by simp at h, ?_⟩
      have h1 : addValue rows s e = .error .inconsistency := by
        unfold addValue
        rw [h]
      rw [h1]
      rfl
    | some i =>
      have h1 : addValue rows s e = .ok { s with groupCollector :=
          s.groupCollector ++ [(i, e.number.value)] } := by
        unfold addValue
        rw [h]
      rw [h1, ok_bind]
      have h2 : vals rows (e :: l) = (i, e.number.value) :: vals rows l := by
        unfold vals
        rw [List.filterMap_cons_some (by rw [h]; rfl)]
      rw [h2]
      rcases ih { s with groupCollector := s.groupCollector ++ [(i, e.number.value)] } with ⟨k, hi⟩ | ⟨k, hi⟩
      · refine Or.inl ⟨⟨rfl, k⟩, ?_⟩
        rw [hi]
        simp
      · exact Or.inr ⟨fun h => k h.2, hi⟩

/-- The entries of a group are for constraints that are there, and different. -/
def OkGroup (rows : List Row) (b : Block EntryLine) : Prop :=
  AllRows rows b.entries ∧ ((vals rows b.entries).map (·.1)).Nodup

/-- The group of a block. -/
def groupOf (rows : List Row) (b : Block EntryLine) : Listing ℚ := ⟨b.name, sortByIndex (vals rows b.entries)⟩

theorem groups_spec (blocks : List (Block EntryLine)) : ∀ (s : GroupState ℚ) (done : List (Listing ℚ)),
    (∀ new, saveToGroupCollector false new s = .ok ⟨done, [], new⟩) →
    ((∀ b ∈ blocks, OkGroup rows b) ∧
      (blocks.foldlM (runGroup rows) s >>= saveToGroupCollector false none) =
        .ok ⟨done ++ blocks.map (groupOf rows), [], none⟩) ∨
    (¬(∀ b ∈ blocks, OkGroup rows b) ∧
      (blocks.foldlM (runGroup rows) s >>= saveToGroupCollector false none) = .error .inconsistency) := by
  induction blocks with
  | nil =>
    intro s done hs
    refine Or.inl ⟨fun b hb => (by cases hb), ?_⟩
    show saveToGroupCollector false none s = _
    rw [hs none]
    simp
  | cons b blocks ih =>
    intro s done hs
    rw [foldlM_cons', bind_assoc, List.forall_mem_cons]
    have h1 : runGroup rows s b = b.entries.foldlM (addValue rows) ⟨done, [], some b.name⟩ := by
      unfold runGroup
      rw [hs (some b.name)]
      rfl
    rw [h1]
    rcases addValues_eq (rows := rows) b.entries ⟨done, [], some b.name⟩ with ⟨k, hi⟩ | ⟨k, hi⟩
    · rw [hi, ok_bind]
      simp only [List.nil_append]
      by_cases hn : ((vals rows b.entries).map (·.1)).Nodup
      · have hsave : ∀ new, saveToGroupCollector false new ⟨done, vals rows b.entries, some b.name⟩ =
            .ok ⟨done ++ [groupOf rows b], [], new⟩ := by
          intro new
          unfold saveToGroupCollector
          simp only [Bool.false_eq_true, if_false]
          rw [sortedUnlessDuplicate_eq, if_pos hn]
          rfl
        rcases ih _ _ hsave with ⟨h2, h3⟩ | ⟨h2, h3⟩
        · refine Or.inl ⟨⟨⟨k, hn⟩, h2⟩, ?_⟩
          rw [h3]
          simp
        · exact Or.inr ⟨fun h => h2 h.2, h3⟩
      · refine Or.inr ⟨fun h => hn h.1.2, ?_⟩
        have hfail : ∀ new, saveToGroupCollector false new ⟨done, vals rows b.entries, some b.name⟩ =
            .error .inconsistency := by
          intro new
          unfold saveToGroupCollector
          simp only [Bool.false_eq_true, if_false]
          rw [sortedUnlessDuplicate_eq, if_neg hn]
          rfl
        cases blocks with
        | nil => exact hfail none
        | cons c blocks =>
          rw [foldlM_cons']
          have : runGroup rows ⟨done, vals rows b.entries, some b.name⟩ c = .error .inconsistency := by
            unfold runGroup
            rw [hfail]
            rfl
          rw [this]
          rfl
    · refine Or.inr ⟨fun h => k h.1.1, ?_⟩
      rw [hi]
      rfl

theorem runGroups_spec (blocks : Option (List (Block EntryLine))) :
    ((∀ b ∈ blocks.getD [], OkGroup rows b) ∧ runGroups rows blocks = .ok ((blocks.getD []).map (groupOf rows))) ∨
    (¬(∀ b ∈ blocks.getD [], OkGroup rows b) ∧ runGroups rows blocks = .error .inconsistency) := by
  cases blocks with
  | none => exact Or.inl ⟨fun b hb => (by cases hb), rfl⟩
  | some blocks =>
    have h : runGroups rows (some blocks) = ((blocks.foldlM (runGroup rows) ⟨[], [], none⟩ >>=
        saveToGroupCollector false none) >>= fun s => .ok s.collector) := by
      unfold runGroups
      simp only [bind_assoc]
    rw [h]
    rcases groups_spec (rows := rows) blocks ⟨[], [], none⟩ [] (fun new => rfl) with ⟨h1, h2⟩ | ⟨h1, h2⟩
    · refine Or.inl ⟨h1, ?_⟩
      rw [h2]
      rfl
    · refine Or.inr ⟨h1, ?_⟩
      rw [h2]
      rfl

end

/-! ### Bounds -/

section

variable {columns : List Column}

/-- The values of bounds. -/
def boundVals (columns : List Column) (l : List BoundLine) : List (ℕ × BoundType) :=
  l.filterMap fun b => (columnIndex columns b.column).map fun j => (j, b.bound.meaning)

/-- All bounds are for columns. -/
def AllColumns (columns : List Column) (l : List BoundLine) : Prop :=
  ∀ b ∈ l, (columnIndex columns b.column).isSome

theorem addBounds_eq (l : List BoundLine) : ∀ s : GroupState BoundType,
    (AllColumns columns l ∧ l.foldlM (addBound columns) s =
      .ok { s with groupCollector := s.groupCollector ++ boundVals columns l }) ∨
    (¬AllColumns columns l ∧ l.foldlM (addBound columns) s = .error .inconsistency) := by
  induction l with
  | nil =>
    intro s
    refine Or.inl ⟨fun e he => (by cases he), ?_⟩
    simp [boundVals, pure, Except.pure]
  | cons e l ih =>
    intro s
    have hk : AllColumns columns (e :: l) ↔ (columnIndex columns e.column).isSome ∧ AllColumns columns l :=
      List.forall_mem_cons
    rw [foldlM_cons', hk]
    cases h : columnIndex columns e.column with
    | none =>
      refine Or.inr ⟨fun h => by simp at h, ?_⟩
      have h1 : addBound columns s e = .error .inconsistency := by
        unfold addBound
        rw [h]
      rw [h1]
      rfl
    | some i =>
      have h1 : addBound columns s e = .ok { s with groupCollector :=
          s.groupCollector ++ [(i, e.bound.meaning)] } := by
        unfold addBound
        rw [h]
      rw [h1, ok_bind]
      have h2 : boundVals columns (e :: l) = (i, e.bound.meaning) :: boundVals columns l := by
        unfold boundVals
        rw [List.filterMap_cons_some (by rw [h]; rfl)]
      rw [h2]
      rcases ih { s with groupCollector := s.groupCollector ++ [(i, e.bound.meaning)] } with ⟨k, hi⟩ | ⟨k, hi⟩
      · refine Or.inl ⟨⟨rfl, k⟩, ?_⟩
        rw [hi]
        simp
      · exact Or.inr ⟨fun h => k h.2, hi⟩

/-- The group of a block of bounds. -/
def boundGroupOf (columns : List Column) (b : Block BoundLine) : Listing BoundType :=
  ⟨b.name, sortByIndex (boundVals columns b.lines)⟩

theorem boundGroups_spec (blocks : List (Block BoundLine)) :
    ∀ (s : GroupState BoundType) (done : List (Listing BoundType)),
    (∀ new, saveToGroupCollector true new s = .ok ⟨done, [], new⟩) →
    ((∀ b ∈ blocks, AllColumns columns b.lines) ∧
      (blocks.foldlM (runBoundGroup columns) s >>= saveToGroupCollector true none) =
        .ok ⟨done ++ blocks.map (boundGroupOf columns), [], none⟩) ∨
    (¬(∀ b ∈ blocks, AllColumns columns b.lines) ∧
      (blocks.foldlM (runBoundGroup columns) s >>= saveToGroupCollector true none) = .error .inconsistency) := by
  induction blocks with
  | nil =>
    intro s done hs
    refine Or.inl ⟨fun b hb => (by cases hb), ?_⟩
    show saveToGroupCollector true none s = _
    rw [hs none]
    simp
  | cons b blocks ih =>
    intro s done hs
    rw [foldlM_cons', bind_assoc, List.forall_mem_cons]
    have h1 : runBoundGroup columns s b = b.lines.foldlM (addBound columns) ⟨done, [], some b.name⟩ := by
      unfold runBoundGroup
      rw [hs (some b.name)]
      rfl
    rw [h1]
    rcases addBounds_eq (columns := columns) b.lines ⟨done, [], some b.name⟩ with ⟨k, hi⟩ | ⟨k, hi⟩
    · rw [hi, ok_bind]
      simp only [List.nil_append]
      have hsave : ∀ new, saveToGroupCollector true new ⟨done, boundVals columns b.lines, some b.name⟩ =
          .ok ⟨done ++ [boundGroupOf columns b], [], new⟩ := fun new => rfl
      rcases ih _ _ hsave with ⟨h2, h3⟩ | ⟨h2, h3⟩
      · refine Or.inl ⟨⟨k, h2⟩, ?_⟩
        rw [h3]
        simp
      · exact Or.inr ⟨fun h => h2 h.2, h3⟩
    · refine Or.inr ⟨fun h => k h.1, ?_⟩
      rw [hi]
      rfl

theorem runBounds_spec (blocks : Option (List (Block BoundLine))) :
    ((∀ b ∈ blocks.getD [], AllColumns columns b.lines) ∧
      runBounds columns blocks = .ok ((blocks.getD []).map (boundGroupOf columns))) ∨
    (¬(∀ b ∈ blocks.getD [], AllColumns columns b.lines) ∧ runBounds columns blocks = .error .inconsistency) := by
  cases blocks with
  | none => exact Or.inl ⟨fun b hb => (by cases hb), rfl⟩
  | some blocks =>
    have h : runBounds columns (some blocks) = ((blocks.foldlM (runBoundGroup columns) ⟨[], [], none⟩ >>=
        saveToGroupCollector true none) >>= fun s => .ok s.collector) := by
      unfold runBounds
      simp only [bind_assoc]
    rw [h]
    rcases boundGroups_spec (columns := columns) blocks ⟨[], [], none⟩ [] (fun new => rfl) with ⟨h1, h2⟩ | ⟨h1, h2⟩
    · refine Or.inl ⟨h1, ?_⟩
      rw [h2]
      rfl
    · refine Or.inr ⟨h1, ?_⟩
      rw [h2]
      rfl

end

theorem boundVals_names {columns : List Column} {l : List BoundLine} (h : AllColumns columns l) :
    (boundVals columns l).map (fun q => ((columns[q.1]?).map (·.name), q.2)) =
      l.map fun b => (some b.column, b.bound.meaning) := by
  unfold boundVals
  induction l with
  | nil => rfl
  | cons e l ih =>
    obtain ⟨h1, h2⟩ := List.forall_mem_cons.1 h
    obtain ⟨j, hj⟩ := Option.isSome_iff_exists.1 h1
    rw [List.filterMap_cons_some (by rw [hj]; rfl), List.map_cons, List.map_cons, ih h2]
    simp only [columnIndex_some hj]

/-! ### The file -/

theorem typedColumns_blocks (integer : Bool) (items : List ColumnItem) :
    (typedColumns integer items).map (·.2) = blocksOf items := by
  induction items generalizing integer with
  | nil => rfl
  | cons item items ih =>
    cases item with
    | marker i => exact ih i
    | column b => exact congrArg (b :: ·) (ih integer)

theorem flatten_groups (rows : List Row) (blocks : List (Block EntryLine)) :
    (flatten (blocks.map (groupOf rows))).Perm (vals rows (blocks.flatMap Block.entries)) := by
  induction blocks with
  | nil => exact .refl _
  | cons b blocks ih =>
    rw [List.flatMap_cons, vals_append]
    exact (List.perm_insertionSort _ _).append ih

section

variable {F : File} {cost : Text} {rows : List Row}

/-- The rows belong to the file. -/
structure RowsOf (F : File) (cost : Text) (rows : List Row) : Prop where
  isCost : ∀ name, (none, name) ∈ F.rows ↔ name = cost
  constraint : ∀ name, (rowIndex rows name).isSome ↔ F.IsConstraint name
  different : rowIndex rows cost = none

theorem RowsOf.column (h : RowsOf F cost rows) (b : Block EntryLine) :
    OkColumn cost rows b ↔ F.EntriesConsistent (b.entries.filter fun e => (none, e.row) ∉ F.rows) := by
  have hf : (b.entries.filter fun e => (none, e.row) ∉ F.rows) = b.entries.filter fun e => e.row ≠ cost :=
    List.filter_congr fun e _ => by simp only [h.isCost]
  rw [hf]
  unfold OkColumn File.EntriesConsistent
  rw [vals_nodup]
  have hk : Known cost rows b.entries ↔
      ∀ e ∈ b.entries.filter fun e => e.row ≠ cost, F.IsConstraint e.row := by
    unfold Known
    constructor
    · intro hk e he
      obtain ⟨h1, h2⟩ := List.mem_filter.1 he
      exact (h.constraint _).1 ((hk e h1).resolve_left (by simpa using h2))
    · intro hk e he
      by_cases hc : e.row = cost
      · exact Or.inl hc
      · exact Or.inr ((h.constraint _).2 (hk e (List.mem_filter.2 ⟨he, by simpa using hc⟩)))
  rw [hk]
  refine and_congr_right fun hk => ?_
  have : (b.entries.filter fun e => (rowIndex rows e.row).isSome) = b.entries.filter fun e => e.row ≠ cost := by
    refine List.filter_congr fun e he => ?_
    by_cases hc : e.row = cost
    · rw [hc, h.different]
      simp
    · have := (h.constraint _).2 (hk e (List.mem_filter.2 ⟨he, by simpa using hc⟩))
      rw [this]
      simpa using hc
  rw [this]

theorem RowsOf.allRows (h : RowsOf F cost rows) (l : List Entry) :
    AllRows rows l ↔ ∀ e ∈ l, F.IsConstraint e.row :=
  forall₂_congr fun e _ => h.constraint e.row

theorem filter_allRows {l : List Entry} (h : AllRows rows l) :
    (l.filter fun e => (rowIndex rows e.row).isSome) = l :=
  List.filter_eq_self.2 h

theorem RowsOf.entries (h : RowsOf F cost rows) (l : List Entry) :
    (AllRows rows l ∧ ((vals rows l).map (·.1)).Nodup) ↔ F.EntriesConsistent l := by
  unfold File.EntriesConsistent
  rw [← h.allRows, vals_nodup]
  refine and_congr_right fun hk => ?_
  rw [filter_allRows hk]

theorem RowsOf.columnValues (h : RowsOf F cost rows) {p : Mps} (hp : p.rows = rows) {b : Block EntryLine}
    (hb : OkColumn cost rows b) :
    RowValues p (sortByIndex (vals rows b.entries)) (b.entries.filter fun e => e.row ≠ cost) := by
  refine ⟨sortByIndex_strict hb.2, ?_⟩
  rw [hp]
  refine ((List.perm_insertionSort _ _).map _).trans ?_
  rw [vals_names]
  have : (b.entries.filter fun e => (rowIndex rows e.row).isSome) = b.entries.filter fun e => e.row ≠ cost := by
    refine List.filter_congr fun e he => ?_
    by_cases hc : e.row = cost
    · rw [hc, h.different]
      simp
    · rw [(hb.1 e he).resolve_left hc]
      simpa using hc
  rw [this]

theorem groupValues {p : Mps} (hp : p.rows = rows) {b : Block EntryLine}
    (hb : OkGroup rows b) : RowValues p (sortByIndex (vals rows b.entries)) b.entries := by
  refine ⟨sortByIndex_strict hb.2, ?_⟩
  rw [hp]
  refine ((List.perm_insertionSort _ _).map _).trans ?_
  rw [vals_names, filter_allRows hb.1]

/-- What follows the rows. -/
theorem rest_spec (h : RowsOf F cost rows)
    (hrows : (rows.map fun row => (some row.relation, row.name)).Perm (F.rows.filter fun row => row.1.isSome))
    (hcost : (F.rows.filter fun row => row.1.isNone).length = 1) (hn : (F.rows.map (·.2)).Nodup)
    {r : Import Mps}
    (hr : r = do
      let s ← F.columns.foldlM (runItem cost rows) ⟨[], [], [], none, .continuous⟩
      let s ← saveToColumnCollector none s
      let rhss ← runGroups rows F.rhs
      let ranges ← runGroups rows F.ranges
      checkRangesConsistency ranges
      let bounds ← runBounds s.collector F.bounds
      .ok ⟨F.name, F.sense.getD .minimize, cost, s.costValuesCollector, rows, s.collector, rhss, ranges, bounds⟩) :
    (F.Consistent ∧ ∃ p, r = .ok p ∧ F.Describes p) ∨ (¬F.Consistent ∧ r = .error .inconsistency) := by
  rw [← bind_assoc] at hr
  rcases items_spec h.different F.columns ⟨[], [], [], none, .continuous⟩ [] [] false (fun new => rfl) with
    ⟨h1, type, h2⟩ | ⟨h1, h2⟩
  swap
  · rw [h2] at hr
    exact Or.inr ⟨fun c => h1 fun b hb => (h.column b).2 (c.columns b hb), hr⟩
  rw [h2, ok_bind] at hr
  simp only [List.nil_append, List.length_nil] at hr
  rcases runGroups_spec (rows := rows) F.rhs with ⟨h3, h4⟩ | ⟨h3, h4⟩
  swap
  · rw [h4] at hr
    exact Or.inr ⟨fun c => h3 fun b hb => (h.entries _).2 (c.rhs b hb), hr⟩
  rw [h4, ok_bind] at hr
  have hranges : F.EntriesConsistent ((F.ranges.getD []).flatMap Block.entries) →
      ∀ b ∈ F.ranges.getD [], OkGroup rows b := by
    intro hc b hb
    refine (h.entries _).2 ⟨fun e he => hc.1 e (List.mem_flatMap.2 ⟨b, hb, he⟩), ?_⟩
    exact hc.2.sublist ((List.sublist_flatten_of_mem (List.mem_map.2 ⟨b, hb, rfl⟩)).map _)
  rcases runGroups_spec (rows := rows) F.ranges with ⟨h5, h6⟩ | ⟨h5, h6⟩
  swap
  · rw [h6] at hr
    exact Or.inr ⟨fun c => h5 (hranges c.ranges), hr⟩
  rw [h6, ok_bind] at hr
  have hall : AllRows rows ((F.ranges.getD []).flatMap Block.entries) := by
    intro e he
    obtain ⟨b, hb, he⟩ := List.mem_flatMap.1 he
    exact (h5 b hb).1 e he
  have hflat := ((flatten_groups rows (F.ranges.getD [])).map (·.1)).nodup_iff
  unfold checkRangesConsistency at hr
  by_cases h7 : ((flatten ((F.ranges.getD []).map (groupOf rows))).map (·.1)).Nodup
  swap
  · rw [if_neg h7] at hr
    exact Or.inr ⟨fun c => h7 (hflat.2 ((h.entries _).2 c.ranges).2), hr⟩
  rw [if_pos h7, ok_bind] at hr
  set columns := (typedColumns false F.columns).map (columnOf rows) with hcolumns
  have hnames : columns.map (·.name) = F.blocks.map (·.name) := by
    have : F.blocks = blocksOf F.columns := rfl
    rw [this, ← typedColumns_blocks false, hcolumns, List.map_map, List.map_map]
    rfl
  have hsome : ∀ name, (columnIndex columns name).isSome ↔ name ∈ F.blocks.map (·.name) := by
    intro name
    rw [← hnames, ← not_iff_not, ← columnIndex_none]
    simp
  rcases runBounds_spec (columns := columns) F.bounds with ⟨h8, h9⟩ | ⟨h8, h9⟩
  swap
  · rw [h9] at hr
    exact Or.inr ⟨fun c => h8 fun b hb l hl => (hsome _).2 (c.bounds b hb l hl), hr⟩
  rw [h9, ok_bind] at hr
  refine Or.inl ⟨⟨hcost, hn, fun b hb => (h.column b).1 (h1 b hb), fun b hb => (h.entries _).1 (h3 b hb),
    (h.entries _).1 ⟨hall, hflat.1 h7⟩, fun b hb l hl => (hsome _).1 (h8 b hb l hl)⟩, _, hr, ?_⟩
  refine ⟨rfl, rfl, (h.isCost _).2 rfl, hrows, ?_, rfl, ?_, ?_, ?_⟩
  · show List.Forall₂ _ columns _
    rw [hcolumns, List.forall₂_map_left_iff, List.forall₂_same]
    intro q hq
    refine ⟨rfl, rfl, h.columnValues rfl (h1 q.2 ?_)⟩
    rw [← typedColumns_blocks false]
    exact List.mem_map.2 ⟨q, hq, rfl⟩
  · show List.Forall₂ _ ((F.rhs.getD []).map _) _
    rw [List.forall₂_map_left_iff, List.forall₂_same]
    exact fun b hb => ⟨rfl, groupValues rfl (h3 b hb)⟩
  · show List.Forall₂ _ ((F.ranges.getD []).map _) _
    rw [List.forall₂_map_left_iff, List.forall₂_same]
    exact fun b hb => ⟨rfl, groupValues rfl (h5 b hb)⟩
  · show List.Forall₂ _ ((F.bounds.getD []).map _) _
    rw [List.forall₂_map_left_iff, List.forall₂_same]
    intro b hb
    refine ⟨rfl, ?_⟩
    unfold ColumnValues
    refine ((List.perm_insertionSort _ _).map _).trans ?_
    rw [← boundVals_names (h8 b hb)]

end

/-- A consistent file gives the program that it describes, and an inconsistent file gives an error. -/
theorem runFile_spec (F : File) : (F.Consistent ∧ ∃ p, runFile F = .ok p ∧ F.Describes p) ∨
    (¬F.Consistent ∧ ∃ e, runFile F = .error e ∧ e ≠ .panic) := by
  have hr : runFile F = (runRows F.rows none [] >>= fun q => checkRowSectionConsistency q.1 q.2 >>= fun q => do
      let s ← F.columns.foldlM (runItem q.1 q.2) ⟨[], [], [], none, .continuous⟩
      let s ← saveToColumnCollector none s
      let rhss ← runGroups q.2 F.rhs
      let ranges ← runGroups q.2 F.ranges
      checkRangesConsistency ranges
      let bounds ← runBounds s.collector F.bounds
      .ok ⟨F.name, F.sense.getD .minimize, q.1, s.costValuesCollector, q.2, s.collector, rhss, ranges, bounds⟩) := rfl
  rw [runRows_eq, Option.toList_none, List.nil_append, List.nil_append] at hr
  match hcost : costNames F.rows with
  | [] =>
    rw [hcost, if_pos (Or.inr rfl), ok_bind] at hr
    refine Or.inr ⟨fun c => ?_, _, hr, by simp⟩
    have := c.cost
    rw [costNames_length, hcost] at this
    cases this
  | c :: d :: l =>
    rw [hcost, if_neg (by simp)] at hr
    refine Or.inr ⟨fun c => ?_, _, hr, by simp⟩
    have := c.cost
    rw [costNames_length, hcost] at this
    simp at this
  | [c] =>
    rw [hcost, if_pos (Or.inl (by simp)), ok_bind] at hr
    simp only [List.head?_cons, checkRows_eq] at hr
    have hnames : (F.rows.map (·.2)).Nodup ↔ (c :: (constraintRows F.rows).map (·.name)).Nodup := by
      rw [(names_perm F.rows).nodup_iff, hcost]
      rfl
    by_cases hn : (c :: (constraintRows F.rows).map (·.name)).Nodup
    swap
    · rw [if_neg hn] at hr
      exact Or.inr ⟨fun c => hn (hnames.1 c.rows), _, hr, by simp⟩
    rw [if_pos hn, ok_bind] at hr
    have hp : ((constraintRows F.rows).insertionSort fun a b => textLe a.name b.name).Perm (constraintRows F.rows) :=
      List.perm_insertionSort _ _
    have hsome : ∀ name, (rowIndex ((constraintRows F.rows).insertionSort fun a b => textLe a.name b.name) name).isSome ↔
        F.IsConstraint name := by
      intro name
      unfold File.IsConstraint
      rw [← constraintRows_mem, ← (hp.map (·.name)).mem_iff, ← not_iff_not, ← rowIndex_none]
      simp
    have hR : RowsOf F c ((constraintRows F.rows).insertionSort fun a b => textLe a.name b.name) := by
      refine ⟨fun name => ?_, hsome, ?_⟩
      · rw [← costNames_mem, hcost, List.mem_singleton]
      · rw [rowIndex_none, (hp.map (·.name)).mem_iff]
        exact (List.nodup_cons.1 hn).1
    rcases rest_spec hR ((hp.map _).trans (by rw [constraintRows_map])) (by rw [costNames_length, hcost]; rfl)
      (hnames.2 hn) hr with h | h
    · exact Or.inl h
    · exact Or.inr ⟨h.1, _, h.2, by simp⟩

end Relp.Mps
