import Verif.Spec.MpsMeaning
import Verif.Proof.MpsAccepted
import Verif.Proof.MpsConvert

/-!
# A file, and the program that it describes, stand for the same linear program
-/

namespace Relp.Mps

open Spec

theorem exists_cons {α : Type} {b : α} {l : List α} {P : α → Prop} :
    (∃ a ∈ b :: l, P a) ↔ P b ∨ ∃ a ∈ l, P a := by simp

theorem forall₂_map {α β γ : Type} {R : α → β → Prop} {l : List α} {m : List β} {f : α → γ} {g : β → γ}
    (h : List.Forall₂ R l m) (hf : ∀ a b, R a b → f a = g b) : l.map f = m.map g := by
  induction h with
  | nil => rfl
  | cons h1 _ ih => rw [List.map_cons, List.map_cons, ih, hf _ _ h1]

/-- Elements of lists with different names are found by name. -/
theorem lookup_iff {α : Type} {name : α → Text} {l : List α} (h : (l.map name).Nodup) {i k : ℕ} (hi : i < l.length) :
    (l[k]?).map name = some (name l[i]) ↔ k = i := by
  constructor
  · intro hk
    obtain ⟨a, ha, he⟩ := Option.map_eq_some_iff.1 hk
    obtain ⟨hk', rfl⟩ := List.getElem?_eq_some_iff.1 ha
    refine (List.Nodup.getElem_inj_iff h (hi := by simpa using hk') (hj := by simpa using hi)).1 ?_
    simpa using he
  · rintro rfl
    rw [List.getElem?_eq_getElem hi]
    rfl

section

variable {F : File} {p : Mps} (hd : F.Describes p) (hr : (p.rows.map (·.name)).Nodup)

include hr in
theorem rowValues_mem {values : List (ℕ × ℚ)} {entries : List Entry} (h : RowValues p values entries) {i : ℕ}
    (hi : i < p.rows.length) (v : ℚ) :
    (i, v) ∈ values ↔ ∃ e ∈ entries, e.row = p.rows[i].name ∧ e.number.value = v := by
  have h1 : (i, v) ∈ values ↔ (some p.rows[i].name, v) ∈ values.map fun q => ((p.rows[q.1]?).map (·.name), q.2) := by
    rw [List.mem_map]
    constructor
    · intro hm
      exact ⟨_, hm, Prod.ext ((lookup_iff hr hi).2 rfl) rfl⟩
    · rintro ⟨⟨k, w⟩, hm, he⟩
      obtain ⟨e1, e2⟩ := Prod.mk.inj he
      have := (lookup_iff hr hi).1 e1
      subst this
      subst e2
      exact hm
  rw [h1, h.2.mem_iff, List.mem_map]
  refine exists_congr fun e => and_congr_right fun _ => ?_
  rw [Prod.mk.injEq, Option.some.injEq]

theorem rowValues_lt {values : List (ℕ × ℚ)} {entries : List Entry} (h : RowValues p values entries) :
    ∀ q ∈ values, q.1 < p.rows.length := by
  intro q hq
  have := h.2.mem_iff.1 (List.mem_map.2 ⟨q, hq, rfl⟩)
  obtain ⟨e, -, he⟩ := List.mem_map.1 this
  have := (Prod.mk.inj he).1
  by_contra hc
  rw [List.getElem?_eq_none (not_lt.1 hc)] at this
  cases this

include hr in
theorem rowValues_val {values : List (ℕ × ℚ)} {entries : List Entry} (h : RowValues p values entries) {i : ℕ}
    (hi : i < p.rows.length) :
    SVec.val values i = (entries.map fun e => if e.row = p.rows[i].name then e.number.value else 0).sum := by
  have h1 : SVec.val values i = ((values.map fun q => ((p.rows[q.1]?).map (·.name), q.2)).map fun q =>
      if q.1 = some p.rows[i].name then q.2 else 0).sum := by
    unfold SVec.val
    rw [List.map_map]
    congr 1
    refine List.map_congr_left fun q _ => ?_
    simp only [Function.comp, lookup_iff hr hi]
  rw [h1, (h.2.map _).sum_eq, List.map_map]
  congr 1
  refine List.map_congr_left fun e _ => ?_
  simp only [Function.comp, Option.some.injEq]

include hr in
/-- Values for a row in groups of right-hand sides or ranges. -/
theorem groups_mem {groups : List (Listing ℚ)} {blocks : List (Block EntryLine)}
    (h : List.Forall₂ (fun group b => group.name = b.name ∧ RowValues p group.values b.entries) groups blocks)
    {i : ℕ} (hi : i < p.rows.length) (v : ℚ) :
    (i, v) ∈ flatten groups ↔ ∃ g ∈ blocks, ∃ e ∈ g.entries, e.row = p.rows[i].name ∧ e.number.value = v := by
  unfold flatten
  induction h with
  | nil => simp
  | cons h1 _ ih => rw [List.flatMap_cons, List.mem_append, ih, rowValues_mem hr h1.2 hi, exists_cons]

theorem groups_lt {groups : List (Listing ℚ)} {blocks : List (Block EntryLine)}
    (h : List.Forall₂ (fun group b => group.name = b.name ∧ RowValues p group.values b.entries) groups blocks) :
    ∀ q ∈ flatten groups, q.1 < p.rows.length := by
  unfold flatten
  induction h with
  | nil => simp
  | cons h1 _ ih =>
    intro q hq
    rw [List.flatMap_cons, List.mem_append] at hq
    rcases hq with hq | hq
    · exact rowValues_lt h1.2 q hq
    · exact ih q hq

theorem columnValues_lt {values : List (ℕ × BoundType)} {bounds : List BoundLine} (h : ColumnValues p values bounds) :
    ∀ q ∈ values, q.1 < p.columns.length := by
  intro q hq
  have := h.mem_iff.1 (List.mem_map.2 ⟨q, hq, rfl⟩)
  obtain ⟨e, -, he⟩ := List.mem_map.1 this
  have := (Prod.mk.inj he).1
  by_contra hc
  rw [List.getElem?_eq_none (not_lt.1 hc)] at this
  cases this

theorem bounds_lt {groups : List (Listing BoundType)} {blocks : List (Block BoundLine)}
    (h : List.Forall₂ (fun group b => group.name = b.name ∧ ColumnValues p group.values b.lines) groups blocks) :
    ∀ q ∈ flatten groups, q.1 < p.columns.length := by
  unfold flatten
  induction h with
  | nil => simp
  | cons h1 _ ih =>
    intro q hq
    rw [List.flatMap_cons, List.mem_append] at hq
    rcases hq with hq | hq
    · exact columnValues_lt h1.2 q hq
    · exact ih q hq

theorem bounds_mem {groups : List (Listing BoundType)} {blocks : List (Block BoundLine)}
    (h : List.Forall₂ (fun group b => group.name = b.name ∧ ColumnValues p group.values b.lines) groups blocks)
    (hc : (p.columns.map (·.name)).Nodup) {j : ℕ} (hj : j < p.columns.length) (t : BoundType) :
    (j, t) ∈ flatten groups ↔
      ∃ g ∈ blocks, ∃ l ∈ g.lines, l.column = p.columns[j].name ∧ l.bound.meaning = t := by
  unfold flatten
  induction h with
  | nil => simp
  | cons h1 _ ih =>
    rw [List.flatMap_cons, List.mem_append, ih, exists_cons]
    refine or_congr_left ?_
    rename_i g b _ _ _
    have h2 : (j, t) ∈ g.values ↔ (some p.columns[j].name, t) ∈
        g.values.map fun q => ((p.columns[q.1]?).map (·.name), q.2) := by
      rw [List.mem_map]
      constructor
      · intro hm
        exact ⟨_, hm, Prod.ext ((lookup_iff hc hj).2 rfl) rfl⟩
      · rintro ⟨⟨k, w⟩, hm, he⟩
        obtain ⟨e1, e2⟩ := Prod.mk.inj he
        have := (lookup_iff hc hj).1 e1
        subst this
        subst e2
        exact hm
    rw [h2, h1.2.mem_iff, List.mem_map]
    refine exists_congr fun e => and_congr_right fun _ => ?_
    rw [Prod.mk.injEq, Option.some.injEq]

/-- The entries of a block, without those for the cost row. -/
theorem coefficient_filter {b : Block EntryLine} {cost row : Text} (h : row ≠ cost) :
    ((b.entries.filter fun e => e.row ≠ cost).map fun e => if e.row = row then e.number.value else 0).sum =
      b.coefficient row := by
  unfold Block.coefficient
  induction b.entries with
  | nil => rfl
  | cons e l ih =>
    by_cases he : e.row = cost
    · rw [List.filter_cons_of_neg (by simpa using he), List.map_cons, List.sum_cons, ih,
        if_neg (by rw [he]; exact Ne.symm h), zero_add]
    · rw [List.filter_cons_of_pos (by simpa using he), List.map_cons, List.map_cons, List.sum_cons, List.sum_cons, ih]

include hd in
theorem names_eq : p.columns.map (·.name) = F.blocks.map (·.name) := by
  have : F.blocks = (typedColumns false F.columns).map (·.2) := (typedColumns_blocks false F.columns).symm
  rw [this, List.map_map]
  exact forall₂_map hd.columns fun _ _ h => h.1

include hd hr in
theorem activity_eq {i : ℕ} (hi : i < p.rows.length) (hcost : p.costRowName ≠ p.rows[i].name) (x : Text → ℚ) :
    activity p (fun j => x p.columns[j].name) i = F.activity x p.rows[i].name := by
  have h1 : activity p (fun j => x p.columns[j].name) i =
      (p.columns.map fun c => SVec.val c.values i * x c.name).sum := by
    unfold activity
    rw [← List.sum_ofFn]
    congr 1
    exact List.ofFn_getElem_eq_map p.columns fun c => SVec.val c.values i * x c.name
  have h2 : F.activity x p.rows[i].name =
      ((typedColumns false F.columns).map fun q => q.2.coefficient p.rows[i].name * x q.2.name).sum := by
    unfold File.activity
    have : F.blocks = (typedColumns false F.columns).map (·.2) := (typedColumns_blocks false F.columns).symm
    rw [this, List.map_map]
    rfl
  rw [h1, h2]
  congr 1
  refine forall₂_map hd.columns fun c b h => ?_
  rw [rowValues_val hr h.2.2 hi, coefficient_filter hcost.symm, h.1]

theorem costs_sum {cost : Text} {x : Text → ℚ} {y : ℕ → ℚ} (blocks : List (Block EntryLine)) :
    ∀ k, (∀ (j : ℕ) b, blocks[j]? = some b → y (k + j) = x b.name) →
    (((blocks.zipIdx k).flatMap fun q =>
      (q.1.entries.filter fun e => e.row = cost).map fun e => (q.2, e.number.value)).map fun q => q.2 * y q.1).sum =
      (blocks.map fun b => b.coefficient cost * x b.name).sum := by
  induction blocks with
  | nil => intro k _; rfl
  | cons b blocks ih =>
    intro k h
    rw [List.zipIdx_cons, List.flatMap_cons, List.map_append, List.sum_append, List.map_cons, List.sum_cons,
      ih (k + 1) fun j c hc => by rw [← h (j + 1) c (by simpa using hc)]; congr 1; omega]
    congr 1
    have h0 : y k = x b.name := h 0 b rfl
    rw [List.map_map]
    unfold Block.coefficient
    generalize b.entries = l
    induction l with
    | nil => simp
    | cons e l ih' =>
      rw [List.map_cons, List.sum_cons, add_mul, ← ih']
      by_cases he : e.row = cost
      · rw [List.filter_cons_of_pos (by simpa using he), List.map_cons, List.sum_cons, if_pos he]
        simp only [Function.comp, h0]
      · rw [List.filter_cons_of_neg (by simpa using he), if_neg he, zero_mul, zero_add]

include hd in
theorem objective_eq (hc : (F.rows.filter fun row => row.1.isNone).length = 1) (x : Text → ℚ) :
    objectiveValue p (fun j => x p.columns[j].name) = F.objectiveValue x := by
  have hcost : (F.rows.filter fun row => row.1.isNone) = [(none, p.costRowName)] := by
    obtain ⟨a, ha⟩ := List.length_eq_one_iff.1 hc
    have : (none, p.costRowName) ∈ F.rows.filter fun row => row.1.isNone := List.mem_filter.2 ⟨hd.cost, rfl⟩
    rw [ha, List.mem_singleton] at this
    rw [ha, ← this]
  have hl : p.columns.length = F.blocks.length := by
    have := congrArg List.length (names_eq hd)
    simpa using this
  unfold objectiveValue File.objectiveValue
  rw [hcost, List.map_singleton, List.sum_singleton, hd.costs]
  unfold File.activity
  refine costs_sum (y := fun j => if h : j < p.columns.length then x p.columns[j].name else 0) F.blocks 0 ?_
  intro j b hb
  obtain ⟨hj, rfl⟩ := List.getElem?_eq_some_iff.1 hb
  have hj' : j < p.columns.length := hl ▸ hj
  simp only [zero_add]
  rw [dif_pos hj']
  have := congrArg (fun l => l[j]?) (names_eq hd)
  simp only [List.getElem?_map, List.getElem?_eq_getElem hj, List.getElem?_eq_getElem hj', Option.map_some,
    Option.some.injEq] at this
  rw [this]

include hd in
/-- The names of the rows are different. -/
theorem row_names (hn : (F.rows.map (·.2)).Nodup) : (p.rows.map (·.name)).Nodup ∧
    ∀ i (hi : i < p.rows.length), (some p.rows[i].relation, p.rows[i].name) ∈ F.rows ∧
      p.costRowName ≠ p.rows[i].name := by
  have hmem : ∀ i (hi : i < p.rows.length), (some p.rows[i].relation, p.rows[i].name) ∈ F.rows := by
    intro i hi
    exact (List.mem_filter.1 (hd.rows.mem_iff.1 (List.mem_map.2 ⟨_, List.getElem_mem hi, rfl⟩))).1
  refine ⟨?_, fun i hi => ⟨hmem i hi, fun he => ?_⟩⟩
  · have h1 : (p.rows.map (·.name)) = (p.rows.map fun row => (some row.relation, row.name)).map (·.2) := by
      rw [List.map_map]
      rfl
    rw [h1, (hd.rows.map _).nodup_iff]
    exact hn.sublist (List.filter_sublist.map _)
  · have := List.inj_on_of_nodup_map hn hd.cost (hmem i hi) he
    cases (Prod.mk.inj this).1

include hd in
/-- **Both have the same feasible points and objective values.** -/
theorem describes_feasible (hc : F.Consistent) (hu : (F.blocks.map (·.name)).Nodup) (x : Text → ℚ) :
    p.Feasible (fun j => x p.columns[j].name) ↔ F.Feasible x := by
  obtain ⟨hr, hrow⟩ := row_names hd hc.rows
  have hcn : (p.columns.map (·.name)).Nodup := by rw [names_eq hd]; exact hu
  have hrowHolds : ∀ i (hi : i < p.rows.length) (v : ℚ),
      RowHolds p i p.rows[i].relation v ↔ F.RowHolds p.rows[i].name p.rows[i].relation v := by
    intro i hi v
    have e1 : ∀ b, (i, b) ∈ flatten p.rhss ↔ F.GivenRhs p.rows[i].name b := groups_mem hr hd.rhs hi
    have e2 : ∀ r, (i, r) ∈ flatten p.ranges ↔ F.IsRange p.rows[i].name r := groups_mem hr hd.ranges hi
    unfold RowHolds File.RowHolds IsRhs File.IsRhs
    simp only [e1, e2]
  have hvar : ∀ j (hj : j < p.columns.length) (v : ℚ),
      VariableHolds p j v ↔ F.VariableHolds p.columns[j].name v := by
    intro j hj v
    have e1 : ∀ t, (j, t) ∈ flatten p.bounds ↔ F.IsBound p.columns[j].name t := bounds_mem hd.bounds hcn hj
    unfold VariableHolds File.VariableHolds
    simp only [e1]
  unfold Feasible File.Feasible
  refine and_congr ⟨fun h relation row hm => ?_, fun h i => ?_⟩ ⟨fun h b hb => ?_, fun h j => ?_⟩
  · have hm' : (some relation, row) ∈ p.rows.map fun row => (some row.relation, row.name) :=
      hd.rows.mem_iff.2 (List.mem_filter.2 ⟨hm, rfl⟩)
    obtain ⟨r, hr', he⟩ := List.mem_map.1 hm'
    obtain ⟨i, hi, rfl⟩ := List.getElem_of_mem hr'
    obtain ⟨e1, rfl⟩ := Prod.mk.inj he
    cases e1
    rw [← activity_eq hd hr hi (hrow i hi).2]
    exact (hrowHolds i hi _).1 (h ⟨i, hi⟩)
  · have := h _ _ (hrow i i.2).1
    rw [← activity_eq hd hr i.2 (hrow i i.2).2] at this
    exact (hrowHolds i i.2 _).2 this
  · have hm : b.name ∈ p.columns.map (·.name) := by
      rw [names_eq hd]
      exact List.mem_map.2 ⟨b, hb, rfl⟩
    obtain ⟨c, hc, he⟩ := List.mem_map.1 hm
    obtain ⟨j, hj, rfl⟩ := List.getElem_of_mem hc
    rw [← he]
    exact (hvar j hj _).1 (h ⟨j, hj⟩)
  · have hm : p.columns[j].name ∈ F.blocks.map (·.name) := by
      rw [← names_eq hd]
      exact List.mem_map.2 ⟨_, List.getElem_mem j.2, rfl⟩
    obtain ⟨b, hb, he⟩ := List.mem_map.1 hm
    have := h b hb
    rw [he] at this
    exact (hvar j j.2 _).2 this

end

end Relp.Mps
