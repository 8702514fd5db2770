import Verif.Proof.MpsMeaning
import Verif.Props.Mps

/-!
# From a file to the conversion of the program it describes
-/

namespace Relp.Mps

open Spec

variable {F : File} {p : Mps}

theorem contents_ascii {text : Text} {lines : List Text} (h : Contents text lines) (ha : ∀ c ∈ text, c.toNat < 128) :
    ∀ line ∈ lines, Ascii line := by
  induction h with
  | nil => simp
  | lastComment _ _ => simp
  | last _ _ _ _ =>
    intro l hl
    rw [List.mem_singleton.1 hl]
    exact ha
  | comment _ _ _ ih => exact ih fun c hc => ha c (by simp [hc])
  | line _ _ _ _ _ ih =>
    intro l hl
    rcases List.mem_cons.1 hl with rfl | hl
    · exact fun c hc => ha c (by simp [hc])
    · exact ih (fun c hc => ha c (by simp [hc])) l hl
  | lineReturn _ _ _ _ ih =>
    intro l hl
    rcases List.mem_cons.1 hl with rfl | hl
    · exact fun c hc => ha c (by simp [hc])
    · exact ih (fun c hc => ha c (by simp [hc])) l hl

theorem rowValues_wf {values : List (ℕ × ℚ)} {entries : List Entry} (h : RowValues p values entries)
    (hz : ∀ e ∈ entries, e.number.value ≠ 0) : SVec.WF values := by
  refine ⟨h.1, fun q hq => ?_⟩
  have := h.2.mem_iff.1 (List.mem_map.2 ⟨q, hq, rfl⟩)
  obtain ⟨e, he, e1⟩ := List.mem_map.1 this
  rw [← (Prod.mk.inj e1).2]
  exact hz e he

theorem costs_pairwise {cost : Text} (blocks : List (Block EntryLine))
    (h : ∀ b ∈ blocks, (b.entries.filter fun e => e.row = cost).length ≤ 1) : ∀ k,
    (((blocks.zipIdx k).flatMap fun q =>
      (q.1.entries.filter fun e => e.row = cost).map fun e => (q.2, e.number.value)).Pairwise fun a b => a.1 < b.1) ∧
    ∀ q ∈ ((blocks.zipIdx k).flatMap fun q =>
      (q.1.entries.filter fun e => e.row = cost).map fun e => (q.2, e.number.value)), k ≤ q.1 := by
  induction blocks with
  | nil => intro k; simp
  | cons b blocks ih =>
    intro k
    obtain ⟨h1, h2⟩ := List.forall_mem_cons.1 h
    obtain ⟨i1, i2⟩ := ih h2 (k + 1)
    rw [List.zipIdx_cons, List.flatMap_cons]
    have hk : ∀ q ∈ (b.entries.filter fun e => e.row = cost).map fun e => (k, e.number.value), q.1 = k := by
      intro q hq
      obtain ⟨e, -, rfl⟩ := List.mem_map.1 hq
      rfl
    refine ⟨List.pairwise_append.2 ⟨?_, i1, ?_⟩, ?_⟩
    · generalize b.entries.filter (fun e => e.row = cost) = l at h1
      match l, h1 with
      | [], _ => exact .nil
      | [_], _ => exact List.pairwise_singleton _ _
    · intro a ha c hc
      rw [hk a ha]
      exact i2 c hc
    · intro q hq
      rcases List.mem_append.1 hq with hq | hq
      · exact (hk q hq).ge
      · exact le_trans (Nat.le_succ _) (i2 q hq)

/-- Number of values for a row. -/
theorem groups_count (hr : (p.rows.map (·.name)).Nodup) {groups : List (Listing ℚ)} {blocks : List (Block EntryLine)}
    (h : List.Forall₂ (fun group b => group.name = b.name ∧ RowValues p group.values b.entries) groups blocks)
    {i : ℕ} (hi : i < p.rows.length) :
    ((flatten groups).filter fun q => q.1 = i).length =
      ((blocks.flatMap Block.entries).filter fun e => e.row = p.rows[i].name).length := by
  unfold flatten
  induction h with
  | nil => rfl
  | cons h1 _ ih =>
    rename_i g b _ _ _
    rw [List.flatMap_cons, List.flatMap_cons, List.filter_append, List.filter_append, List.length_append,
      List.length_append, ih]
    congr 1
    have e1 : (g.values.filter fun q => q.1 = i).length =
        ((g.values.map fun q => ((p.rows[q.1]?).map (·.name), q.2)).filter fun q => q.1 = some p.rows[i].name).length := by
      rw [List.filter_map, List.length_map]
      congr 1
      refine List.filter_congr fun q _ => ?_
      simp only [Function.comp, decide_eq_decide]
      exact (lookup_iff hr hi).symm
    rw [e1, (h1.2.2.filter _).length_eq, List.filter_map, List.length_map]
    congr 1
    refine List.filter_congr fun e _ => ?_
    simp [Function.comp]

theorem forall₂_mem_left {α β : Type} {R : α → β → Prop} {l : List α} {m : List β} (h : List.Forall₂ R l m) {a : α}
    (ha : a ∈ l) : ∃ b ∈ m, R a b := by
  induction h with
  | nil => cases ha
  | cons h1 _ ih =>
    rcases List.mem_cons.1 ha with rfl | ha
    · exact ⟨_, List.mem_cons_self, h1⟩
    · obtain ⟨b, hb, h2⟩ := ih ha
      exact ⟨b, List.mem_cons_of_mem _ hb, h2⟩

theorem groups_perm {groups : List (Listing ℚ)} {blocks : List (Block EntryLine)}
    (h : List.Forall₂ (fun group b => group.name = b.name ∧ RowValues p group.values b.entries) groups blocks) :
    ((flatten groups).map fun q => ((p.rows[q.1]?).map (·.name), q.2)).Perm
      ((blocks.flatMap Block.entries).map fun e => (some e.row, e.number.value)) := by
  unfold flatten
  induction h with
  | nil => exact .nil
  | cons h1 _ ih =>
    rw [List.flatMap_cons, List.flatMap_cons, List.map_append, List.map_append]
    exact h1.2.2.append ih

section

variable (hd : F.Describes p) (hc : F.Consistent)

include hd hc

theorem cost_iff (name : Text) : (none, name) ∈ F.rows ↔ name = p.costRowName := by
  obtain ⟨a, ha⟩ := List.length_eq_one_iff.1 hc.cost
  have e : ∀ q : Option Relation × Text, q ∈ F.rows ∧ q.1.isNone ↔ q = a := by
    intro q
    have := List.mem_filter (p := fun row : Option Relation × Text => row.1.isNone) (as := F.rows) (x := q)
    rw [ha, List.mem_singleton] at this
    exact this.symm
  have h1 := (e _).1 ⟨hd.cost, rfl⟩
  constructor
  · intro h
    have := (e _).1 ⟨h, rfl⟩
    rw [← h1] at this
    exact (Prod.mk.inj this).2
  · rintro rfl
    exact hd.cost

omit hc in
theorem index_of_row {relation : Relation} {row : Text} (h : (some relation, row) ∈ F.rows) :
    ∃ i, ∃ hi : i < p.rows.length, p.rows[i].relation = relation ∧ p.rows[i].name = row := by
  have hm' : (some relation, row) ∈ p.rows.map fun row => (some row.relation, row.name) :=
    hd.rows.mem_iff.2 (List.mem_filter.2 ⟨h, rfl⟩)
  obtain ⟨r, hr', he⟩ := List.mem_map.1 hm'
  obtain ⟨i, hi, rfl⟩ := List.getElem_of_mem hr'
  obtain ⟨e1, e2⟩ := Prod.mk.inj he
  exact ⟨i, hi, Option.some.inj e1, e2⟩

omit hc in
theorem index_of_column {column : Text} (h : column ∈ F.blocks.map (·.name)) :
    ∃ j, ∃ hj : j < p.columns.length, p.columns[j].name = column := by
  rw [← names_eq hd] at h
  obtain ⟨c, hc, he⟩ := List.mem_map.1 h
  obtain ⟨j, hj, rfl⟩ := List.getElem_of_mem hc
  exact ⟨j, hj, he⟩

theorem rhs_iff {i : ℕ} (hi : i < p.rows.length) (v : ℚ) :
    (i, v) ∈ flatten p.rhss ↔ F.GivenRhs p.rows[i].name v := groups_mem (row_names hd hc.rows).1 hd.rhs hi v

theorem range_iff {i : ℕ} (hi : i < p.rows.length) (v : ℚ) :
    (i, v) ∈ flatten p.ranges ↔ F.IsRange p.rows[i].name v := groups_mem (row_names hd hc.rows).1 hd.ranges hi v

theorem wellFormed (hs : F.Sound) : p.WellFormed where
  values c hm := by
    obtain ⟨b, hb, h1⟩ := forall₂_mem_left hd.columns hm
    refine rowValues_wf h1.2.2 fun e he => ?_
    obtain ⟨he, hne⟩ := List.mem_filter.1 he
    have hb' : b.2 ∈ F.blocks := by
      have : F.blocks = (typedColumns false F.columns).map (·.2) := (typedColumns_blocks false F.columns).symm
      rw [this]
      exact List.mem_map.2 ⟨b, hb, rfl⟩
    refine hs.nonzero _ hb' e he ((hc.columns _ hb').1 e (List.mem_filter.2 ⟨he, ?_⟩))
    rw [decide_eq_true_eq] at hne ⊢
    rwa [cost_iff hd hc]
  valuesInRange c hm := by
    obtain ⟨b, -, h1⟩ := forall₂_mem_left hd.columns hm
    exact rowValues_lt h1.2.2
  costs := by
    rw [hd.costs]
    refine (costs_pairwise _ (fun b hb => ?_) 0).1
    have := hs.costs b hb
    simp only [cost_iff hd hc] at this
    exact this
  costsInRange := by
    intro q hq
    rw [hd.costs, List.mem_flatMap] at hq
    obtain ⟨⟨b, j⟩, h1, h2⟩ := hq
    obtain ⟨e, -, rfl⟩ := List.mem_map.1 h2
    have := congrArg List.length (names_eq hd)
    rw [List.length_map, List.length_map] at this
    rw [this]
    exact (List.mem_zipIdx' h1).1
  rhssInRange := groups_lt hd.rhs
  rangesInRange := groups_lt hd.ranges
  boundsInRange := bounds_lt hd.bounds

theorem rangesMeant (hs : F.Sound) : RangesMeant p := by
  intro i r row h1 h2
  obtain ⟨hi, rfl⟩ := List.getElem?_eq_some_iff.1 h2
  rw [range_iff hd hc hi] at h1
  simp only [rhs_iff hd hc hi]
  exact hs.ranges _ _ _ h1 ((row_names hd hc.rows).2 i hi).1

omit hc in
theorem names_nodup (hu : (F.blocks.map (·.name)).Nodup) : (p.columns.map (·.name)).Nodup := by
  rw [names_eq hd]; exact hu

omit hc in
theorem bound_iff (hu : (F.blocks.map (·.name)).Nodup) {j : ℕ} (hj : j < p.columns.length) (t : BoundType) :
    (j, t) ∈ flatten p.bounds ↔ F.IsBound p.columns[j].name t := bounds_mem hd.bounds (names_nodup hd hu) hj t

theorem bounds_meant (hs : F.Sound) : ∀ j < p.columns.length, ∃ x, VariableHolds p j x := by
  intro j hj
  have hm : p.columns[j].name ∈ F.blocks.map (·.name) := by
    rw [← names_eq hd]
    exact List.mem_map.2 ⟨_, List.getElem_mem hj, rfl⟩
  obtain ⟨b, hb, he⟩ := List.mem_map.1 hm
  obtain ⟨x, hx⟩ := hs.bounds b hb
  rw [he] at hx
  refine ⟨x, ?_⟩
  unfold VariableHolds
  unfold File.VariableHolds at hx
  simp only [bound_iff hd hs.names hj]
  exact hx

omit hc in
theorem no_semiContinuous (hu : (F.blocks.map (·.name)).Nodup) (j : ℕ) (a b : ℚ) :
    (j, .semiContinuous a b) ∉ flatten p.bounds := by
  intro h
  have hj := bounds_lt hd.bounds _ h
  rw [bound_iff hd hu hj] at h
  obtain ⟨g, -, l, -, -, h⟩ := h
  cases hl : l.bound <;> rw [hl] at h <;> cases h

theorem ranges_once : ((flatten p.ranges).map (·.1)).Nodup := by
  have h1 := (groups_perm hd.ranges).map Prod.fst
  rw [List.map_map, List.map_map] at h1
  have h2 : ((F.ranges.getD []).flatMap Block.entries |>.map (Prod.fst ∘ fun e => (some e.row, e.number.value))).Nodup := by
    have : (Prod.fst ∘ fun e : Entry => (some e.row, e.number.value)) = some ∘ fun e => e.row := rfl
    rw [this, ← List.map_map]
    exact hc.ranges.2.map (Option.some_injective _)
  have h3 := h1.nodup_iff.2 h2
  have h4 : (Prod.fst ∘ fun q : ℕ × ℚ => ((p.rows[q.1]?).map (·.name), q.2)) =
      (fun i => (p.rows[i]?).map (·.name)) ∘ fun q => q.1 := rfl
  rw [h4, ← List.map_map] at h3
  exact h3.of_map

theorem rejected_iff (hs : F.Sound) :
    ((∃ G, p.toGeneralForm = .ok G) ∨ p.toGeneralForm = .error .inconsistency) ∧
    (p.toGeneralForm = .error .inconsistency ↔ F.Conflict ∨ F.RepeatedRhs) := by
  obtain ⟨h1, h2⟩ := C52_rejected p (wellFormed hd hc hs) (no_semiContinuous hd hs.names)
  refine ⟨h1, h2.trans ?_⟩
  obtain ⟨hr, hrow⟩ := row_names hd hc.rows
  constructor
  · rintro (⟨j, t, g1, g2, g3⟩ | g1 | ⟨i, r, v, w, g1, g2, g3, g4⟩ | ⟨i, row, g1, g2, ⟨v, w, g3, g4, g5⟩ | ⟨g3, r, g4, g5⟩⟩)
    · have hj := bounds_lt hd.bounds _ g1
      rw [bound_iff hd hs.names hj] at g1 g2
      exact Or.inl (Or.inl ⟨_, _, g1, g2, g3⟩)
    · exact absurd (ranges_once hd hc) g1
    · have hi := groups_lt hd.ranges _ g1
      rw [range_iff hd hc hi] at g1
      rw [rhs_iff hd hc hi] at g2 g3
      exact Or.inl (Or.inr (Or.inl ⟨_, _, _, _, g1, g2, g3, g4⟩))
    · obtain ⟨hi, rfl⟩ := List.getElem?_eq_some_iff.1 g1
      rw [rhs_iff hd hc hi] at g3 g4
      have := (hrow i hi).1
      rw [g2] at this
      exact Or.inl (Or.inr (Or.inr ⟨_, _, _, this, g3, g4, g5⟩))
    · obtain ⟨hi, rfl⟩ := List.getElem?_eq_some_iff.1 g1
      rw [range_iff hd hc hi] at g5
      rw [groups_count hr hd.rhs hi] at g3
      have := (hrow i hi).1
      rw [g2] at this
      exact Or.inr ⟨_, _, this, g5, g4, g3⟩
  · rintro ((⟨column, t, g1, g2, g3⟩ | ⟨row, r, v, w, g1, g2, g3, g4⟩ | ⟨row, v, w, g1, g2, g3, g4⟩) | ⟨row, r, g1, g2, g3, g4⟩)
    · have : column ∈ F.blocks.map (·.name) := by
        obtain ⟨g, hg, l, hl, rfl, -⟩ := g1
        exact hc.bounds g hg l hl
      obtain ⟨j, hj, rfl⟩ := index_of_column hd this
      rw [← bound_iff hd hs.names hj] at g1 g2
      exact Or.inl ⟨_, _, g1, g2, g3⟩
    · have : F.IsConstraint row := by
        obtain ⟨g, hg, e, he, rfl, -⟩ := g2
        exact (hc.rhs g hg).1 e he
      obtain ⟨relation, h⟩ := this
      obtain ⟨i, hi, -, rfl⟩ := index_of_row hd h
      rw [← range_iff hd hc hi] at g1
      rw [← rhs_iff hd hc hi] at g2 g3
      exact Or.inr (Or.inr (Or.inl ⟨_, _, _, _, g1, g2, g3, g4⟩))
    · obtain ⟨i, hi, e1, rfl⟩ := index_of_row hd g1
      rw [← rhs_iff hd hc hi] at g2 g3
      exact Or.inr (Or.inr (Or.inr ⟨i, _, List.getElem?_eq_getElem hi, e1, Or.inl ⟨_, _, g2, g3, g4⟩⟩))
    · obtain ⟨i, hi, e1, rfl⟩ := index_of_row hd g1
      rw [← range_iff hd hc hi] at g2
      rw [← groups_count hr hd.rhs hi] at g4
      exact Or.inr (Or.inr (Or.inr ⟨i, _, List.getElem?_eq_getElem hi, e1, Or.inr ⟨g4, _, g3, g2⟩⟩))

omit hc in
/-- Points by index are points by name. -/
theorem point_of (hu : (F.blocks.map (·.name)).Nodup) (x : Fin p.columns.length → ℚ) :
    ∃ y : Text → ℚ, x = fun j => y p.columns[j].name := by
  refine ⟨fun t => if h : ∃ j : Fin p.columns.length, p.columns[j].name = t then x h.choose else 0, ?_⟩
  funext j
  have h : ∃ k : Fin p.columns.length, p.columns[k].name = p.columns[j].name := ⟨j, rfl⟩
  show x j = if h : ∃ k : Fin p.columns.length, p.columns[k].name = p.columns[j].name then x h.choose else 0
  rw [dif_pos h]
  congr 1
  refine Fin.ext ((List.Nodup.getElem_inj_iff (names_nodup hd hu) (hi := by simp) (hj := by simp)).1 ?_)
  rw [List.getElem_map, List.getElem_map]
  exact h.choose_spec.symm

theorem best_of (hu : (F.blocks.map (·.name)).Nodup) {x : Text → ℚ} (h : p.Best fun j => x p.columns[j].name) :
    F.Best x := by
  refine ⟨(describes_feasible hd hc hu x).1 h.1, fun y hy => ?_⟩
  have := h.2 _ ((describes_feasible hd hc hu y).2 hy)
  rw [objective_eq hd hc.cost, objective_eq hd hc.cost, hd.objective] at this
  exact this

omit hc in
theorem values_eq (x : Text → ℚ) :
    List.ofFn (fun j : Fin p.columns.length => (String.ofList p.columns[j].name, x p.columns[j].name)) =
      F.blocks.map fun b => (String.ofList b.name, x b.name) := by
  have h1 : (F.blocks.map fun b => (String.ofList b.name, x b.name)) =
      (F.blocks.map (·.name)).map fun t => (String.ofList t, x t) := by rw [List.map_map]; rfl
  rw [h1, ← names_eq hd, List.map_map]
  refine List.ext_getElem (by simp) fun j h2 h3 => ?_
  rw [List.getElem_ofFn, List.getElem_map]
  rfl

end

end Relp.Mps
