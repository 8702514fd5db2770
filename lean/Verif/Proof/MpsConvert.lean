import Verif.Proof.MpsRows
import Verif.Proof.Vector
import Verif.Props.GeneralForm

/-!
# The conversion of an MPS program as a whole
-/

namespace Relp.Mps

open Matrix

/-! ### Rows -/

/-- A range without right-hand side has the documented meaning only in one case. -/
def RangesMeant (p : Mps) : Prop :=
  ∀ i r row, (i, r) ∈ flatten p.ranges → p.rows[i]? = some row →
    r = 0 ∨ (∃ b, (i, b) ∈ flatten p.rhss) ∨ row.relation = .less ∧ 0 < r

theorem isRhs_iff {p : Mps} {i : ℕ} {b : ℚ} :
    IsRhs p i b ↔ b ∈ valuesOf (flatten p.rhss) i ∨ valuesOf (flatten p.rhss) i = [] ∧ b = 0 := by
  unfold IsRhs
  rw [mem_valuesOf, List.eq_nil_iff_forall_not_mem]
  simp only [mem_valuesOf]

theorem row_holds {p : Mps} {ranges : List (ℕ × ℚ)} (h : computeRanges p.rhss p.ranges p.rows.length = .ok ranges)
    {i : ℕ} {row : Row} (hi : p.rows[i]? = some row) {t : ConstraintType}
    (ht : (computeConstraintTypes 0 p.rows ranges)[i]? = some t) {s' : RowState}
    (hs : (valuesOf (flatten p.rhss) i).foldlM computeBRow ⟨row.relation, t, none⟩ = .ok s') (x : ℚ) :
    ((∀ r, (i, r) ∈ flatten p.ranges → r = 0 ∨ (∃ b, (i, b) ∈ flatten p.rhss) ∨ row.relation = .less ∧ 0 < r) →
      (s'.type.Holds (s'.b.getD 0) x ↔ RowHolds p i row.relation x) ∧ ∀ r, s'.type = .range r → 0 ≤ r) ∧
    ((∀ r, (i, r) ∉ flatten p.ranges) →
      s'.type = row.relation.toConstraintType ∧ IsRhs p i (s'.b.getD 0)) := by
  obtain ⟨h1, h2, h3⟩ := computeRanges_ok h
  obtain ⟨t1, t2⟩ := computeConstraintTypes_getElem? h1 (fun _ _ => Nat.zero_le _) hi
  rw [ht] at t1 t2
  simp only [zero_add, h2, Option.some.injEq] at t1 t2
  unfold RowHolds
  simp only [isRhs_iff]
  by_cases hr : ∃ r, (i, r) ∈ flatten p.ranges
  · obtain ⟨r, hr⟩ := hr
    refine ⟨fun hm => ?_, fun hc => absurd hr (hc r)⟩
    have hu : ∀ r', (i, r') ∈ flatten p.ranges → r' = r := by
      intro r' hr'
      rw [← h2] at hr hr'
      by_contra hne
      have : (i, r') ≠ (i, r) := fun e => hne (Prod.mk.inj e).2
      rcases List.pairwise_iff_getElem.1 h1 with hp
      obtain ⟨a, ha, ea⟩ := List.getElem_of_mem hr
      obtain ⟨b, hb, eb⟩ := List.getElem_of_mem hr'
      rcases lt_trichotomy a b with hab | hab | hab
      · have := hp a b ha hb hab
        rw [ea, eb] at this
        exact lt_irrefl _ this
      · subst hab
        exact this (eb.symm.trans ea)
      · have := hp b a hb ha hab
        rw [ea, eb] at this
        exact lt_irrefl _ this
    have hv := h3 i r hr
    have hR : ∀ b, (∀ r', (i, r') ∈ flatten p.ranges → RangeHolds row.relation r' b x) ∧
        ((∀ r', (i, r') ∉ flatten p.ranges) → row.relation.Holds b x) ↔ RangeHolds row.relation r b x := by
      intro b
      constructor
      · exact fun h => h.1 r hr
      · exact fun h => ⟨fun r' hr' => by rw [hu r' hr']; exact h, fun hc => absurd hr (hc r)⟩
    simp only [hR]
    have ht' := t1 r hr
    by_cases h0 : r = 0
    · rw [if_pos h0] at ht'
      subst ht'
      rw [h0]
      obtain ⟨z1, z2⟩ := row_zero_range hs hv x
      exact ⟨z2, fun r hr => by rw [z1] at hr; cases hr⟩
    · rw [if_neg h0] at ht'
      subst ht'
      by_cases hne : valuesOf (flatten p.rhss) i = []
      · rcases hm r hr with h | ⟨b, hb⟩ | ⟨h, hpos⟩
        · exact absurd h h0
        · exact absurd (mem_valuesOf.2 hb) (by rw [hne]; exact List.not_mem_nil)
        · rw [hne] at hs ⊢
          cases hs
          refine ⟨?_, fun r' hr' => by injection hr' with hr'; rw [← hr']; exact hpos.le⟩
          rw [h]
          simp [ConstraintType.Holds, RangeHolds, abs_of_pos hpos]
          intro _
          constructor <;> intro h' <;> linarith
      · obtain ⟨z1, z2⟩ := row_with_range h0 hs hv hne x
        exact ⟨z2, fun r hr => by rw [z1] at hr; injection hr with hr; rw [← hr]; exact abs_nonneg _⟩
  · push Not at hr
    have ht' := t2 hr
    subst ht'
    obtain ⟨r1, r3, r2⟩ := row_without_range hs x
    refine ⟨fun _ => ⟨?_, fun r hr => absurd (r1 ▸ hr) (toConstraintType_ne_range _ _)⟩, fun _ => ⟨r1, r3⟩⟩
    rw [r2]
    constructor
    · exact fun h b hb => ⟨fun r hr' => absurd hr' (hr r), fun _ => h b hb⟩
    · exact fun h b hb => (h b hb).2 hr

theorem computeConstraintInfo_ok {p : Mps} {types : List ConstraintType} {b : List ℚ}
    (h : computeConstraintInfo p.rows p.rhss p.ranges = .ok (types, b)) :
    types.length = p.rows.length ∧ b.length = p.rows.length ∧
    ∃ ranges, computeRanges p.rhss p.ranges p.rows.length = .ok ranges ∧
    ∀ i row, p.rows[i]? = some row → ∃ t s', (computeConstraintTypes 0 p.rows ranges)[i]? = some t ∧
      types[i]? = some s'.type ∧ b[i]? = some (s'.b.getD 0) ∧
      (valuesOf (flatten p.rhss) i).foldlM computeBRow ⟨row.relation, t, none⟩ = .ok s' := by
  unfold computeConstraintInfo at h
  match hr : computeRanges p.rhss p.ranges p.rows.length with
  | .error e => rw [hr] at h; cases h
  | .ok ranges =>
    rw [hr] at h
    simp only [bind, Except.bind] at h
    split at h
    · cases h
    rename_i states hf
    injection h with h
    rw [Prod.mk.injEq] at h
    obtain ⟨rfl, rfl⟩ := h
    obtain ⟨h1, h2, h3⟩ := foldlM_updateAt_ok hf
    have hlen : states.length = p.rows.length := by
      rw [h1, List.length_map, List.length_zip, computeConstraintTypes_length, min_self]
    refine ⟨by rw [List.length_map, hlen], by rw [List.length_map, hlen], ranges, rfl, fun i row hi => ?_⟩
    have hlt : i < (computeConstraintTypes 0 p.rows ranges).length := by
      rw [computeConstraintTypes_length]
      exact (List.getElem?_eq_some_iff.1 hi).1
    have ht := List.getElem?_eq_getElem hlt
    obtain ⟨s', h4, h5⟩ := h3 i ⟨row.relation, _, none⟩ (by
      have : (p.rows.zip (computeConstraintTypes 0 p.rows ranges))[i]? =
          some (row, (computeConstraintTypes 0 p.rows ranges)[i]) := List.getElem?_zip_eq_some.2 ⟨hi, ht⟩
      rw [List.getElem?_map, this]
      rfl)
    exact ⟨_, s', ht, by rw [List.getElem?_map, h4]; rfl, by rw [List.getElem?_map, h4]; rfl, h5⟩

/-- Why a right-hand side is rejected: it belongs to an equality for which there was one before. -/
theorem row_error {vs : List ℚ} {relation : Relation} {t : ConstraintType} {e}
    (h : vs.foldlM computeBRow ⟨relation, t, none⟩ = .error e) :
    e = .inconsistency ∧ relation = .equal ∧ 2 ≤ vs.length ∧
      ((∀ r, t = .range r → r < 0) → ∃ v ∈ vs, ∃ w ∈ vs, v ≠ w) := by
  cases vs with
  | nil => cases h
  | cons v vs =>
    rw [List.foldlM_cons] at h
    obtain ⟨c, t', h1, h2⟩ : ∃ c t', computeBRow ⟨relation, t, none⟩ v = .ok ⟨relation, t', some c⟩ ∧
        (relation = .equal → (∀ r, t = .range r → r < 0) → c = v) := by
      unfold computeBRow
      match t with
      | .equal => exact ⟨v, _, rfl, fun _ _ => rfl⟩
      | .greater => exact ⟨v, _, rfl, fun _ _ => rfl⟩
      | .less => exact ⟨v, _, rfl, fun _ _ => rfl⟩
      | .range r =>
        refine ⟨_, _, rfl, fun h1 h2 => ?_⟩
        have := h2 r rfl
        subst h1
        simp only [compare_lt_iff_lt.2 this]
    rw [h1] at h
    obtain ⟨h3, h4, w, h5, h6⟩ := foldlM_computeBRow_error (c := c) rfl h
    refine ⟨h3, h4, ?_, fun ht => ⟨w, List.mem_cons_of_mem _ h5, v, List.mem_cons_self, ?_⟩⟩
    · have := List.length_pos_iff.2 (List.ne_nil_of_mem h5)
      rw [List.length_cons]
      omega
    · rw [← h2 h4 ht]
      exact h6

theorem computeConstraintInfo_error {p : Mps} {e}
    (h : computeConstraintInfo p.rows p.rhss p.ranges = .error e) :
    (e = .inconsistency ∧ ((¬((flatten p.ranges).map (·.1)).Nodup) ∨
      (∃ i r v w, (i, r) ∈ flatten p.ranges ∧ (i, v) ∈ flatten p.rhss ∧ (i, w) ∈ flatten p.rhss ∧ v ≠ w) ∨
      ∃ i row, p.rows[i]? = some row ∧ row.relation = .equal ∧
        ((∃ v w, (i, v) ∈ flatten p.rhss ∧ (i, w) ∈ flatten p.rhss ∧ v ≠ w) ∨
        2 ≤ (valuesOf (flatten p.rhss) i).length ∧ ∃ r, 0 < r ∧ (i, r) ∈ flatten p.ranges))) ∨
    e = .panic ∧ ∃ q ∈ flatten p.rhss, p.rows.length ≤ q.1 := by
  unfold computeConstraintInfo at h
  match hr : computeRanges p.rhss p.ranges p.rows.length with
  | .error e' =>
    rw [hr] at h
    injection h with h
    subst h
    rcases computeRanges_error hr with ⟨h1, h2⟩ | h1
    · refine Or.inl ⟨h1, ?_⟩
      rcases h2 with h2 | h2
      · exact Or.inl h2
      · exact Or.inr (Or.inl h2)
    · exact Or.inr h1
  | .ok ranges =>
    rw [hr] at h
    simp only [bind, Except.bind] at h
    split at h
    · rename_i e' hf
      injection h with h
      subst h
      rcases foldlM_updateAt_error hf with ⟨h1, q, h2, h3⟩ | ⟨i, s, h1, h2⟩
      · refine Or.inr ⟨h1, q, h2, ?_⟩
        rwa [List.length_map, List.length_zip, computeConstraintTypes_length, min_self] at h3
      · rw [List.getElem?_map, Option.map_eq_some_iff] at h1
        obtain ⟨⟨row, t⟩, h3, h4⟩ := h1
        obtain ⟨h3, h5⟩ := List.getElem?_zip_eq_some.1 h3
        rw [← h4] at h2
        obtain ⟨h6, h7, h8, h9⟩ := row_error h2
        refine Or.inl ⟨h6, Or.inr (Or.inr ⟨i, row, h3, h7, ?_⟩)⟩
        by_cases hpos : ∃ r, 0 < r ∧ (i, r) ∈ flatten p.ranges
        · exact Or.inr ⟨h8, hpos⟩
        · refine Or.inl ?_
          obtain ⟨v, hv, w, hw, hne⟩ := h9 (by
            intro r htr
            obtain ⟨c1, c2, c3⟩ := computeRanges_ok hr
            obtain ⟨t1, t2⟩ := computeConstraintTypes_getElem? c1 (fun _ _ => Nat.zero_le _) h3
            rw [h5] at t1 t2
            simp only [zero_add, c2, Option.some.injEq] at t1 t2
            by_cases hc : ∃ r', (i, r') ∈ flatten p.ranges
            · obtain ⟨r', hr'⟩ := hc
              have := t1 r' hr'
              simp only at htr
              rw [htr] at this
              split_ifs at this with h0
              injection this with this
              subst this
              rcases lt_trichotomy r 0 with hlt | heq | hgt
              · exact hlt
              · exact absurd heq h0
              · exact absurd ⟨r, hgt, hr'⟩ hpos
            · push Not at hc
              have := t2 hc
              simp only at htr
              rw [htr] at this
              exact absurd this.symm (toConstraintType_ne_range _ _))
          exact ⟨v, w, mem_valuesOf.1 hv, mem_valuesOf.1 hw, hne⟩
    · cases h

/-! ### Costs -/

theorem assignCosts_length (k : ℕ) (columns : List Column) (costs : SVec ℕ) :
    (assignCosts k columns costs).length = columns.length := by
  induction columns generalizing k costs with
  | nil => unfold assignCosts; rfl
  | cons c columns ih =>
    cases costs with
    | nil => rw [assignCosts, List.length_cons, List.length_cons, ih]
    | cons q costs =>
      obtain ⟨jj, v⟩ := q
      rw [assignCosts]
      split_ifs <;> rw [List.length_cons, List.length_cons, ih]

theorem assignCosts_mem {k : ℕ} {columns : List Column} {costs : SVec ℕ} {v : Variable}
    (h : v ∈ assignCosts k columns costs) :
    v.lowerBound = none ∧ v.upperBound = none ∧ v.shift = 0 ∧ v.flipped = false := by
  induction columns generalizing k costs with
  | nil => unfold assignCosts at h; cases h
  | cons c columns ih =>
    cases costs with
    | nil =>
      rw [assignCosts, List.mem_cons] at h
      rcases h with rfl | h
      · exact ⟨rfl, rfl, rfl, rfl⟩
      · exact ih h
    | cons q costs =>
      obtain ⟨jj, w⟩ := q
      rw [assignCosts] at h
      split_ifs at h <;> rw [List.mem_cons] at h
      · rcases h with rfl | h
        · exact ⟨rfl, rfl, rfl, rfl⟩
        · exact ih h
      · rcases h with rfl | h
        · exact ⟨rfl, rfl, rfl, rfl⟩
        · exact ih h

theorem assignCosts_variableType (k : ℕ) {columns : List Column} (costs : SVec ℕ) {j : ℕ} {column : Column}
    (hj : columns[j]? = some column) :
    ∃ v, (assignCosts k columns costs)[j]? = some v ∧ v.variableType = column.variableType := by
  induction columns generalizing k costs j with
  | nil => simp at hj
  | cons column' columns ih =>
    cases costs with
    | nil =>
      rw [assignCosts]
      cases j with
      | zero =>
        rw [List.getElem?_cons_zero, Option.some.injEq] at hj
        exact ⟨_, List.getElem?_cons_zero, by rw [hj]⟩
      | succ j => exact ih _ _ hj
    | cons q costs =>
      obtain ⟨jj, w⟩ := q
      rw [assignCosts]
      split_ifs
      · cases j with
        | zero =>
          rw [List.getElem?_cons_zero, Option.some.injEq] at hj
          exact ⟨_, List.getElem?_cons_zero, by rw [hj]⟩
        | succ j => exact ih _ _ hj
      · cases j with
        | zero =>
          rw [List.getElem?_cons_zero, Option.some.injEq] at hj
          exact ⟨_, List.getElem?_cons_zero, by rw [hj]⟩
        | succ j => exact ih _ _ hj

theorem assignCosts_getElem? {k : ℕ} {columns : List Column} {costs : SVec ℕ}
    (hs : costs.Pairwise fun p q => p.1 < q.1) (hk : ∀ q ∈ costs, k ≤ q.1) {j : ℕ} {column : Column}
    (hj : columns[j]? = some column) :
    ∃ v, (assignCosts k columns costs)[j]? = some v ∧ v.variableType = column.variableType ∧
      (∀ c, (k + j, c) ∈ costs → v.cost = c) ∧ ((∀ c, (k + j, c) ∉ costs) → v.cost = 0) := by
  induction columns generalizing k costs j with
  | nil => simp at hj
  | cons column' columns ih =>
    cases costs with
    | nil =>
      rw [assignCosts]
      cases j with
      | zero =>
        rw [List.getElem?_cons_zero, Option.some.injEq] at hj
        exact ⟨_, List.getElem?_cons_zero, by rw [hj], by simp, fun _ => rfl⟩
      | succ j =>
        rw [List.getElem?_cons_succ] at hj ⊢
        obtain ⟨v, h1, h2, h3, h4⟩ := ih (k := k + 1) (costs := []) .nil (by simp) hj
        exact ⟨v, h1, h2, by simp, fun _ => h4 (by simp)⟩
    | cons q costs =>
      obtain ⟨jj, w⟩ := q
      obtain ⟨hs1, hs2⟩ := List.pairwise_cons.1 hs
      rw [assignCosts]
      have hjj := hk (jj, w) (by simp)
      by_cases he : jj = k
      · subst he
        rw [if_pos rfl]
        cases j with
        | zero =>
          rw [List.getElem?_cons_zero, Option.some.injEq] at hj
          refine ⟨_, List.getElem?_cons_zero, by rw [hj], fun c hc => ?_, fun hc => absurd (by simp) (hc w)⟩
          rcases List.mem_cons.1 hc with h | h
          · rw [(Prod.mk.inj h).2]
          · exact absurd (hs1 _ h) (lt_irrefl _)
        | succ j =>
          rw [List.getElem?_cons_succ] at hj ⊢
          have hm : ∀ c, (jj + (j + 1), c) ∈ (jj, w) :: costs ↔ (jj + 1 + j, c) ∈ costs := by
            intro c
            rw [show jj + (j + 1) = jj + 1 + j by omega, List.mem_cons, Prod.mk.injEq]
            constructor
            · rintro (⟨h, -⟩ | h)
              · omega
              · exact h
            · exact Or.inr
          simp only [hm]
          exact ih (k := jj + 1) hs2 (fun q hq => hs1 q hq) hj
      · rw [if_neg he]
        cases j with
        | zero =>
          rw [List.getElem?_cons_zero, Option.some.injEq] at hj
          refine ⟨_, List.getElem?_cons_zero, by rw [hj], fun c hc => ?_, fun _ => rfl⟩
          exfalso
          rcases List.mem_cons.1 hc with h | h
          · exact he (Prod.mk.inj h).1.symm
          · have := hs1 _ h
            simp only at this
            omega
        | succ j =>
          rw [List.getElem?_cons_succ] at hj ⊢
          rw [show k + (j + 1) = k + 1 + j by omega]
          refine ih (k := k + 1) hs (fun q hq => ?_) hj
          rcases List.mem_cons.1 hq with rfl | hq
          · simp only
            omega
          · have := hs1 q hq
            simp only at this
            omega

theorem val_eq_of_strict {costs : SVec ℕ} (hs : costs.Pairwise fun p q => p.1 < q.1) {j : ℕ} {v : ℚ}
    (h1 : ∀ c, (j, c) ∈ costs → v = c) (h2 : (∀ c, (j, c) ∉ costs) → v = 0) : SVec.val costs j = v := by
  induction costs generalizing v with
  | nil => rw [h2 (by simp)]; rfl
  | cons q costs ih =>
    obtain ⟨i, w⟩ := q
    obtain ⟨hs1, hs2⟩ := List.pairwise_cons.1 hs
    rw [SVec.val_cons]
    by_cases hi : i = j
    · subst hi
      rw [ih (v := 0) hs2 (fun c hc => absurd (hs1 _ hc) (lt_irrefl _)) (fun _ => rfl), h1 w (by simp)]
      simp
    · have hi' : j ≠ i := fun e => hi e.symm
      rw [ih hs2 (fun c hc => h1 c (by simp [hc])) (fun hc => h2 fun c hm => ?_)]
      · simp [hi]
      · rcases List.mem_cons.1 hm with h | h
        · exact hi' (Prod.mk.inj h).1
        · exact hc c h

/-! ### The whole -/

theorem toGeneralForm_eq {p : Mps} {G : GeneralForm} (h : toGeneralForm p = .ok G) :
    ∃ vars types b, processBounds (assignCosts 0 p.columns p.costValues) p.bounds = .ok vars ∧
      computeConstraintInfo p.rows p.rhss p.ranges = .ok (types, b) ∧
      G = GeneralForm.new p.objective ⟨p.columns.map (·.values), p.columns.length, p.rows.length⟩ types b vars
        (p.columns.map fun c => String.ofList c.name) 0 := by
  unfold toGeneralForm computeVariableInfo at h
  match hb : processBounds (assignCosts 0 p.columns p.costValues) p.bounds with
  | .error e => rw [hb] at h; cases h
  | .ok vars =>
    rw [hb] at h
    simp only [bind, Except.bind, pure, Except.pure] at h
    match hc : computeConstraintInfo p.rows p.rhss p.ranges with
    | .error e => rw [hc] at h; cases h
    | .ok (types, b) =>
      rw [hc] at h
      injection h with h
      exact ⟨vars, types, b, rfl, rfl, h.symm⟩

/-- The variables of the result. -/
theorem toGeneralForm_vars {p : Mps} {G : GeneralForm} (h : toGeneralForm p = .ok G) :
    G.vars.length = p.columns.length ∧
    (∀ j t, (j, .free) ∈ flatten p.bounds → (j, t) ∈ flatten p.bounds → t = .free) ∧
    (∀ j a b, (j, .semiContinuous a b) ∉ flatten p.bounds) ∧
    ∀ (j : ℕ) column, p.columns[j]? = some column → ∃ v, G.vars[j]? = some v ∧
      ((p.costValues.Pairwise fun a b => a.1 < b.1) → v.cost = SVec.val p.costValues j) ∧ v.shift = 0 ∧ v.flipped = false ∧
      (v.variableType = .integer ↔
        column.variableType = .integer ∨ integral (valuesOf (flatten p.bounds) j)) ∧
      ∀ x, Within v x ↔ VariableHolds p j x := by
  obtain ⟨vars, types, b, h1, h2, rfl⟩ := toGeneralForm_eq h
  obtain ⟨c1, c2, c3, c4, c5⟩ := processBounds_ok (fun v hv => ⟨(assignCosts_mem hv).1, (assignCosts_mem hv).2.1⟩) h1
  rw [assignCosts_length] at c1
  refine ⟨c1, c4, c3, fun j column hj => ?_⟩
  obtain ⟨v, v1, v2⟩ := assignCosts_variableType 0 p.costValues hj
  obtain ⟨v', w1, ⟨w2, w3, w4⟩, w5, w6⟩ := c5 j v v1
  have hm := assignCosts_mem (List.mem_of_getElem? v1)
  refine ⟨v', w1, ?_, w3.trans hm.2.2.1, w4.trans hm.2.2.2, ?_, fun x => w6 x⟩
  · intro hc
    obtain ⟨u, u1, u2, v3, v4⟩ := assignCosts_getElem? hc (fun _ _ => Nat.zero_le _) hj
    rw [zero_add] at v3 v4
    rw [v1] at u1
    cases u1
    rw [w2, val_eq_of_strict hc v3 v4]
  · rw [w5, v2]

/-- The constraints of the result. -/
theorem toGeneralForm_rows {p : Mps} {G : GeneralForm} (h : toGeneralForm p = .ok G) :
    G.constraintTypes.length = p.rows.length ∧ G.b.length = p.rows.length ∧
    ∀ (i : ℕ) row, p.rows[i]? = some row → ∃ t b, G.constraintTypes[i]? = some t ∧ G.b[i]? = some b ∧
      ((∀ r, (i, r) ∈ flatten p.ranges →
          r = 0 ∨ (∃ b, (i, b) ∈ flatten p.rhss) ∨ row.relation = .less ∧ 0 < r) →
        (∀ x, t.Holds b x ↔ RowHolds p i row.relation x) ∧ ∀ r, t = .range r → 0 ≤ r) ∧
      ((∀ r, (i, r) ∉ flatten p.ranges) → t = row.relation.toConstraintType ∧ IsRhs p i b) := by
  obtain ⟨vars, types, b, h1, h2, rfl⟩ := toGeneralForm_eq h
  obtain ⟨c1, c2, ranges, c3, c4⟩ := computeConstraintInfo_ok h2
  refine ⟨c1, c2, fun i row hi => ?_⟩
  obtain ⟨t, s', d1, d2, d3, d4⟩ := c4 i row hi
  exact ⟨_, _, d2, d3, fun hm => ⟨fun x => ((row_holds c3 hi d1 d4 x).1 hm).1, ((row_holds c3 hi d1 d4 0).1 hm).2⟩, fun hr => (row_holds c3 hi d1 d4 0).2 hr⟩

theorem toGeneralForm_consistent_of {p : Mps} {G : GeneralForm} (h : toGeneralForm p = .ok G)
    (hw1 : ∀ c ∈ p.columns, SVec.WF c.values) (hw2 : ∀ c ∈ p.columns, ∀ q ∈ c.values, q.1 < p.rows.length) :
    G.Consistent ∧ G.Acyclic := by
  obtain ⟨v1, -, -, v2⟩ := toGeneralForm_vars h
  obtain ⟨r1, r2, -⟩ := toGeneralForm_rows h
  obtain ⟨vars, types, b, h1, h2, rfl⟩ := toGeneralForm_eq h
  have v1 : vars.length = p.columns.length := v1
  have r1 : types.length = p.rows.length := r1
  have r2 : b.length = p.rows.length := r2
  refine GeneralForm.new_consistent _ _ _ _ _ _ _ ?_ ?_ ?_ ?_ ?_ ?_ ?_ ?_
  · rw [r1, r2]
  · exact r1.symm
  · exact v1.symm
  · rw [v1, List.length_map]
  · intro v hv
    obtain ⟨c, hc, rfl⟩ := List.mem_map.1 hv
    exact hw1 c hc
  · intro v hv q hq
    obtain ⟨c, hc, rfl⟩ := List.mem_map.1 hv
    rw [r1]
    exact hw2 c hc q hq
  · rw [v1, List.length_map]
  · intro v hv
    obtain ⟨j, hj, rfl⟩ := List.getElem_of_mem hv
    obtain ⟨w, w1, -, w2, w3, -⟩ := v2 j (p.columns[j]'(v1 ▸ hj)) (List.getElem?_eq_getElem _)
    have : w = vars[j] := by
      have e : vars[j]? = some w := w1
      rw [List.getElem?_eq_getElem hj] at e
      exact (Option.some.inj e).symm
    rw [← this]
    exact ⟨w2, w3⟩

theorem toGeneralForm_consistent {p : Mps} {G : GeneralForm} (h : toGeneralForm p = .ok G)
    (hw : p.WellFormed) : G.Consistent ∧ G.Acyclic :=
  toGeneralForm_consistent_of h hw.values hw.valuesInRange

theorem toGeneralForm_program {p : Mps} {G : GeneralForm} (h : toGeneralForm p = .ok G)
    (hw : p.WellFormed) (hm : RangesMeant p) :
    ∃ hn : G.vars.length = p.columns.length, ∀ x : Fin p.columns.length → ℚ,
      (G.toProgram.Feasible (fun j => x (j.cast hn)) ↔ p.Feasible x) ∧
      G.toProgram.objective (fun j => x (j.cast hn)) = p.objectiveValue x := by
  obtain ⟨v1, -, -, v2⟩ := toGeneralForm_vars h
  obtain ⟨r1, r2, r3⟩ := toGeneralForm_rows h
  refine ⟨v1, fun x => ⟨?_, ?_⟩⟩
  · unfold Spec.Program.Feasible Feasible
    refine and_congr ?_ ?_
    · have key : ∀ (i : ℕ) (h1 : i < p.rows.length) (h2 : i < G.constraintTypes.length),
          ((G.toProgram.relation ⟨i, h2⟩).Holds (G.toProgram.b ⟨i, h2⟩)
            ((G.toProgram.A *ᵥ fun j => x (j.cast v1)) ⟨i, h2⟩) ↔
          RowHolds p i (p.rows[i]).relation (activity p x i)) := by
        intro i h1 h2
        obtain ⟨t, b, t1, t2, t3, -⟩ := r3 i p.rows[i] (List.getElem?_eq_getElem h1)
        have e1 : G.toProgram.relation ⟨i, h2⟩ = t := by
          rw [List.getElem?_eq_getElem h2] at t1
          exact Option.some.inj t1
        have e2 : G.toProgram.b ⟨i, h2⟩ = b := by
          show G.b.getD i 0 = b
          rw [List.getD_eq_getElem?_getD, t2]
          rfl
        have e3 : (G.toProgram.A *ᵥ fun j => x (j.cast v1)) ⟨i, h2⟩ = activity p x i := by
          obtain ⟨vars, types, b, h1, h2, rfl⟩ := toGeneralForm_eq h
          unfold Matrix.mulVec dotProduct activity
          refine Fintype.sum_equiv (finCongr v1) _ _ fun j => ?_
          have hj : j.val < p.columns.length := lt_of_lt_of_eq j.2 v1
          show SVec.val ((p.columns.map (·.values)).getD j []) i * _ = _
          rw [List.getD_eq_getElem?_getD, List.getElem?_map, List.getElem?_eq_getElem hj]
          rfl
        rw [e1, e2, e3]
        exact (t3 (fun r hr => hm i r _ hr (List.getElem?_eq_getElem h1))).1 _
      constructor
      · intro hf i
        exact (key i i.2 (lt_of_lt_of_eq i.2 r1.symm)).1 (hf _)
      · intro hf i
        exact (key i (lt_of_lt_of_eq i.2 r1) i.2).2 (hf ⟨i, lt_of_lt_of_eq i.2 r1⟩)
    · have key : ∀ (j : ℕ) (h1 : j < p.columns.length) (h2 : j < G.vars.length),
          ((∀ l ∈ G.toProgram.lower ⟨j, h2⟩, l ≤ x ⟨j, h1⟩) ∧ (∀ u ∈ G.toProgram.upper ⟨j, h2⟩, x ⟨j, h1⟩ ≤ u) ↔
            VariableHolds p j (x ⟨j, h1⟩)) := by
        intro j h1 h2
        obtain ⟨v, w1, -, -, -, -, w2⟩ := v2 j p.columns[j] (List.getElem?_eq_getElem h1)
        rw [List.getElem?_eq_getElem h2] at w1
        have w1 := Option.some.inj w1
        rw [← w2, ← w1]
        exact Iff.rfl
      constructor
      · intro hf j
        exact (key j j.2 (lt_of_lt_of_eq j.2 v1.symm)).1 (hf _)
      · intro hf j
        exact (key j (lt_of_lt_of_eq j.2 v1) j.2).2 (hf ⟨j, lt_of_lt_of_eq j.2 v1⟩)
  · unfold Spec.Program.objective objectiveValue dotProduct
    have e0 : G.toProgram.constant = 0 := by
      obtain ⟨vars, types, b, h1, h2, rfl⟩ := toGeneralForm_eq h
      rfl
    have hsum := sum_tuples hw.costsInRange fun j => if hj : j < p.columns.length then x ⟨j, hj⟩ else 0
    have e1 : (p.costValues.map fun q => q.2 * if h : q.1 < p.columns.length then x ⟨q.1, h⟩ else 0) =
        p.costValues.map fun q => (if h : q.1 < p.columns.length then x ⟨q.1, h⟩ else 0) * q.2 :=
      List.map_congr_left fun q _ => mul_comm _ _
    rw [e0, zero_add, e1, hsum, ← Fin.sum_univ_eq_sum_range
      (fun j => (if hj : j < p.columns.length then x ⟨j, hj⟩ else 0) * SVec.val p.costValues j)]
    refine Fintype.sum_equiv (finCongr v1) _ _ fun j => ?_
    have hj : j.val < p.columns.length := lt_of_lt_of_eq j.2 v1
    obtain ⟨v, w1, w2, -⟩ := v2 j p.columns[j.val] (List.getElem?_eq_getElem hj)
    rw [List.getElem?_eq_getElem j.2] at w1
    have w1 := Option.some.inj w1
    show G.vars[j].cost * x (j.cast v1) = (if hj : j.val < p.columns.length then x ⟨j, hj⟩ else 0) *
      SVec.val p.costValues j.val
    rw [dif_pos hj, ← w2 hw.costs, ← w1, mul_comm]
    rfl

theorem toGeneralForm_proper {p : Mps} {G : GeneralForm} (h : toGeneralForm p = .ok G) (hm : RangesMeant p)
    (hv : ∀ j < p.columns.length, ∃ x, VariableHolds p j x) : G.Proper := by
  obtain ⟨v1, -, -, v2⟩ := toGeneralForm_vars h
  obtain ⟨r1, r2, r3⟩ := toGeneralForm_rows h
  refine ⟨fun v hmem l hl u hu => ?_, fun r hr => ?_⟩
  · obtain ⟨j, hj, rfl⟩ := List.getElem_of_mem hmem
    have hj' : j < p.columns.length := v1 ▸ hj
    obtain ⟨x, hx⟩ := hv j hj'
    obtain ⟨w, w1, -, -, -, -, w2⟩ := v2 j _ (List.getElem?_eq_getElem hj')
    rw [List.getElem?_eq_getElem hj] at w1
    have w1 := Option.some.inj w1
    rw [← w2, ← w1] at hx
    exact le_trans (hx.1 l hl) (hx.2 u hu)
  · obtain ⟨i, hi, e⟩ := List.getElem_of_mem hr
    have hi' : i < p.rows.length := r1 ▸ hi
    obtain ⟨t, b, t1, -, t3, -⟩ := r3 i _ (List.getElem?_eq_getElem hi')
    rw [List.getElem?_eq_getElem hi] at t1
    have t1 := Option.some.inj t1
    exact (t3 fun r hr => hm i r _ hr (List.getElem?_eq_getElem hi')).2 r (t1.symm.trans e)

/-- What an accepted program satisfies: none of the reasons for rejection applies. -/
theorem toGeneralForm_accepted {p : Mps} {G : GeneralForm} (h : toGeneralForm p = .ok G) :
    ((flatten p.ranges).map (·.1)).Nodup ∧
    (∀ i r v w, (i, r) ∈ flatten p.ranges → (i, v) ∈ flatten p.rhss → (i, w) ∈ flatten p.rhss → v = w) ∧
    (∀ i row v w, p.rows[i]? = some row → row.relation = .equal →
      (i, v) ∈ flatten p.rhss → (i, w) ∈ flatten p.rhss → v = w) ∧
    ∀ i row r, p.rows[i]? = some row → row.relation = .equal → 0 < r → (i, r) ∈ flatten p.ranges →
      (valuesOf (flatten p.rhss) i).length ≤ 1 := by
  obtain ⟨vars, types, b, h1, h2, rfl⟩ := toGeneralForm_eq h
  obtain ⟨c1, c2, ranges, c3, c4⟩ := computeConstraintInfo_ok h2
  obtain ⟨d1, d2, d3⟩ := computeRanges_ok c3
  refine ⟨?_, fun i r v w hr hv hw => d3 i r hr v (mem_valuesOf.2 hv) w (mem_valuesOf.2 hw),
    fun i row v w hi he hv hw => ?_, fun i row r hi he hpos hr => ?_⟩
  · unfold computeRanges at c3
    dsimp only at c3
    split_ifs at c3 with e1 e2
    · rw [List.isEmpty_iff] at e1
      rw [e1]
      exact List.nodup_nil
    · have hs := strict_of_no_duplicate (sortByIndex_sorted (flatten p.ranges)) (by simpa using e2)
      have hp : (sortByIndex (flatten p.ranges)).Perm (flatten p.ranges) := List.perm_insertionSort _ _
      rw [← (hp.map _).nodup_iff]
      exact List.pairwise_map.2 (hs.imp fun h => ne_of_lt h)
  · by_cases hr : ∃ r, (i, r) ∈ flatten p.ranges
    · obtain ⟨r, hr⟩ := hr
      exact d3 i r hr v (mem_valuesOf.2 hv) w (mem_valuesOf.2 hw)
    · push Not at hr
      obtain ⟨t, s', e1, -, -, e4⟩ := c4 i row hi
      have ht := (row_holds c3 hi e1 e4 0).2 hr
      have hh := ((row_holds c3 hi e1 e4 (s'.b.getD 0)).1 fun r h => absurd h (hr r)).1.1 (by
        rw [ht.1, he]
        rfl)
      have e : ∀ b, (i, b) ∈ flatten p.rhss → s'.b.getD 0 = b := fun b hb => by
        have := (hh b (Or.inl hb)).2 hr
        rw [he] at this
        exact this
      rw [← e v hv, e w hw]
  · obtain ⟨t, s', e1, -, -, e4⟩ := c4 i row hi
    obtain ⟨t1, -⟩ := computeConstraintTypes_getElem? d1 (fun _ _ => Nat.zero_le _) hi
    have ht := t1 r (by rw [zero_add]; exact (d2 _).2 hr)
    rw [e1, if_neg (ne_of_gt hpos)] at ht
    injection ht with ht
    subst ht
    have hv := d3 i r hr
    match hl : valuesOf (flatten p.rhss) i with
    | [] => simp
    | [v] => simp
    | v :: w :: vs =>
      exfalso
      rw [hl] at e4 hv
      have hvw : v = w := hv v (by simp) w (by simp)
      rw [List.foldlM_cons, he] at e4
      have hstep : computeBRow ⟨.equal, .range r, none⟩ v = .ok ⟨.equal, .range r, some (v + r)⟩ := by
        unfold computeBRow
        simp only [compare_gt_iff_gt.2 hpos, if_neg (not_lt.2 hpos.le)]
      rw [hstep] at e4
      obtain ⟨-, -, c', -, -, f5⟩ := foldlM_computeBRow_some (c := v + r) rfl e4
      have f6 := (f5 c').1 rfl
      have f7 : c' = v + r := f6.1
      have f8 : c' = w := f6.2 w (by simp)
      rw [f7, ← hvw] at f8
      linarith

/-- Why an MPS program is rejected. -/
theorem toGeneralForm_error {p : Mps} {e} (h : toGeneralForm p = .error e) :
    (e = .inconsistency ∧
      ((∃ j t, (j, .free) ∈ flatten p.bounds ∧ (j, t) ∈ flatten p.bounds ∧ t ≠ .free) ∨
      (¬((flatten p.ranges).map (·.1)).Nodup) ∨
      (∃ i r v w, (i, r) ∈ flatten p.ranges ∧ (i, v) ∈ flatten p.rhss ∧ (i, w) ∈ flatten p.rhss ∧ v ≠ w) ∨
      ∃ i row, p.rows[i]? = some row ∧ row.relation = .equal ∧
        ((∃ v w, (i, v) ∈ flatten p.rhss ∧ (i, w) ∈ flatten p.rhss ∧ v ≠ w) ∨
        2 ≤ (valuesOf (flatten p.rhss) i).length ∧ ∃ r, 0 < r ∧ (i, r) ∈ flatten p.ranges))) ∨
    e = .panic ∧ ((∃ q ∈ flatten p.bounds, p.columns.length ≤ q.1) ∨
      (∃ j a b, (j, .semiContinuous a b) ∈ flatten p.bounds) ∨
      ∃ q ∈ flatten p.rhss, p.rows.length ≤ q.1) := by
  unfold toGeneralForm computeVariableInfo at h
  match hb : processBounds (assignCosts 0 p.columns p.costValues) p.bounds with
  | .error e' =>
    rw [hb] at h
    injection h with h
    subst h
    rcases processBounds_error (fun v hv => ⟨(assignCosts_mem hv).1, (assignCosts_mem hv).2.1⟩) hb with
      ⟨h1, h2⟩ | ⟨h1, h2⟩
    · exact Or.inl ⟨h1, Or.inl h2⟩
    · refine Or.inr ⟨h1, ?_⟩
      rw [assignCosts_length] at h2
      rcases h2 with h2 | h2
      · exact Or.inl h2
      · exact Or.inr (Or.inl h2)
  | .ok vars =>
    rw [hb] at h
    simp only [bind, Except.bind, pure, Except.pure] at h
    match hc : computeConstraintInfo p.rows p.rhss p.ranges with
    | .error e' =>
      rw [hc] at h
      injection h with h
      subst h
      rcases computeConstraintInfo_error hc with ⟨h1, h2⟩ | ⟨h1, h2⟩
      · exact Or.inl ⟨h1, Or.inr h2⟩
      · exact Or.inr ⟨h1, Or.inr (Or.inr h2)⟩
    | .ok (types, b) => rw [hc] at h; cases h

end Relp.Mps
