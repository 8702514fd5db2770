import Verif.Proof.MpsBounds
import Verif.Spec.Program
import Mathlib.Data.List.Sort
import Mathlib.Algebra.Order.Group.Abs

/-!
# The constraints that result from an MPS program
-/

namespace Relp.Mps

variable {α : Type}

/-! ### Sorting -/

theorem mem_sortByIndex {l : List (ℕ × α)} {q : ℕ × α} : q ∈ sortByIndex l ↔ q ∈ l :=
  (List.perm_insertionSort _ l).mem_iff

theorem strict_of_no_duplicate {l : List (ℕ × α)} (h : l.Pairwise fun p q => p.1 ≤ q.1)
    (hd : hasAdjacentDuplicate l = false) : l.Pairwise fun p q => p.1 < q.1 := by
  induction l with
  | nil => exact .nil
  | cons p l ih =>
    cases l with
    | nil => exact List.pairwise_singleton _ _
    | cons q l =>
      rw [hasAdjacentDuplicate, Bool.or_eq_false_iff, beq_eq_false_iff_ne] at hd
      obtain ⟨h1, h2⟩ := List.pairwise_cons.1 h
      have h3 := ih h2 hd.2
      refine List.pairwise_cons.2 ⟨fun r hr => ?_, h3⟩
      have hpq : p.1 < q.1 := lt_of_le_of_ne (h1 q (by simp)) hd.1
      rcases List.mem_cons.1 hr with rfl | hr
      · exact hpq
      · exact lt_trans hpq ((List.pairwise_cons.1 h3).1 r hr)

theorem duplicate_of_hasAdjacentDuplicate {l : List (ℕ × α)} (h : hasAdjacentDuplicate l = true) :
    ¬(l.map (·.1)).Nodup := by
  induction l with
  | nil => cases h
  | cons p l ih =>
    cases l with
    | nil => cases h
    | cons q l =>
      rw [hasAdjacentDuplicate, Bool.or_eq_true, beq_iff_eq] at h
      rw [List.map_cons, List.nodup_cons]
      rintro ⟨h1, h2⟩
      rcases h with h | h
      · exact h1 (by rw [h]; simp)
      · exact ih h h2

theorem sortByIndex_sorted (l : List (ℕ × α)) : (sortByIndex l).Pairwise fun p q => p.1 ≤ q.1 := by
  have : Std.Total fun p q : ℕ × α => p.1 ≤ q.1 := ⟨fun p q => le_total p.1 q.1⟩
  have : IsTrans (ℕ × α) fun p q : ℕ × α => p.1 ≤ q.1 := ⟨fun p q r => le_trans⟩
  exact List.pairwise_insertionSort _ l

/-! ### Ranges -/

theorem duplicateRows_ok {nrRows : ℕ} {seen : List ℕ} {l : List (ℕ × ℚ)} {d : List ℕ}
    (h : duplicateRows nrRows seen l = .ok d) (i : ℕ) :
    (i ∈ d ↔ (i ∈ seen ∧ valuesOf l i ≠ []) ∨ 2 ≤ (valuesOf l i).length) ∧ ∀ q ∈ l, q.1 < nrRows := by
  induction l generalizing seen d with
  | nil =>
    cases h
    simp [valuesOf]
  | cons q l ih =>
    obtain ⟨k, v⟩ := q
    unfold duplicateRows at h
    split_ifs at h with h1 h2
    · match hr : duplicateRows nrRows seen l with
      | .error e => rw [hr] at h; cases h
      | .ok rest =>
        rw [hr] at h
        injection h with h
        obtain ⟨ih1, ih2⟩ := ih hr
        refine ⟨?_, fun q hq => ?_⟩
        · rw [← h, List.mem_cons, ih1, valuesOf_cons]
          by_cases hk : k = i
          · subst hk
            simp [h2]
          · rw [if_neg hk]
            have : i ≠ k := fun e => hk e.symm
            simp [this]
        · rcases List.mem_cons.1 hq with rfl | hq
          · exact lt_of_not_ge h1
          · exact ih2 q hq
    · obtain ⟨ih1, ih2⟩ := ih h
      refine ⟨?_, fun q hq => ?_⟩
      · rw [ih1, valuesOf_cons]
        by_cases hk : k = i
        · subst hk
          rw [if_pos rfl]
          simp only [List.mem_cons, true_or, true_and, h2, false_and, false_or, List.length_cons]
          constructor
          · rintro (h3 | h3)
            · have := List.length_pos_iff.2 h3
              omega
            · omega
          · intro h3
            exact Or.inl (List.length_pos_iff.1 (by omega))
        · rw [if_neg hk]
          have : i ≠ k := fun e => hk e.symm
          simp [this]
      · rcases List.mem_cons.1 hq with rfl | hq
        · exact lt_of_not_ge h1
        · exact ih2 q hq

theorem duplicateRows_error {nrRows : ℕ} {seen : List ℕ} {l : List (ℕ × ℚ)} {e}
    (h : duplicateRows nrRows seen l = .error e) : e = .panic ∧ ∃ q ∈ l, nrRows ≤ q.1 := by
  induction l generalizing seen with
  | nil => cases h
  | cons q l ih =>
    obtain ⟨k, v⟩ := q
    unfold duplicateRows at h
    split_ifs at h with h1 h2
    · injection h with h
      exact ⟨h.symm, (k, v), by simp, h1⟩
    · match hr : duplicateRows nrRows seen l with
      | .error e' =>
        rw [hr] at h
        injection h with h
        subst h
        obtain ⟨h3, q, h4, h5⟩ := ih hr
        exact ⟨h3, q, by simp [h4], h5⟩
      | .ok rest => rw [hr] at h; cases h
    · obtain ⟨h3, q, h4, h5⟩ := ih h
      exact ⟨h3, q, by simp [h4], h5⟩

theorem computeRanges_ok {rhss ranges : List (Listing ℚ)} {nrRows : ℕ} {l : List (ℕ × ℚ)}
    (h : computeRanges rhss ranges nrRows = .ok l) :
    l.Pairwise (fun p q => p.1 < q.1) ∧ (∀ q, q ∈ l ↔ q ∈ flatten ranges) ∧
    ∀ i r, (i, r) ∈ flatten ranges → ∀ v ∈ valuesOf (flatten rhss) i,
      ∀ w ∈ valuesOf (flatten rhss) i, v = w := by
  unfold computeRanges at h
  dsimp only at h
  split_ifs at h with h1 h2
  · rw [List.isEmpty_iff] at h1
    cases h
    subst h1
    exact ⟨.nil, by simp [flatten], by simp [flatten]⟩
  · match hd : duplicateRows nrRows [] (flatten rhss) with
    | .error e => rw [hd] at h; cases h
    | .ok d =>
      rw [hd] at h
      simp only [bind, Except.bind] at h
      split_ifs at h with h3
      injection h with h
      subst h
      refine ⟨strict_of_no_duplicate (sortByIndex_sorted _) (by simpa using h2), fun q => mem_sortByIndex, ?_⟩
      intro i r hr v hv w hw
      have key : ∀ v ∈ valuesOf (flatten rhss) i, ∀ w ∈ (valuesOf (flatten rhss) i).head?, v = w := by
        intro v hv w hw
        by_contra hc
        match hl : valuesOf (flatten rhss) i with
        | [] => rw [hl] at hv; cases hv
        | first :: rest =>
          rw [hl] at hv hw
          have hw' : first = w := by simpa using hw
          subst hw'
          have hv' : v ∈ rest := by
            rcases List.mem_cons.1 hv with h | h
            · exact absurd h hc
            · exact h
          refine h3 (List.any_eq_true.2 ⟨i, ?_, ?_⟩)
          · rw [(duplicateRows_ok hd i).1, hl]
            refine Or.inr ?_
            have := List.length_pos_iff.2 (List.ne_nil_of_mem hv')
            rw [List.length_cons]
            omega
          · rw [Bool.and_eq_true, hl]
            refine ⟨List.any_eq_true.2 ⟨(i, r), mem_sortByIndex.2 hr, by simp⟩, ?_⟩
            exact List.any_eq_true.2 ⟨v, hv', by simpa using hc⟩
      match hl : (valuesOf (flatten rhss) i).head? with
      | none =>
        rw [List.head?_eq_none_iff] at hl
        rw [hl] at hv
        cases hv
      | some f => exact (key v hv f hl).trans (key w hw f hl).symm

/-- Why ranges are rejected: two ranges for a row, or different right-hand sides for a row with a range. -/
theorem computeRanges_error {rhss ranges : List (Listing ℚ)} {nrRows : ℕ} {e}
    (h : computeRanges rhss ranges nrRows = .error e) :
    (e = .inconsistency ∧ (¬((flatten ranges).map (·.1)).Nodup ∨
      ∃ i r v w, (i, r) ∈ flatten ranges ∧ (i, v) ∈ flatten rhss ∧ (i, w) ∈ flatten rhss ∧ v ≠ w)) ∨
    e = .panic ∧ ∃ q ∈ flatten rhss, nrRows ≤ q.1 := by
  unfold computeRanges at h
  dsimp only at h
  split_ifs at h with h1 h2
  · injection h with h
    refine Or.inl ⟨h.symm, Or.inl ?_⟩
    have := duplicate_of_hasAdjacentDuplicate h2
    have hp : (sortByIndex (flatten ranges)).Perm (flatten ranges) := List.perm_insertionSort _ _
    exact fun hn => this ((hp.map _).nodup_iff.2 hn)
  · match hd : duplicateRows nrRows [] (flatten rhss) with
    | .error e' =>
      rw [hd] at h
      injection h with h
      subst h
      exact Or.inr (duplicateRows_error hd)
    | .ok d =>
      rw [hd] at h
      simp only [bind, Except.bind] at h
      split_ifs at h with h3
      · injection h with h
        refine Or.inl ⟨h.symm, Or.inr ?_⟩
        obtain ⟨i, hi, h4⟩ := List.any_eq_true.1 h3
        rw [Bool.and_eq_true] at h4
        obtain ⟨⟨i', r⟩, h5, h6⟩ := List.any_eq_true.1 h4.1
        have h6 : i' = i := by simpa using h6
        subst h6
        match hl : valuesOf (flatten rhss) i' with
        | [] => rw [hl] at h4; cases h4.2
        | first :: rest =>
          rw [hl] at h4
          obtain ⟨v, h7, h8⟩ := List.any_eq_true.1 h4.2
          refine ⟨i', r, v, first, mem_sortByIndex.1 h5, mem_valuesOf.1 ?_, mem_valuesOf.1 ?_, by simpa using h8⟩
          · rw [hl]; exact List.mem_cons_of_mem _ h7
          · rw [hl]; exact List.mem_cons_self
      · cases h

/-! ### Constraint types -/

theorem computeConstraintTypes_length (k : ℕ) (rows : List Row) (ranges : List (ℕ × ℚ)) :
    (computeConstraintTypes k rows ranges).length = rows.length := by
  induction rows generalizing k ranges with
  | nil => unfold computeConstraintTypes; rfl
  | cons row rows ih =>
    cases ranges with
    | nil => rw [computeConstraintTypes, List.length_cons, List.length_cons, ih]
    | cons q ranges =>
      obtain ⟨ii, r⟩ := q
      rw [computeConstraintTypes]
      split_ifs <;> rw [List.length_cons, List.length_cons, ih]

theorem computeConstraintTypes_getElem? {k : ℕ} {rows : List Row} {ranges : List (ℕ × ℚ)}
    (hs : ranges.Pairwise fun p q => p.1 < q.1) (hk : ∀ q ∈ ranges, k ≤ q.1) {i : ℕ} {row : Row}
    (hi : rows[i]? = some row) :
    (∀ r, (k + i, r) ∈ ranges →
      (computeConstraintTypes k rows ranges)[i]? = some (if r = 0 then .equal else .range r)) ∧
    ((∀ r, (k + i, r) ∉ ranges) →
      (computeConstraintTypes k rows ranges)[i]? = some row.relation.toConstraintType) := by
  induction rows generalizing k ranges i with
  | nil => simp at hi
  | cons row' rows ih =>
    cases ranges with
    | nil =>
      rw [computeConstraintTypes]
      refine ⟨by simp, fun _ => ?_⟩
      cases i with
      | zero =>
        simp only [List.getElem?_cons_zero, Option.some.injEq] at hi ⊢
        rw [hi]
      | succ i =>
        rw [List.getElem?_cons_succ] at hi ⊢
        exact (ih (k := k + 1) .nil (by simp) hi).2 (by simp)
    | cons q ranges =>
      obtain ⟨ii, r⟩ := q
      obtain ⟨hs1, hs2⟩ := List.pairwise_cons.1 hs
      rw [computeConstraintTypes]
      have hii := hk (ii, r) (by simp)
      by_cases he : ii = k
      · subst he
        rw [if_pos rfl]
        cases i with
        | zero =>
          simp only [List.getElem?_cons_zero, add_zero, List.mem_cons, Prod.mk.injEq, true_and]
          constructor
          · rintro r' (h | h)
            · rw [h]
            · exact absurd (hs1 _ h) (lt_irrefl _)
          · intro h
            exact absurd (Or.inl rfl) (h r)
        | succ i =>
          rw [List.getElem?_cons_succ] at hi ⊢
          have := ih (k := ii + 1) hs2 (fun q hq => hs1 q hq) hi
          have e : ii + (i + 1) = ii + 1 + i := by omega
          have hm : ∀ r', (ii + (i + 1), r') ∈ (ii, r) :: ranges ↔ (ii + 1 + i, r') ∈ ranges := by
            intro r'
            rw [e, List.mem_cons, Prod.mk.injEq]
            constructor
            · rintro (⟨h, -⟩ | h)
              · omega
              · exact h
            · exact Or.inr
          simp only [hm]
          exact this
      · rw [if_neg he]
        cases i with
        | zero =>
          simp only [List.getElem?_cons_zero, add_zero, List.mem_cons, Prod.mk.injEq, Option.some.injEq] at hi ⊢
          constructor
          · rintro r' (⟨h, -⟩ | h)
            · exact absurd h.symm he
            · have := hs1 _ h
              simp only at this
              omega
          · intro _
            rw [hi]
        | succ i =>
          rw [List.getElem?_cons_succ] at hi ⊢
          have e : k + (i + 1) = k + 1 + i := by omega
          rw [e]
          refine ih (k := k + 1) hs (fun q hq => ?_) hi
          rcases List.mem_cons.1 hq with rfl | hq
          · simp only
            omega
          · have := hs1 q hq
            simp only at this
            omega

/-! ### Right-hand sides -/

theorem foldlM_computeBRow_some {vs : List ℚ} {s s' : RowState} {c : ℚ} (hb : s.b = some c)
    (h : vs.foldlM computeBRow s = .ok s') :
    s'.relation = s.relation ∧ s'.type = s.type ∧ ∃ c', s'.b = some c' ∧ (c' = c ∨ c' ∈ vs) ∧
      ∀ x, s.relation.Holds c' x ↔ s.relation.Holds c x ∧ ∀ v ∈ vs, s.relation.Holds v x := by
  induction vs generalizing s c with
  | nil =>
    cases h
    exact ⟨rfl, rfl, c, hb, Or.inl rfl, by simp⟩
  | cons v vs ih =>
    rw [List.foldlM_cons] at h
    have hstep : ∃ s1 c1, computeBRow s v = .ok s1 ∧ s1.relation = s.relation ∧ s1.type = s.type ∧
        s1.b = some c1 ∧ (c1 = c ∨ c1 = v) ∧
        ∀ x, s.relation.Holds c1 x ↔ s.relation.Holds c x ∧ s.relation.Holds v x := by
      match hs : computeBRow s v with
      | .error e => rw [hs] at h; cases h
      | .ok s1 =>
        unfold computeBRow at hs
        rw [hb] at hs
        match hr : s.relation with
        | .equal =>
          rw [hr] at hs
          simp only at hs
          split_ifs at hs with he
          injection hs with hs
          subst hs
          rw [not_not] at he
          exact ⟨s, c, rfl, hr, rfl, hb, Or.inl rfl, fun x => by rw [he]; simp⟩
        | .greater =>
          rw [hr] at hs
          simp only at hs
          split_ifs at hs with he
          · injection hs with hs
            subst hs
            exact ⟨_, v, rfl, rfl, rfl, rfl, Or.inr rfl,
              fun x => ⟨fun h => ⟨le_trans (le_of_lt he) h, h⟩, fun h => h.2⟩⟩
          · injection hs with hs
            subst hs
            exact ⟨s, c, rfl, hr, rfl, hb, Or.inl rfl,
              fun x => ⟨fun h => ⟨h, le_trans (not_lt.1 he) h⟩, fun h => h.1⟩⟩
        | .less =>
          rw [hr] at hs
          simp only at hs
          split_ifs at hs with he
          · injection hs with hs
            subst hs
            exact ⟨_, v, rfl, rfl, rfl, rfl, Or.inr rfl,
              fun x => ⟨fun h => ⟨le_trans h (le_of_lt he), h⟩, fun h => h.2⟩⟩
          · injection hs with hs
            subst hs
            exact ⟨s, c, rfl, hr, rfl, hb, Or.inl rfl,
              fun x => ⟨fun h => ⟨h, le_trans h (not_lt.1 he)⟩, fun h => h.1⟩⟩
    obtain ⟨s1, c1, h1, h2, h3, h4, h5, h6⟩ := hstep
    rw [h1] at h
    obtain ⟨i1, i2, c', i3, i4, i5⟩ := ih h4 h
    refine ⟨i1.trans h2, i2.trans h3, c', i3, ?_, fun x => ?_⟩
    · rcases i4 with rfl | i4
      · rcases h5 with h5 | h5
        · exact Or.inl h5
        · exact Or.inr (by rw [h5]; exact List.mem_cons_self)
      · exact Or.inr (List.mem_cons_of_mem _ i4)
    · rw [h2] at i5
      rw [i5, h6, List.forall_mem_cons, and_assoc]

/-- Different right-hand sides are rejected for equalities only. -/
theorem foldlM_computeBRow_error {vs : List ℚ} {s : RowState} {c : ℚ} {e} (hb : s.b = some c)
    (h : vs.foldlM computeBRow s = .error e) :
    e = .inconsistency ∧ s.relation = .equal ∧ ∃ v ∈ vs, v ≠ c := by
  induction vs generalizing s c with
  | nil => cases h
  | cons v vs ih =>
    rw [List.foldlM_cons] at h
    match hr : s.relation with
    | .equal =>
      by_cases he : v = c
      · have : computeBRow s v = .ok s := by
          unfold computeBRow
          rw [hb, hr]
          simp only
          rw [if_neg (not_not.2 he)]
        rw [this] at h
        obtain ⟨h1, h2, v', h3, h4⟩ := ih hb h
        exact ⟨h1, rfl, v', List.mem_cons_of_mem _ h3, h4⟩
      · have : computeBRow s v = .error .inconsistency := by
          unfold computeBRow
          rw [hb, hr]
          simp only
          rw [if_pos he]
        rw [this] at h
        injection h with h
        exact ⟨h.symm, rfl, v, List.mem_cons_self, he⟩
    | .greater =>
      exfalso
      have : ∃ s1 c1, computeBRow s v = .ok s1 ∧ s1.b = some c1 ∧ s1.relation = .greater := by
        unfold computeBRow
        rw [hb, hr]
        simp only
        split_ifs
        · exact ⟨_, v, rfl, rfl, rfl⟩
        · exact ⟨_, c, rfl, hb, hr⟩
      obtain ⟨s1, c1, h1, h2, h3⟩ := this
      rw [h1] at h
      have := (ih h2 h).2.1
      rw [h3] at this
      cases this
    | .less =>
      exfalso
      have : ∃ s1 c1, computeBRow s v = .ok s1 ∧ s1.b = some c1 ∧ s1.relation = .less := by
        unfold computeBRow
        rw [hb, hr]
        simp only
        split_ifs
        · exact ⟨_, v, rfl, rfl, rfl⟩
        · exact ⟨_, c, rfl, hb, hr⟩
      obtain ⟨s1, c1, h1, h2, h3⟩ := this
      rw [h1] at h
      have := (ih h2 h).2.1
      rw [h3] at this
      cases this

theorem toConstraintType_holds (relation : Relation) (b x : ℚ) :
    relation.toConstraintType.Holds b x ↔ relation.Holds b x := by
  cases relation <;> exact Iff.rfl

theorem toConstraintType_ne_range (relation : Relation) (r : ℚ) : relation.toConstraintType ≠ .range r := by
  cases relation <;> simp [Relation.toConstraintType]

theorem computeBRow_none {s : RowState} {v : ℚ} (hb : s.b = none) (ht : ∀ r, s.type ≠ .range r) :
    computeBRow s v = .ok { s with b := some v } := by
  unfold computeBRow
  rw [hb]
  dsimp only
  match ht' : s.type with
  | .range r => exact absurd ht' (ht r)
  | .equal => rfl
  | .greater => rfl
  | .less => rfl

/-- A row without a range. -/
theorem row_without_range {vs : List ℚ} {relation : Relation} {s' : RowState}
    (h : vs.foldlM computeBRow ⟨relation, relation.toConstraintType, none⟩ = .ok s') (x : ℚ) :
    s'.type = relation.toConstraintType ∧ (s'.b.getD 0 ∈ vs ∨ vs = [] ∧ s'.b.getD 0 = 0) ∧
    (s'.type.Holds (s'.b.getD 0) x ↔
      ∀ b, b ∈ vs ∨ vs = [] ∧ b = 0 → relation.Holds b x) := by
  cases vs with
  | nil =>
    cases h
    simp [toConstraintType_holds]
  | cons v vs =>
    rw [List.foldlM_cons, computeBRow_none rfl (fun r => toConstraintType_ne_range _ r)] at h
    obtain ⟨h1, h2, c', h3, h4, h5⟩ := foldlM_computeBRow_some (c := v) rfl h
    refine ⟨h2, Or.inl ?_, ?_⟩
    · rw [h3, Option.getD_some, List.mem_cons]
      exact h4
    · rw [h3, h2, Option.getD_some, toConstraintType_holds, h5]
      simp

/-- A row with range zero. -/
theorem row_zero_range {vs : List ℚ} {relation : Relation} {s' : RowState}
    (h : vs.foldlM computeBRow ⟨relation, .equal, none⟩ = .ok s') (hv : ∀ v ∈ vs, ∀ w ∈ vs, v = w) (x : ℚ) :
    s'.type = .equal ∧
    (s'.type.Holds (s'.b.getD 0) x ↔
      ∀ b, b ∈ vs ∨ vs = [] ∧ b = 0 → RangeHolds relation 0 b x) := by
  have hr : ∀ b, RangeHolds relation 0 b x ↔ x = b := by
    intro b
    have : b ≤ x ∧ x ≤ b ↔ x = b := ⟨fun h => le_antisymm h.2 h.1, fun h => ⟨h.ge, h.le⟩⟩
    cases relation <;> simp [RangeHolds, this]
  cases vs with
  | nil =>
    cases h
    simp [hr, ConstraintType.Holds]
  | cons v vs =>
    rw [List.foldlM_cons, computeBRow_none rfl (by simp)] at h
    obtain ⟨h1, h2, c', h3, h4, h5⟩ := foldlM_computeBRow_some (c := v) rfl h
    refine ⟨h2, ?_⟩
    have hc : c' = v := by
      rcases h4 with h4 | h4
      · exact h4
      · exact hv _ (List.mem_cons_of_mem _ h4) _ List.mem_cons_self
    rw [h3, h2, Option.getD_some, hc]
    simp only [hr, ConstraintType.Holds]
    constructor
    · rintro hx b (hb | ⟨hb, -⟩)
      · rw [hx]
        exact hv _ List.mem_cons_self _ hb
      · cases hb
    · intro hx
      exact hx v (Or.inl List.mem_cons_self)

/-- A row with a range other than zero and a right-hand side. -/
theorem row_with_range {vs : List ℚ} {relation : Relation} {r : ℚ} {s' : RowState} (hr : r ≠ 0)
    (h : vs.foldlM computeBRow ⟨relation, .range r, none⟩ = .ok s') (hv : ∀ v ∈ vs, ∀ w ∈ vs, v = w)
    (hne : vs ≠ []) (x : ℚ) :
    s'.type = .range |r| ∧
    (s'.type.Holds (s'.b.getD 0) x ↔
      ∀ b, b ∈ vs ∨ vs = [] ∧ b = 0 → RangeHolds relation r b x) := by
  cases vs with
  | nil => exact absurd rfl hne
  | cons v vs =>
    have habs : (if r < 0 then -r else r) = |r| := by
      split_ifs with h0
      · exact (abs_of_neg h0).symm
      · exact (abs_of_nonneg (not_lt.1 h0)).symm
    have hpos : 0 < |r| := abs_pos.2 hr
    obtain ⟨bound, h1, h2⟩ : ∃ bound, computeBRow ⟨relation, .range r, none⟩ v =
        .ok ⟨relation, .range |r|, some bound⟩ ∧
        (bound = v + |r| ∧ relation ≠ .less ∧ (∀ x, RangeHolds relation r v x ↔ bound - |r| ≤ x ∧ x ≤ bound) ∨
          bound = v ∧ ∀ x, RangeHolds relation r v x ↔ bound - |r| ≤ x ∧ x ≤ bound) := by
      unfold computeBRow
      simp only [habs]
      match relation with
      | .greater => exact ⟨_, rfl, Or.inl ⟨rfl, by simp, fun x => by simp [RangeHolds]⟩⟩
      | .less => exact ⟨_, rfl, Or.inr ⟨rfl, fun x => by simp [RangeHolds]⟩⟩
      | .equal =>
        match hc : compare r 0 with
        | .gt =>
          rw [compare_gt_iff_gt] at hc
          exact ⟨_, rfl, Or.inl ⟨rfl, by simp, fun x => by simp [RangeHolds, le_of_lt hc]⟩⟩
        | .lt =>
          rw [compare_lt_iff_lt] at hc
          exact ⟨_, rfl, Or.inr ⟨rfl, fun x => by simp [RangeHolds, not_le.2 hc]⟩⟩
        | .eq =>
          rw [compare_eq_iff_eq] at hc
          exact absurd hc hr
    rw [List.foldlM_cons, h1] at h
    obtain ⟨h3, h4, c', h5, h6, h7⟩ := foldlM_computeBRow_some (c := bound) rfl h
    have hall : ∀ w ∈ vs, w = v := fun w hw => hv _ (List.mem_cons_of_mem _ hw) _ List.mem_cons_self
    have hc : c' = bound := by
      rcases h6 with h6 | h6
      · exact h6
      · have e := hall _ h6
        rcases h2 with ⟨h2, hl, -⟩ | ⟨h2, -⟩
        · -- a tighter right-hand side would have to be above the bound
          exfalso
          have h9 := h7 v
          have hmem : v ∈ vs := e ▸ h6
          rw [e] at h9
          simp only at h9
          match relation with
          | .greater =>
            have := h9.1 le_rfl
            simp only [Relation.Holds] at this
            linarith [this.1]
          | .less => exact hl rfl
          | .equal =>
            have := h9.1 rfl
            simp only [Relation.Holds] at this
            linarith [this.1]
        · rw [e, h2]
    refine ⟨h4, ?_⟩
    rw [h5, h4, hc, Option.getD_some]
    have hR : ∀ x, RangeHolds relation r v x ↔ bound - |r| ≤ x ∧ x ≤ bound := by
      rcases h2 with h2 | h2
      · exact h2.2.2
      · exact h2.2
    simp only [ConstraintType.Holds]
    rw [← hR]
    constructor
    · rintro hx b (hb | ⟨hb, -⟩)
      · rcases List.mem_cons.1 hb with rfl | hb
        · exact hx
        · rw [hall b hb]
          exact hx
      · cases hb
    · intro hx
      exact hx v (Or.inl List.mem_cons_self)

end Relp.Mps
