import Verif.Proof.Standardize

/-!
# Sign normalisation and reordering of the rows of a `GeneralForm`: helper lemmas
-/

namespace Relp

namespace GeneralForm

variable {G : GeneralForm}

/-! ### Sign normalisation -/

theorem holds_negateRow (t : ConstraintType) (b value : ℚ) :
    (negateRow t b).1.Holds (negateRow t b).2 (-value) ↔ t.Holds b value := by
  cases t <;> simp only [ConstraintType.Holds, negateRow]
  · constructor <;> intro h <;> linarith
  · constructor <;> rintro ⟨h1, h2⟩ <;> constructor <;> linarith
  · constructor <;> intro h <;> linarith
  · constructor <;> intro h <;> linarith

theorem val_changeSigns (rows : List ℕ) (v : SVec ℕ) (i : ℕ) :
    SVec.val (v.map fun p => if p.1 ∈ rows then (p.1, p.2 * -1) else p) i =
      if i ∈ rows then -SVec.val v i else SVec.val v i := by
  induction v with
  | nil => simp
  | cons p v ih =>
    rw [List.map_cons, SVec.val_cons, SVec.val_cons, ih]
    by_cases hp : p.1 ∈ rows
    · rw [if_pos hp]
      by_cases hi : p.1 = i
      · subst hi; simp [hp]; ring
      · simp [hi]
    · rw [if_neg hp]
      by_cases hi : p.1 = i
      · subst hi; simp [hp]
      · simp [hi]

theorem wf_changeSigns (rows : List ℕ) {v : SVec ℕ} (hv : SVec.WF v) :
    SVec.WF (v.map fun p => if p.1 ∈ rows then (p.1, p.2 * -1) else p) := by
  refine ⟨?_, fun p hp => ?_⟩
  · rw [List.pairwise_map]
    refine hv.1.imp fun {p q} h => ?_
    split_ifs <;> exact h
  · obtain ⟨q, hq, rfl⟩ := List.mem_map.1 hp
    have := hv.2 q hq
    split_ifs
    · simpa using this
    · exact this

theorem zip_getElem? {α β : Type} {l : List α} {r : List β} {i : ℕ} {a : α} {b : β}
    (ha : l[i]? = some a) (hb : r[i]? = some b) : (l.zip r)[i]? = some (a, b) := by
  rw [List.getElem?_zip_eq_some]
  exact ⟨ha, hb⟩

theorem nonneg_types {i : ℕ} {t : ConstraintType} {b : ℚ} (ht : G.constraintTypes[i]? = some t)
    (hb : G.b[i]? = some b) : G.makeBNonNegative.constraintTypes[i]? =
      some (if b < 0 then (negateRow t b).1 else t) := by
  simp only [makeBNonNegative, List.getElem?_map, zip_getElem? ht hb]
  rfl

theorem nonneg_b {i : ℕ} {t : ConstraintType} {b : ℚ} (ht : G.constraintTypes[i]? = some t)
    (hb : G.b[i]? = some b) : G.makeBNonNegative.b[i]? =
      some (if b < 0 then (negateRow t b).2 else b) := by
  simp only [makeBNonNegative, List.getElem?_map, zip_getElem? ht hb]
  rfl

theorem nonneg_rowValue (y : ℕ → ℚ) {i : ℕ} {b : ℚ} (hb : G.b[i]? = some b) :
    G.makeBNonNegative.rowValue y i = if b < 0 then -G.rowValue y i else G.rowValue y i := by
  have hc : ∀ j, SVec.val (G.makeBNonNegative.col j) i =
      if b < 0 then -SVec.val (G.col j) i else SVec.val (G.col j) i := by
    intro j
    have e : G.makeBNonNegative.col j = (G.col j).map fun p =>
        if p.1 ∈ (List.range G.b.length).filter (fun i => G.b.getD i 0 < 0)
        then (p.1, p.2 * -1) else p := by
      simp only [col, makeBNonNegative, SparseMatrix.changeMinorSigns, List.getD_eq_getElem?_getD,
        List.getElem?_map]
      cases G.constraints.data[j]? <;> rfl
    have hm : i ∈ (List.range G.b.length).filter (fun i => G.b.getD i 0 < 0) ↔ b < 0 := by
      rw [List.mem_filter, List.mem_range, List.getD_eq_getElem?_getD, hb]
      have := (List.getElem?_eq_some_iff.1 hb).1
      simp [this]
    rw [e, val_changeSigns]
    simp only [hm]
  rw [rowValue, rowValue]
  simp only [hc]
  have : G.makeBNonNegative.vars = G.vars := rfl
  rw [this]
  split_ifs
  · rw [← Finset.sum_neg_distrib]
    exact Finset.sum_congr rfl fun j _ => by ring
  · rfl

theorem nonneg_length (hb : G.b.length = G.constraintTypes.length) :
    G.makeBNonNegative.constraintTypes.length = G.constraintTypes.length ∧
    G.makeBNonNegative.b.length = G.constraintTypes.length := by
  simp [makeBNonNegative, hb]

theorem nonneg_rows (hb : G.b.length = G.constraintTypes.length) (y : ℕ → ℚ) :
    G.makeBNonNegative.RowsHold y ↔ G.RowsHold y := by
  have key : ∀ (i : ℕ) t b, G.constraintTypes[i]? = some t → G.b[i]? = some b →
      ((if b < 0 then (negateRow t b).1 else t).Holds (G.makeBNonNegative.b.getD i 0)
        (G.makeBNonNegative.rowValue y i) ↔ t.Holds (G.b.getD i 0) (G.rowValue y i)) := by
    intro i t b ht hbi
    rw [List.getD_eq_getElem?_getD, nonneg_b ht hbi, nonneg_rowValue y hbi,
      List.getD_eq_getElem?_getD, hbi]
    simp only [Option.getD_some]
    split_ifs with h
    · exact holds_negateRow t b _
    · rfl
  constructor
  · intro h i t ht
    have hi := (List.getElem?_eq_some_iff.1 ht).1
    have hbi : G.b[i]? = some (G.b[i]'(by omega)) := List.getElem?_eq_getElem (by omega)
    exact (key i t _ ht hbi).1 (h i _ (nonneg_types ht hbi))
  · intro h i t ht
    have hi := (List.getElem?_eq_some_iff.1 ht).1
    rw [(nonneg_length hb).1] at hi
    have ht0 : G.constraintTypes[i]? = some G.constraintTypes[i] := List.getElem?_eq_getElem hi
    have hbi : G.b[i]? = some (G.b[i]'(by omega)) := List.getElem?_eq_getElem (by omega)
    rw [nonneg_types ht0 hbi] at ht
    cases ht
    exact (key i _ _ ht0 hbi).2 (h i _ ht0)

theorem nonneg_nonneg (hr : ∀ r, .range r ∈ G.constraintTypes → 0 ≤ r) :
    ∀ x ∈ G.makeBNonNegative.b, 0 ≤ x := by
  intro x hx
  obtain ⟨⟨t, b⟩, hp, rfl⟩ := List.mem_map.1 hx
  simp only
  split_ifs with h
  · cases t <;> simp only [negateRow]
    · linarith
    · have := hr _ (List.of_mem_zip hp).1
      linarith
    · linarith
    · linarith
  · exact not_lt.1 h

theorem nonneg_ranges {r : ℚ} (h : .range r ∈ G.makeBNonNegative.constraintTypes) :
    .range r ∈ G.constraintTypes := by
  obtain ⟨⟨t, b⟩, hp, he⟩ := List.mem_map.1 h
  have hm := (List.of_mem_zip hp).1
  simp only at he
  split_ifs at he
  · cases t <;> simp [negateRow] at he
    subst he
    exact hm
  · rwa [he] at hm

theorem nonneg_ranges_iff (hl : G.b.length = G.constraintTypes.length) {r : ℚ} :
    .range r ∈ G.makeBNonNegative.constraintTypes ↔ .range r ∈ G.constraintTypes := by
  refine ⟨nonneg_ranges, fun h => ?_⟩
  obtain ⟨i, hi⟩ := List.mem_iff_getElem?.1 h
  have hlt := (List.getElem?_eq_some_iff.1 hi).1
  refine List.mem_map.2 ⟨(.range r, G.b[i]'(by omega)), ?_, ?_⟩
  · refine List.mem_of_getElem? (i := i) ?_
    rw [List.getElem?_zip_eq_some]
    exact ⟨hi, List.getElem?_eq_getElem _⟩
  · simp only [negateRow]
    split_ifs <;> rfl

/-! ### Minimisation -/

theorem minimize_rows (y : ℕ → ℚ) : G.makeMinimization.RowsHold y ↔ G.RowsHold y := by
  unfold makeMinimization
  split
  · simp only [RowsHold, rowValue, col, List.length_map]
  · rfl

theorem minimize_vars (j : ℕ) : G.makeMinimization.vars[j]? = (G.vars[j]?).map fun v =>
    match G.objective with
    | .maximize => { v with cost := v.cost * -1 }
    | .minimize => v := by
  unfold makeMinimization
  split
  next h => simp only [h, List.getElem?_map]
  next h => simp [h]

theorem minimize_length : G.makeMinimization.vars.length = G.vars.length := by
  unfold makeMinimization
  split <;> simp

theorem minimize_bounds (y : ℕ → ℚ) : G.makeMinimization.BoundsHold y ↔ G.BoundsHold y := by
  constructor
  · intro h j v hv
    have := minimize_vars (G := G) j
    rw [hv] at this
    have := h j _ this
    split at this <;> exact this
  · intro h j v hv
    rw [minimize_vars] at hv
    obtain ⟨w, hw, rfl⟩ := Option.map_eq_some_iff.1 hv
    have := h j w hw
    split <;> exact this

/-- The sign of the objective function. -/
def sign : Objective → ℚ
  | .minimize => 1
  | .maximize => -1

theorem minimize_obj (y : ℕ → ℚ) : G.makeMinimization.obj y =
    G.fixedCost + sign G.objective * (G.obj y - G.fixedCost) := by
  rw [obj, minimize_length, obj]
  have h1 : G.makeMinimization.fixedCost = G.fixedCost := by
    unfold makeMinimization; split <;> rfl
  have h2 : ∀ j, G.makeMinimization.costOf j = sign G.objective * G.costOf j := by
    intro j
    rw [costOf, costOf, minimize_vars]
    cases G.vars[j]? with
    | none => simp
    | some v => 
      cases G.objective <;> simp [sign]
  rw [h1]
  simp only [h2, mul_assoc]
  rw [← Finset.mul_sum]
  ring

/-! ### Reordering -/

theorem countP_take_lt {α : Type} (p : α → Bool) {l : List α} {i : ℕ} {a : α} (h : l[i]? = some a)
    (ha : p a) : (l.take i).countP p < l.countP p := by
  obtain ⟨hi, rfl⟩ := List.getElem?_eq_some_iff.1 h
  have : l = l.take i ++ l[i] :: l.drop (i + 1) := by simp
  conv_rhs => rw [this]
  rw [List.countP_append, List.countP_cons_of_pos ha]
  omega

theorem filter_getElem?_countP {α : Type} (p : α → Bool) : ∀ {l : List α} {i : ℕ} {a : α},
    l[i]? = some a → p a → (l.filter p)[(l.take i).countP p]? = some a
  | [], i, a, h, _ => by simp at h
  | b :: l, 0, a, h, ha => by
    simp at h
    subst h
    simp [ha]
  | b :: l, i + 1, a, h, ha => by
    rw [List.getElem?_cons_succ] at h
    have := filter_getElem?_countP p h ha
    by_cases hb : p b
    · simp only [List.filter_cons_of_pos hb, List.take_succ_cons, List.countP_cons_of_pos hb,
        List.getElem?_cons_succ]
      exact this
    · simp only [List.filter_cons_of_neg hb, List.take_succ_cons, List.countP_cons_of_neg hb]
      exact this

theorem countP_take_mono {α : Type} (p : α → Bool) {l : List α} {i j : ℕ} {a : α} (hij : i < j)
    (h : l[i]? = some a) (ha : p a) : (l.take i).countP p < (l.take j).countP p := by
  have h1 : (l.take j)[i]? = some a := by rw [List.getElem?_take, if_pos hij, h]
  have := countP_take_lt p h1 ha
  rwa [List.take_take, min_eq_left (by omega)] at this

section

variable {types : List ConstraintType}

theorem rank_lt (t : ConstraintType) : rank t < 4 := by cases t <;> simp [rank]

/-- Number of constraints of lower kinds. -/
def offset (types : List ConstraintType) (k : ℕ) : ℕ := ((List.range k).map (countRank types)).sum

theorem offset_succ (k : ℕ) : offset types (k + 1) = offset types k + countRank types k := by
  simp [offset, List.range_succ]

theorem offset_mono {k l : ℕ} (h : k ≤ l) : offset types k ≤ offset types l := by
  induction l with
  | zero => rw [Nat.le_zero.1 h]
  | succ l ih =>
    rcases Nat.lt_or_ge l k with h' | h'
    · rw [show k = l + 1 by omega]
    · rw [offset_succ]; have := ih h'; omega

theorem countRank_cons (t : ConstraintType) (k : ℕ) :
    countRank (t :: types) k = countRank types k + if rank t = k then 1 else 0 := by
  simp [countRank, List.countP_cons]

theorem offset_one : offset types 1 = countRank types 0 := by simp [offset, List.range_succ]

theorem offset_two : offset types 2 = countRank types 0 + countRank types 1 := by
  rw [offset_succ, offset_one]

theorem offset_three :
    offset types 3 = countRank types 0 + countRank types 1 + countRank types 2 := by
  rw [offset_succ, offset_two]

theorem offset_four : offset types 4 = types.length := by
  rw [offset_succ, offset_three]
  induction types with
  | nil => rfl
  | cons t l ih =>
    simp only [countRank_cons, List.length_cons]
    cases t <;> simp [rank] <;> omega

theorem destination_eq {i : ℕ} {t : ConstraintType} (h : types[i]? = some t) :
    destination types i = offset types (rank t) + countRank (types.take i) (rank t) := by
  rw [destination, h]
  rfl

theorem destination_lt_succ {i : ℕ} {t : ConstraintType} (h : types[i]? = some t) :
    destination types i < offset types (rank t + 1) := by
  rw [destination_eq h, offset_succ]
  have := countP_take_lt (fun s => decide (rank s = rank t)) h (by simp)
  unfold countRank
  omega

theorem destination_lt {i : ℕ} (h : i < types.length) : destination types i < types.length := by
  have ht : types[i]? = some types[i] := List.getElem?_eq_getElem h
  have h1 := destination_lt_succ ht
  have h2 := offset_mono (types := types) (show rank types[i] + 1 ≤ 4 from rank_lt _)
  rw [offset_four] at h2
  omega

theorem destination_inj {i j : ℕ} (hi : i < types.length) (hj : j < types.length)
    (h : destination types i = destination types j) : i = j := by
  have hti : types[i]? = some types[i] := List.getElem?_eq_getElem hi
  have htj : types[j]? = some types[j] := List.getElem?_eq_getElem hj
  have key : ∀ {i j : ℕ} {t s : ConstraintType}, types[i]? = some t → types[j]? = some s →
      rank t < rank s → destination types i < destination types j := by
    intro i j t s h1 h2 h3
    have a := destination_lt_succ h1
    have b := offset_mono (types := types) (show rank t + 1 ≤ rank s from h3)
    rw [destination_eq h2]
    omega
  rcases lt_trichotomy (rank types[i]) (rank types[j]) with hr | hr | hr
  · have := key hti htj hr; omega
  · rw [destination_eq hti, destination_eq htj, hr] at h
    have hc := Nat.add_left_cancel h
    unfold countRank at hc
    rcases lt_trichotomy i j with hij | hij | hij
    · have := countP_take_mono (fun s => decide (rank s = rank types[j])) hij hti (by simp [hr])
      omega
    · exact hij
    · have := countP_take_mono (fun s => decide (rank s = rank types[j])) hij htj (by simp)
      omega
  · have := key htj hti hr; omega

theorem destination_surj {k : ℕ} (hk : k < types.length) :
    ∃ i < types.length, destination types i = k := by
  let f : Fin types.length → Fin types.length := fun i => ⟨destination types i, destination_lt i.2⟩
  have hf : Function.Injective f := fun i j h => Fin.ext
    (destination_inj i.2 j.2 (congrArg Fin.val h))
  obtain ⟨i, hi⟩ := (Finite.injective_iff_surjective.1 hf) ⟨k, hk⟩
  exact ⟨i, i.2, congrArg Fin.val hi⟩

/-- The sorted constraint types. -/
def sortedTypes (types : List ConstraintType) : List ConstraintType :=
  ((List.range 4).map fun k => types.filter fun t => rank t = k).flatten

theorem sortedTypes_eq : sortedTypes types = 
    types.filter (fun t => rank t = 0) ++ (types.filter (fun t => rank t = 1) ++
    (types.filter (fun t => rank t = 2) ++ types.filter (fun t => rank t = 3))) := by
  simp [sortedTypes, List.range_succ]

theorem filter_length (k : ℕ) : (types.filter fun t => rank t = k).length = countRank types k := by
  rw [countRank, List.countP_eq_length_filter]

theorem sortedTypes_length : (sortedTypes types).length = types.length := by
  rw [sortedTypes_eq, ← offset_four (types := types), offset_succ, offset_three]
  simp only [List.length_append, filter_length]
  omega

theorem sortedTypes_destination {i : ℕ} {t : ConstraintType} (h : types[i]? = some t) :
    (sortedTypes types)[destination types i]? = some t := by
  have hf := filter_getElem?_countP (fun s => decide (rank s = rank t)) h (by simp)
  have hlt := countP_take_lt (fun s => decide (rank s = rank t)) h (by simp)
  have h0 : offset types 0 = 0 := rfl
  have h1 := offset_one (types := types)
  have h2 := offset_two (types := types)
  have h3 := offset_three (types := types)
  rw [destination_eq h, sortedTypes_eq]
  have l0 := filter_length (types := types) 0
  have l1 := filter_length (types := types) 1
  have l2 := filter_length (types := types) 2
  have l3 := filter_length (types := types) 3
  unfold countRank at *
  have hr : rank t = 0 ∨ rank t = 1 ∨ rank t = 2 ∨ rank t = 3 := by
    cases t <;> simp [rank]
  rcases hr with hr | hr | hr | hr <;> rw [hr] at hf hlt ⊢
  · rw [List.getElem?_append_left (by omega), h0, zero_add]
    exact hf
  · rw [List.getElem?_append_right (by omega), List.getElem?_append_left (by omega)]
    convert hf using 2
    omega
  · rw [List.getElem?_append_right (by omega), List.getElem?_append_right (by omega),
      List.getElem?_append_left (by omega)]
    convert hf using 2
    omega
  · rw [List.getElem?_append_right (by omega), List.getElem?_append_right (by omega),
      List.getElem?_append_right (by omega)]
    convert hf using 2
    omega

theorem mapM_id_some : ∀ {l : List (Option ℚ)}, (∀ x ∈ l, x.isSome) →
    ∃ r, l.mapM id = some r ∧ l = r.map some
  | [], _ => ⟨[], rfl, rfl⟩
  | x :: l, h => by
    obtain ⟨r, h1, h2⟩ := mapM_id_some (l := l) fun y hy => h y (by simp [hy])
    obtain ⟨a, rfl⟩ := Option.isSome_iff_exists.1 (h x (by simp))
    refine ⟨a :: r, ?_, by rw [h2]; rfl⟩
    rw [List.mapM_cons, h1]
    rfl

theorem placed (types : List ConstraintType) (b : List ℚ) (hb : b.length = types.length) :
    ∀ k ≤ b.length,
    ((List.range k).foldl (fun (newB : List (Option ℚ)) i => newB.set (destination types i) b[i]?)
      (List.replicate b.length none)).length = b.length ∧
    ∀ i < k, ((List.range k).foldl
      (fun (newB : List (Option ℚ)) i => newB.set (destination types i) b[i]?)
      (List.replicate b.length none))[destination types i]? = some b[i]? := by
  intro k
  induction k with
  | zero => intro _; simp
  | succ k ih =>
    intro hk
    obtain ⟨h1, h2⟩ := ih (by omega)
    rw [List.range_succ, List.foldl_append, List.foldl_cons, List.foldl_nil]
    refine ⟨by rw [List.length_set, h1], fun i hi => ?_⟩
    by_cases he : i = k
    · subst he
      rw [List.getElem?_set_self]
      rw [h1, hb]
      exact destination_lt (by omega)
    · rw [List.getElem?_set_ne, h2 i (by omega)]
      intro hc
      exact he (destination_inj (by omega) (by omega) hc).symm

theorem reorder_b (types : List ConstraintType) (b : List ℚ) (hb : b.length = types.length) :
    ∃ b' : List ℚ, ((List.range b.length).foldl
      (fun (newB : List (Option ℚ)) i => newB.set (destination types i) b[i]?)
      (List.replicate b.length none)).mapM id = some b' ∧ b'.length = types.length ∧
      ∀ i < types.length, b'[destination types i]? = b[i]? := by
  obtain ⟨h1, h2⟩ := placed types b hb b.length le_rfl
  generalize (List.range b.length).foldl (fun (newB : List (Option ℚ)) i =>
    newB.set (destination types i) b[i]?) (List.replicate b.length none) = l at h1 h2
  obtain ⟨r, h3, h4⟩ := mapM_id_some (l := l) (by
    intro x hx
    obtain ⟨k, hk⟩ := List.mem_iff_getElem?.1 hx
    have hkl := (List.getElem?_eq_some_iff.1 hk).1
    obtain ⟨i, hi, rfl⟩ := destination_surj (types := types) (k := k) (by omega)
    rw [h2 i (by omega), List.getElem?_eq_getElem (by omega)] at hk
    rw [← Option.some.inj hk]
    rfl)
  refine ⟨r, h3, ?_, fun i hi => ?_⟩
  · rw [← hb, ← h1, h4, List.length_map]
  · have := h2 i (by omega)
    rw [h4, List.getElem?_map] at this
    obtain ⟨a, ha, hr⟩ := Option.map_eq_some_iff.1 this
    rw [ha, hr]

/-- The new column. -/
def reorderColumn (types : List ConstraintType) (column : SVec ℕ) : SVec ℕ :=
  (column.map fun p => (destination types p.1, p.2)).insertionSort fun p q => p.1 ≤ q.1

theorem reorderColumn_perm (types : List ConstraintType) (column : SVec ℕ) :
    (reorderColumn types column).Perm (column.map fun p => (destination types p.1, p.2)) :=
  List.perm_insertionSort _ _

theorem val_perm {v w : SVec ℕ} (h : v.Perm w) (i : ℕ) : SVec.val v i = SVec.val w i :=
  (h.map _).sum_eq

theorem val_reorderColumn {column : SVec ℕ} (hc : ∀ p ∈ column, p.1 < types.length) {i : ℕ}
    (hi : i < types.length) :
    SVec.val (reorderColumn types column) (destination types i) = SVec.val column i := by
  rw [val_perm (reorderColumn_perm types column)]
  induction column with
  | nil => rfl
  | cons p v ih =>
    rw [List.map_cons, SVec.val_cons, SVec.val_cons, ih fun q hq => hc q (by simp [hq])]
    have : destination types p.1 = destination types i ↔ p.1 = i :=
      ⟨destination_inj (hc p (by simp)) hi, fun h => by rw [h]⟩
    simp only [this]

theorem wf_reorderColumn {column : SVec ℕ} (hv : SVec.WF column)
    (hc : ∀ p ∈ column, p.1 < types.length) : SVec.WF (reorderColumn types column) := by
  have hp := reorderColumn_perm types column
  refine ⟨?_, fun p hpm => ?_⟩
  · have hle : (reorderColumn types column).Pairwise fun p q => p.1 ≤ q.1 :=
      List.pairwise_insertionSort (r := fun p q : ℕ × ℚ => p.1 ≤ q.1) _
    have hne : (reorderColumn types column).Pairwise fun p q => p.1 ≠ q.1 := by
      refine (hp.pairwise_iff fun h => h.symm).2 ?_
      rw [List.pairwise_map]
      refine List.Pairwise.imp_of_mem (fun {p q} hpm hqm h he => ?_) hv.1
      have := destination_inj (hc p hpm) (hc q hqm) he
      omega
    exact (hle.and hne).imp fun h => lt_of_le_of_ne h.1 h.2
  · obtain ⟨q, hq, rfl⟩ := List.mem_map.1 (hp.mem_iff.1 hpm)
    exact hv.2 q hq

theorem reorderColumn_lt {column : SVec ℕ} (hc : ∀ p ∈ column, p.1 < types.length) :
    ∀ p ∈ reorderColumn types column, p.1 < types.length := by
  intro p hp
  obtain ⟨q, hq, rfl⟩ := List.mem_map.1 ((reorderColumn_perm types column).mem_iff.1 hp)
  exact destination_lt (hc q hq)

end

/-- `reorder_constraints_by_type` does not abort, and permutes the rows. -/
theorem reorder_spec (hb : G.b.length = G.constraintTypes.length)
    (hc : ∀ v ∈ G.constraints.data, ∀ p ∈ v, p.1 < G.constraintTypes.length) :
    ∃ b' : List ℚ, b'.length = G.constraintTypes.length ∧
      (∀ i < G.constraintTypes.length, b'[destination G.constraintTypes i]? = G.b[i]?) ∧
      ∃ G', G' = { G with
          constraintTypes := sortedTypes G.constraintTypes
          b := b'
          constraints := { G.constraints with
            data := G.constraints.data.map (reorderColumn G.constraintTypes) } } ∧
        G.reorderConstraints = some (G', ⟨countRank G.constraintTypes 0,
          countRank G.constraintTypes 1, countRank G.constraintTypes 2,
          countRank G.constraintTypes 3⟩) ∧
        ∀ y, G'.RowsHold y ↔ G.RowsHold y := by
  obtain ⟨b', h1, h2, h3⟩ := reorder_b G.constraintTypes G.b hb
  refine ⟨b', h2, h3, _, rfl, ?_, fun y => ?_⟩
  · simp only [reorderConstraints, h1, bind, Option.bind, pure]
    rfl
  · have hrow : ∀ i < G.constraintTypes.length, GeneralForm.rowValue { G with
          constraintTypes := sortedTypes G.constraintTypes
          b := b'
          constraints := { G.constraints with
            data := G.constraints.data.map (reorderColumn G.constraintTypes) } } y
          (destination G.constraintTypes i) = G.rowValue y i := by
      intro i hi
      simp only [rowValue, col]
      apply Finset.sum_congr rfl
      intro j _
      congr 1
      rw [List.getD_eq_getElem?_getD, List.getD_eq_getElem?_getD, List.getElem?_map]
      rcases hj : G.constraints.data[j]? with _ | c
      · rfl
      · exact val_reorderColumn (hc c (List.mem_of_getElem? hj)) hi
    have hbd : ∀ i < G.constraintTypes.length,
        b'.getD (destination G.constraintTypes i) 0 = G.b.getD i 0 := by
      intro i hi
      rw [List.getD_eq_getElem?_getD, h3 i hi, List.getD_eq_getElem?_getD]
    constructor
    · intro h i t ht
      have hi := (List.getElem?_eq_some_iff.1 ht).1
      have := h (destination G.constraintTypes i) t (sortedTypes_destination ht)
      rw [hrow i hi] at this
      simp only [hbd i hi] at this
      exact this
    · intro h k t ht
      have hk := (List.getElem?_eq_some_iff.1 ht).1
      simp only [sortedTypes_length] at hk
      obtain ⟨i, hi, rfl⟩ := destination_surj hk
      have hti : G.constraintTypes[i]? = some G.constraintTypes[i] := List.getElem?_eq_getElem hi
      have he := sortedTypes_destination hti
      simp only at ht
      rw [ht] at he
      cases he
      have := h i _ hti
      rw [hrow i hi]
      simp only [hbd i hi]
      exact this

end GeneralForm

end Relp
