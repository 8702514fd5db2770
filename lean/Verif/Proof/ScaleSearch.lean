import Verif.Model.ScaleSearch
import Verif.Proof.Scale
import Mathlib.Tactic.Linarith
import Mathlib.Algebra.BigOperators.Intervals

/-!
# The search for a scaling
-/

namespace Relp

namespace Scaling

/-! ### Counts are changes of a penalty -/

theorem countPositive_eq (v : ℤ) (c : ℤ × ℤ) :
    countPositive v c = (c.1 + (|v + 1| - |v|), c.2 + (|v - 1| - |v|)) := by
  unfold countPositive
  rcases lt_trichotomy v 0 with h | h | h
  · rw [compare_lt_iff_lt.2 h]
    refine Prod.ext ?_ ?_ <;> dsimp only <;> rw [abs_of_neg h]
    · rw [abs_of_nonpos (by omega)]; omega
    · rw [abs_of_neg (by omega)]; omega
  · subst h
    rfl
  · rw [compare_gt_iff_gt.2 h]
    refine Prod.ext ?_ ?_ <;> dsimp only <;> rw [abs_of_pos h]
    · rw [abs_of_pos (by omega)]; omega
    · rw [abs_of_nonneg (by omega)]; omega

theorem countNegative_eq (v : ℤ) (c : ℤ × ℤ) :
    countNegative v c = (c.1 + (|v - 1| - |v|), c.2 + (|v + 1| - |v|)) := by
  have := countPositive_eq v (c.2, c.1)
  unfold countPositive at this
  unfold countNegative
  rcases h : compare v 0 <;> rw [h] at this <;> simp only [Prod.mk.injEq] at this ⊢ <;> exact ⟨this.2, this.1⟩

/-- The counts are the changes of a convex penalty. -/
structure Measures (counts : ℤ → ℤ × ℤ) (penalty : ℤ → ℤ) : Prop where
  eq : ∀ x, counts x = (penalty (x + 1) - penalty x, penalty (x - 1) - penalty x)
  convex : ∀ x, 2 * penalty x ≤ penalty (x + 1) + penalty (x - 1)
  nonneg : ∀ x, 0 ≤ penalty x

theorem Measures.adjust {counts : ℤ → ℤ × ℤ} {penalty : ℤ → ℤ} (h : Measures counts penalty) {fuel : ℕ} {x : ℤ}
    (hf : penalty x < fuel) :
    ∃ r, adjust counts fuel x = .ok r ∧ (r.2 = true → penalty r.1 < penalty x) ∧ (r.2 = false → r.1 = x) := by
  induction fuel generalizing x with
  | zero => exact absurd (h.nonneg x) (not_le.2 hf)
  | succ fuel ih =>
    have hx := h.convex x
    rw [Scaling.adjust, h.eq]
    dsimp only
    by_cases h1 : penalty (x + 1) - penalty x < 0
    · have h2 : ¬ penalty (x - 1) - penalty x < 0 := by omega
      obtain ⟨r, hr, h3, h4⟩ := ih (x := x + 1) (by push_cast at hf; omega)
      refine ⟨(r.1, true), ?_, fun _ => ?_, fun e => (nomatch e)⟩
      · rw [if_neg (by tauto), if_pos (Or.inl h1), if_pos h1, if_neg h2, hr]
        rfl
      · cases hb : r.2 with
        | true => have := h3 hb; dsimp only; omega
        | false => dsimp only; rw [h4 hb]; omega
    · by_cases h2 : penalty (x - 1) - penalty x < 0
      · obtain ⟨r, hr, h3, h4⟩ := ih (x := x - 1) (by push_cast at hf; omega)
        refine ⟨(r.1, true), ?_, fun _ => ?_, fun e => (nomatch e)⟩
        · rw [if_neg (by tauto), if_pos (Or.inr h2), if_neg h1, if_pos h2, hr]
          rfl
        · cases hb : r.2 with
          | true => have := h3 hb; dsimp only; omega
          | false => dsimp only; rw [h4 hb]; omega
      · refine ⟨(x, false), ?_, fun e => (nomatch e), fun _ => rfl⟩
        rw [if_neg (by tauto), if_neg (by tauto)]
        rfl

theorem adjust_mono {counts : ℤ → ℤ × ℤ} {fuel : ℕ} {x : ℤ} {r : ℤ × Bool}
    (h : adjust counts fuel x = .ok r) : adjust counts (fuel + 1) x = .ok r := by
  induction fuel generalizing x r with
  | zero => cases h
  | succ fuel ih =>
    rw [adjust] at h ⊢
    generalize (if (counts x).2 < 0 then (if (counts x).1 < 0 then x + 1 else x) - 1
        else if (counts x).1 < 0 then x + 1 else x) = c at h ⊢
    by_cases h1 : (counts x).1 < 0 ∧ (counts x).2 < 0
    · rw [if_pos h1] at h
      cases h
    · rw [if_neg h1] at h ⊢
      by_cases h2 : (counts x).1 < 0 ∨ (counts x).2 < 0
      · rw [if_pos h2] at h ⊢
        cases hr : adjust counts fuel c with
        | error e => rw [hr] at h; cases h
        | ok q =>
          rw [hr] at h
          rw [ih hr]
          exact h
      · rw [if_neg h2] at h ⊢
        exact h

/-! ### The penalty of a column, a row and the cost row -/

/-- The penalty of an optional factorisation. -/
def optPenalty (factor : ℕ) (f : Option Factorization) (x : ℤ) : ℤ :=
  match f with
  | some f => |initialExponent factor f + x|
  | none => 0

/-- The penalty of the entries of a column, apart from bounds. -/
def entriesPenalty (factor : ℕ) (rows : List ℤ) (column : List (ℕ × Factorization)) (x : ℤ) : ℤ :=
  (column.map fun p => |initialExponent factor p.2 + rows.getD p.1 0 + x|).sum

/-- The penalty of a column. -/
def columnPenalty (d : Factorized) (factor : ℕ) (cost : ℤ) (rows : List ℤ) (j : ℕ) (x : ℤ) : ℤ :=
  optPenalty factor (entry d.c j) (cost + x) + entriesPenalty factor rows (d.constraints.getD j []) x +
    optPenalty factor (d.bounds.getD j (none, none)).1 (-x) +
    optPenalty factor (d.bounds.getD j (none, none)).2 (-x)

/-- The penalty of a row. -/
def rowPenalty (d : Factorized) (factor : ℕ) (columns : List ℤ) (i : ℕ) (x : ℤ) : ℤ :=
  ((rowEntries d i).map fun p => |initialExponent factor p.2 + x + columns.getD p.1 0|).sum +
    optPenalty factor (entry d.b i) x

/-- The penalty of the cost row. -/
def costPenalty (d : Factorized) (factor : ℕ) (columns : List ℤ) (x : ℤ) : ℤ :=
  (d.c.zipIdx.map fun q => optPenalty factor q.1 (x + columns.getD q.2 0)).sum

theorem optPenalty_nonneg (factor : ℕ) (f : Option Factorization) (x : ℤ) : 0 ≤ optPenalty factor f x := by
  unfold optPenalty
  split
  · exact abs_nonneg _
  · exact le_refl _

theorem abs_convex (v : ℤ) : 2 * |v| ≤ |v + 1| + |v - 1| := by
  have := abs_add_le (v + 1) (v - 1)
  have e : v + 1 + (v - 1) = 2 * v := by ring
  rw [e, abs_mul] at this
  simpa using this

theorem sum_convex {α : Type} (l : List α) (f : α → ℤ → ℤ) (x : ℤ)
    (h : ∀ a ∈ l, 2 * f a x ≤ f a (x + 1) + f a (x - 1)) :
    2 * (l.map fun a => f a x).sum ≤ (l.map fun a => f a (x + 1)).sum + (l.map fun a => f a (x - 1)).sum := by
  induction l with
  | nil => simp
  | cons a l ih =>
    have := ih fun b hb => h b (by simp [hb])
    have := h a (by simp)
    simp only [List.map_cons, List.sum_cons]
    omega

theorem sum_nonneg_int {α : Type} (l : List α) (f : α → ℤ) (h : ∀ a ∈ l, 0 ≤ f a) : 0 ≤ (l.map f).sum := by
  refine List.sum_nonneg fun x hx => ?_
  obtain ⟨a, ha, rfl⟩ := List.mem_map.1 hx
  exact h a ha

theorem foldl_counts {α : Type} (l : List α) (f : ℤ × ℤ → α → ℤ × ℤ) (up down : α → ℤ)
    (h : ∀ a ∈ l, ∀ c, f c a = (c.1 + up a, c.2 + down a)) (c : ℤ × ℤ) :
    l.foldl f c = (c.1 + (l.map up).sum, c.2 + (l.map down).sum) := by
  induction l generalizing c with
  | nil => simp
  | cons a l ih =>
    rw [List.foldl_cons, ih fun b hb => h b (by simp [hb]), h a (by simp)]
    simp only [List.map_cons, List.sum_cons, add_assoc]

theorem sum_map_sub_int {α : Type} (l : List α) (f g : α → ℤ) :
    (l.map fun a => f a - g a).sum = (l.map f).sum - (l.map g).sum := by
  induction l with
  | nil => rfl
  | cons a l ih =>
    simp only [List.map_cons, List.sum_cons, ih]
    omega

theorem optPenalty_convex (factor : ℕ) (f : Option Factorization) (y : ℤ) :
    2 * optPenalty factor f y ≤ optPenalty factor f (y + 1) + optPenalty factor f (y - 1) := by
  unfold optPenalty
  cases f with
  | none => simp
  | some f =>
    have := abs_convex (initialExponent factor f + y)
    rwa [add_assoc, add_sub_assoc] at this

theorem columnMeasures (d : Factorized) (factor : ℕ) (changes : Changes) (j : ℕ) :
    Measures (columnCounts d factor changes j) (columnPenalty d factor changes.cost changes.rows j) where
  eq := by
    intro x
    unfold columnCounts columnPenalty entriesPenalty
    dsimp only
    rw [foldl_counts _ (fun c (p : ℕ × Factorization) =>
        countPositive (initialExponent factor p.2 + changes.rows.getD p.1 0 + x) c)
      (fun p => |initialExponent factor p.2 + changes.rows.getD p.1 0 + (x + 1)| -
        |initialExponent factor p.2 + changes.rows.getD p.1 0 + x|)
      (fun p => |initialExponent factor p.2 + changes.rows.getD p.1 0 + (x - 1)| -
        |initialExponent factor p.2 + changes.rows.getD p.1 0 + x|)
      (fun p _ c => by rw [countPositive_eq]; simp only [add_assoc, add_sub_assoc])]
    rw [sum_map_sub_int, sum_map_sub_int]
    generalize ((d.constraints.getD j []).map fun p =>
      |initialExponent factor p.2 + changes.rows.getD p.1 0 + (x + 1)|).sum = S1
    generalize ((d.constraints.getD j []).map fun p =>
      |initialExponent factor p.2 + changes.rows.getD p.1 0 + (x - 1)|).sum = S2
    generalize ((d.constraints.getD j []).map fun p =>
      |initialExponent factor p.2 + changes.rows.getD p.1 0 + x|).sum = S0
    unfold optPenalty
    have e1 : ∀ f : Factorization, initialExponent factor f - x - 1 = initialExponent factor f + -(x + 1) := by
      intro f; ring
    have e2 : ∀ f : Factorization, initialExponent factor f - x + 1 = initialExponent factor f + -(x - 1) := by
      intro f; ring
    have e3 : ∀ f : Factorization, initialExponent factor f - x = initialExponent factor f + -x := by
      intro f; ring
    rcases entry d.c j with _ | f <;> rcases (d.bounds.getD j (none, none)).1 with _ | g <;>
      rcases (d.bounds.getD j (none, none)).2 with _ | k <;>
      simp only [countPositive_eq, countNegative_eq, e1, e2, e3, Prod.mk.injEq, add_assoc, add_sub_assoc] <;>
      constructor <;> ring_nf
  convex := by
    intro x
    unfold columnPenalty entriesPenalty
    have h1 := optPenalty_convex factor (entry d.c j) (changes.cost + x)
    have h2 := sum_convex (d.constraints.getD j [])
      (fun p x => |initialExponent factor p.2 + changes.rows.getD p.1 0 + x|) x fun p _ => by
        have := abs_convex (initialExponent factor p.2 + changes.rows.getD p.1 0 + x)
        simpa only [add_assoc, add_sub_assoc] using this
    have h3 := optPenalty_convex factor (d.bounds.getD j (none, none)).1 (-x)
    have h4 := optPenalty_convex factor (d.bounds.getD j (none, none)).2 (-x)
    rw [show -(x + 1) = -x - 1 by ring, show -(x - 1) = -x + 1 by ring]
    rw [add_assoc] at h1
    rw [add_sub_assoc] at h1
    omega
  nonneg := by
    intro x
    unfold columnPenalty entriesPenalty
    have h1 := optPenalty_nonneg factor (entry d.c j) (changes.cost + x)
    have h2 := sum_nonneg_int (d.constraints.getD j [])
      (fun p => |initialExponent factor p.2 + changes.rows.getD p.1 0 + x|) fun p _ => abs_nonneg _
    have h3 := optPenalty_nonneg factor (d.bounds.getD j (none, none)).1 (-x)
    have h4 := optPenalty_nonneg factor (d.bounds.getD j (none, none)).2 (-x)
    omega

theorem rowMeasures (d : Factorized) (factor : ℕ) (changes : Changes) (i : ℕ) :
    Measures (rowCounts d factor changes i) (rowPenalty d factor changes.columns i) where
  eq := by
    intro x
    unfold rowCounts rowPenalty
    dsimp only
    rw [foldl_counts _ (fun c (p : ℕ × Factorization) =>
        countPositive (initialExponent factor p.2 + x + changes.columns.getD p.1 0) c)
      (fun p => |initialExponent factor p.2 + (x + 1) + changes.columns.getD p.1 0| -
        |initialExponent factor p.2 + x + changes.columns.getD p.1 0|)
      (fun p => |initialExponent factor p.2 + (x - 1) + changes.columns.getD p.1 0| -
        |initialExponent factor p.2 + x + changes.columns.getD p.1 0|)
      (fun p _ c => by
        rw [countPositive_eq]
        congr 4 <;> ring_nf)]
    rw [sum_map_sub_int, sum_map_sub_int]
    generalize ((rowEntries d i).map fun p =>
      |initialExponent factor p.2 + (x + 1) + changes.columns.getD p.1 0|).sum = S1
    generalize ((rowEntries d i).map fun p =>
      |initialExponent factor p.2 + (x - 1) + changes.columns.getD p.1 0|).sum = S2
    generalize ((rowEntries d i).map fun p =>
      |initialExponent factor p.2 + x + changes.columns.getD p.1 0|).sum = S0
    unfold optPenalty
    rcases entry d.b i with _ | f <;>
      simp only [countPositive_eq, Prod.mk.injEq, add_assoc, add_sub_assoc, add_zero] <;>
      constructor <;> ring_nf
  convex := by
    intro x
    unfold rowPenalty
    have h1 := optPenalty_convex factor (entry d.b i) x
    have h2 := sum_convex (rowEntries d i)
      (fun p x => |initialExponent factor p.2 + x + changes.columns.getD p.1 0|) x fun p _ => by
        have := abs_convex (initialExponent factor p.2 + x + changes.columns.getD p.1 0)
        rwa [show initialExponent factor p.2 + (x + 1) + changes.columns.getD p.1 0 =
            initialExponent factor p.2 + x + changes.columns.getD p.1 0 + 1 by ring,
          show initialExponent factor p.2 + (x - 1) + changes.columns.getD p.1 0 =
            initialExponent factor p.2 + x + changes.columns.getD p.1 0 - 1 by ring]
    omega
  nonneg := by
    intro x
    unfold rowPenalty
    have h1 := optPenalty_nonneg factor (entry d.b i) x
    have h2 := sum_nonneg_int (rowEntries d i)
      (fun p => |initialExponent factor p.2 + x + changes.columns.getD p.1 0|) fun p _ => abs_nonneg _
    omega

theorem costMeasures (d : Factorized) (factor : ℕ) (changes : Changes) :
    Measures (costCounts d factor changes) (costPenalty d factor changes.columns) where
  eq := by
    intro x
    unfold costCounts costPenalty
    rw [foldl_counts _ (countCost factor changes x)
      (fun q => optPenalty factor q.1 (x + 1 + changes.columns.getD q.2 0) -
        optPenalty factor q.1 (x + changes.columns.getD q.2 0))
      (fun q => optPenalty factor q.1 (x - 1 + changes.columns.getD q.2 0) -
        optPenalty factor q.1 (x + changes.columns.getD q.2 0))
      (fun q _ c => by
        unfold optPenalty countCost
        rcases q with ⟨_ | f, j⟩
        · simp
        · dsimp only
          rw [countPositive_eq]
          congr 4 <;> ring_nf)]
    rw [sum_map_sub_int, sum_map_sub_int]
    simp
  convex := by
    intro x
    unfold costPenalty
    exact sum_convex d.c.zipIdx (fun q x => optPenalty factor q.1 (x + changes.columns.getD q.2 0)) x fun q _ => by
      have := optPenalty_convex factor q.1 (x + changes.columns.getD q.2 0)
      rwa [show x + 1 + changes.columns.getD q.2 0 = x + changes.columns.getD q.2 0 + 1 by ring,
        show x - 1 + changes.columns.getD q.2 0 = x + changes.columns.getD q.2 0 - 1 by ring]
  nonneg := fun x => sum_nonneg_int _ _ fun q _ => optPenalty_nonneg _ _ _

/-! ### The total penalty -/

/-- The total penalty. -/
def totalPenalty (d : Factorized) (factor : ℕ) (ch : Changes) : ℤ :=
  ∑ j ∈ Finset.range d.c.length, columnPenalty d factor ch.cost ch.rows j (ch.columns.getD j 0) +
    ∑ i ∈ Finset.range d.b.length, optPenalty factor (entry d.b i) (ch.rows.getD i 0)

theorem getD_set {α : Type} (l : List α) (i k : ℕ) (x a : α) (hi : i < l.length) :
    (l.set i x).getD k a = if k = i then x else l.getD k a := by
  simp only [List.getD_eq_getElem?_getD, List.getElem?_set]
  by_cases h : i = k
  · subst h
    simp [hi]
  · rw [if_neg h, if_neg (Ne.symm h)]

theorem sum_range_set (n : ℕ) (f : ℕ → ℤ → ℤ) (l : List ℤ) (i : ℕ) (x : ℤ) (hi : i < l.length) (hn : i < n) :
    ∑ k ∈ Finset.range n, f k ((l.set i x).getD k 0) - ∑ k ∈ Finset.range n, f k (l.getD k 0) =
      f i x - f i (l.getD i 0) := by
  rw [← Finset.add_sum_erase _ _ (Finset.mem_range.2 hn), ← Finset.add_sum_erase _ _ (Finset.mem_range.2 hn),
    getD_set l i i x 0 hi, if_pos rfl]
  have : ∑ k ∈ (Finset.range n).erase i, f k ((l.set i x).getD k 0) =
      ∑ k ∈ (Finset.range n).erase i, f k (l.getD k 0) :=
    Finset.sum_congr rfl fun k hk => by
      rw [getD_set l i k x 0 hi, if_neg (Finset.ne_of_mem_erase hk)]
  rw [this]
  ring

theorem sum_zipIdx {α : Type} (l : List α) (k : ℕ) (f : α × ℕ → ℤ) (a : α) :
    ((l.zipIdx k).map f).sum = ∑ j ∈ Finset.range l.length, f (l.getD j a, k + j) := by
  induction l generalizing k with
  | nil => simp
  | cons b l ih =>
    rw [List.zipIdx_cons, List.map_cons, List.sum_cons, ih, List.length_cons, Finset.sum_range_succ']
    simp only [List.getD_cons_succ, List.getD_cons_zero, Nat.add_zero, Nat.add_assoc, Nat.add_comm 1]
    exact add_comm _ _

theorem total_column (d : Factorized) (factor : ℕ) (ch : Changes) (j : ℕ) (x : ℤ)
    (h1 : j < ch.columns.length) (h2 : j < d.c.length) :
    totalPenalty d factor { ch with columns := ch.columns.set j x } - totalPenalty d factor ch =
      columnPenalty d factor ch.cost ch.rows j x - columnPenalty d factor ch.cost ch.rows j (ch.columns.getD j 0) := by
  have := sum_range_set d.c.length (columnPenalty d factor ch.cost ch.rows) ch.columns j x h1 h2
  unfold totalPenalty
  dsimp only
  omega

theorem entries_set (factor : ℕ) (rows : List ℤ) (column : List (ℕ × Factorization)) (i : ℕ) (x y : ℤ)
    (hi : i < rows.length) :
    entriesPenalty factor (rows.set i x) column y - entriesPenalty factor rows column y =
      ((column.filter fun p => p.1 = i).map fun p =>
        |initialExponent factor p.2 + x + y| - |initialExponent factor p.2 + rows.getD i 0 + y|).sum := by
  unfold entriesPenalty
  induction column with
  | nil => simp
  | cons p column ih =>
    rw [List.map_cons, List.map_cons, List.sum_cons, List.sum_cons, List.filter_cons, getD_set _ _ _ _ _ hi]
    by_cases h : p.1 = i
    · simp only [h, if_true, decide_true, List.map_cons, List.sum_cons]
      omega
    · simp only [h, if_false, decide_false]
      simp only [Bool.false_eq_true, if_false]
      omega

theorem sum_flatMap_int {α β : Type} (l : List α) (f : α → List β) (g : β → ℤ) :
    ((l.flatMap f).map g).sum = (l.map fun a => ((f a).map g).sum).sum := by
  induction l with
  | nil => rfl
  | cons a l ih => simp [List.flatMap_cons, ih]

theorem total_row (d : Factorized) (factor : ℕ) (ch : Changes) (i : ℕ) (x : ℤ)
    (hl : d.constraints.length = d.c.length) (h1 : i < ch.rows.length) (h2 : i < d.b.length) :
    totalPenalty d factor { ch with rows := ch.rows.set i x } - totalPenalty d factor ch =
      rowPenalty d factor ch.columns i x - rowPenalty d factor ch.columns i (ch.rows.getD i 0) := by
  have hb := sum_range_set d.b.length (fun k => optPenalty factor (entry d.b k)) ch.rows i x h1 h2
  have hr : ∀ y : ℤ, ((rowEntries d i).map fun p => |initialExponent factor p.2 + y + ch.columns.getD p.1 0|).sum =
      ∑ j ∈ Finset.range d.c.length, (((d.constraints.getD j []).filter fun p => p.1 = i).map fun p =>
        |initialExponent factor p.2 + y + ch.columns.getD j 0|).sum := by
    intro y
    unfold rowEntries
    rw [sum_flatMap_int, sum_zipIdx _ _ _ [], hl]
    refine Finset.sum_congr rfl fun j _ => ?_
    rw [List.map_map]
    simp [Function.comp_def]
  have hc : ∑ j ∈ Finset.range d.c.length,
        columnPenalty d factor ch.cost (ch.rows.set i x) j (ch.columns.getD j 0) -
      ∑ j ∈ Finset.range d.c.length, columnPenalty d factor ch.cost ch.rows j (ch.columns.getD j 0) =
      ((rowEntries d i).map fun p => |initialExponent factor p.2 + x + ch.columns.getD p.1 0|).sum -
        ((rowEntries d i).map fun p => |initialExponent factor p.2 + ch.rows.getD i 0 + ch.columns.getD p.1 0|).sum := by
    rw [hr, hr, ← Finset.sum_sub_distrib, ← Finset.sum_sub_distrib]
    refine Finset.sum_congr rfl fun j _ => ?_
    rw [← sum_map_sub_int, ← entries_set _ _ _ _ _ _ h1]
    unfold columnPenalty
    ring
  unfold totalPenalty rowPenalty
  dsimp only
  omega

theorem total_cost (d : Factorized) (factor : ℕ) (ch : Changes) (x : ℤ) :
    totalPenalty d factor { ch with cost := x } - totalPenalty d factor ch =
      costPenalty d factor ch.columns x - costPenalty d factor ch.columns ch.cost := by
  have hr : ∀ y : ℤ, costPenalty d factor ch.columns y =
      ∑ j ∈ Finset.range d.c.length, optPenalty factor (entry d.c j) (y + ch.columns.getD j 0) := by
    intro y
    unfold costPenalty
    rw [sum_zipIdx _ _ _ none]
    refine Finset.sum_congr rfl fun j _ => ?_
    unfold entry
    simp only [Nat.zero_add, List.getD_eq_getElem?_getD]
    cases d.c[j]? <;> rfl
  rw [hr, hr]
  unfold totalPenalty columnPenalty
  dsimp only
  simp only [Finset.sum_add_distrib]
  ring

/-! ### The search ends -/

theorem totalPenalty_nonneg (d : Factorized) (factor : ℕ) (ch : Changes) : 0 ≤ totalPenalty d factor ch :=
  add_nonneg (Finset.sum_nonneg fun j _ => (columnMeasures d factor ch j).nonneg _)
    (Finset.sum_nonneg fun _ _ => optPenalty_nonneg _ _ _)

theorem push_nodup {α : Type} [DecidableEq α] {queue : List α} (h : queue.Nodup) (x : α) : (push queue x).Nodup := by
  unfold push
  split_ifs with hx
  · exact h
  · rw [List.nodup_append]
    refine ⟨h, by simp, fun a ha b hb => ?_⟩
    rw [List.mem_singleton] at hb
    subst hb
    exact fun e => hx (e ▸ ha)

theorem mem_push {α : Type} [DecidableEq α] {queue : List α} {x y : α} (h : y ∈ push queue x) : y ∈ queue ∨ y = x := by
  unfold push at h
  split_ifs at h
  · exact Or.inl h
  · simpa using h

theorem foldl_push {α β : Type} [DecidableEq β] (l : List α) (step : List β → α → List β) (P : β → Prop)
    (h : ∀ a ∈ l, ∀ queue : List β, queue.Nodup → (∀ y ∈ queue, P y) → (step queue a).Nodup ∧ ∀ y ∈ step queue a, P y)
    {queue : List β} (h1 : queue.Nodup) (h2 : ∀ y ∈ queue, P y) :
    (l.foldl step queue).Nodup ∧ ∀ y ∈ l.foldl step queue, P y := by
  induction l generalizing queue with
  | nil => exact ⟨h1, h2⟩
  | cons a l ih =>
    have := h a (by simp) queue h1 h2
    exact ih (fun b hb => h b (by simp [hb])) this.1 this.2

/-- The lists belong to one problem. -/
structure Factorized.Shaped (d : Factorized) : Prop where
  columns : d.constraints.length = d.c.length
  rows : ∀ column ∈ d.constraints, ∀ p ∈ column, p.1 < d.b.length

/-- A row exists. -/
def RowToIncrement.Exists (m : ℕ) : RowToIncrement → Prop
  | .costRow => True
  | .constraintRow i => i < m

/-- The lists and queues belong to one problem. -/
structure SearchState.Fits (s : SearchState) (m n : ℕ) : Prop where
  rows : s.changes.rows.length = m
  columns : s.changes.columns.length = n
  rowNodup : s.rowQueue.Nodup
  rowExists : ∀ r ∈ s.rowQueue, r.Exists m
  columnNodup : s.columnQueue.Nodup
  columnExists : ∀ j ∈ s.columnQueue, j < n

theorem length_le_of_nodup {l : List ℕ} {n : ℕ} (h : l.Nodup) (hl : ∀ j ∈ l, j < n) : l.length ≤ n := by
  have : l ⊆ List.range n := fun j hj => List.mem_range.2 (hl j hj)
  simpa using (List.Nodup.subperm h this).length_le

theorem SearchState.Fits.queues {s : SearchState} {m n : ℕ} (h : s.Fits m n) :
    s.rowQueue.length ≤ m + 1 ∧ s.columnQueue.length ≤ n := by
  refine ⟨?_, length_le_of_nodup h.columnNodup h.columnExists⟩
  have : s.rowQueue ⊆ RowToIncrement.costRow :: (List.range m).map .constraintRow := by
    intro r hr
    have := h.rowExists r hr
    cases r with
    | costRow => simp
    | constraintRow i => simpa [RowToIncrement.Exists] using this
  simpa using (List.Nodup.subperm h.rowNodup this).length_le

/-- What each step decreases. -/
def searchMeasure (d : Factorized) (factor : ℕ) (s : SearchState) : ℕ :=
  (totalPenalty d factor s.changes).toNat * (d.b.length + d.c.length + 2) + s.rowQueue.length + s.columnQueue.length

theorem searchMeasure_lt {d : Factorized} {factor : ℕ} {s t : SearchState} (ht : t.Fits d.b.length d.c.length)
    (h : totalPenalty d factor t.changes < totalPenalty d factor s.changes ∨
      t.changes = s.changes ∧ t.rowQueue.length + t.columnQueue.length < s.rowQueue.length + s.columnQueue.length) :
    searchMeasure d factor t < searchMeasure d factor s := by
  unfold searchMeasure
  rcases h with h | ⟨h, h'⟩
  · have h1 := ht.queues
    have h2 := totalPenalty_nonneg d factor t.changes
    have h3 : (totalPenalty d factor t.changes).toNat + 1 ≤ (totalPenalty d factor s.changes).toNat := by omega
    have h4 := Nat.mul_le_mul_right (d.b.length + d.c.length + 2) h3
    rw [Nat.add_mul, Nat.one_mul] at h4
    omega
  · rw [h]
    omega

theorem set_getD_self (l : List ℤ) (i : ℕ) : l.set i (l.getD i 0) = l := by
  by_cases h : i < l.length
  · rw [List.getD_eq_getElem _ _ h, List.set_getElem_self]
  · exact List.set_eq_of_length_le (by omega)

/-- A good step of the search. -/
structure GoodStep (d : Factorized) (factor : ℕ) (s t : SearchState) : Prop where
  fits : t.Fits d.b.length d.c.length
  less : searchMeasure d factor t < searchMeasure d factor s
  penalty : totalPenalty d factor t.changes ≤ totalPenalty d factor s.changes

theorem single_le_sum (d : Factorized) (factor : ℕ) (ch : Changes) {j : ℕ} (hj : j < d.c.length) :
    columnPenalty d factor ch.cost ch.rows j (ch.columns.getD j 0) ≤ totalPenalty d factor ch := by
  have h1 := Finset.single_le_sum (s := Finset.range d.c.length)
    (f := fun j => columnPenalty d factor ch.cost ch.rows j (ch.columns.getD j 0))
    (fun j _ => (columnMeasures d factor ch j).nonneg _) (Finset.mem_range.2 hj)
  have h2 : 0 ≤ ∑ i ∈ Finset.range d.b.length, optPenalty factor (entry d.b i) (ch.rows.getD i 0) :=
    Finset.sum_nonneg fun _ _ => optPenalty_nonneg _ _ _
  unfold totalPenalty
  omega

theorem row_le_total (d : Factorized) (factor : ℕ) (ch : Changes) {i : ℕ} (hs : d.Shaped)
    (h1 : i < ch.rows.length) (h2 : i < d.b.length) :
    rowPenalty d factor ch.columns i (ch.rows.getD i 0) ≤ totalPenalty d factor ch := by
  have hr : ((rowEntries d i).map fun p => |initialExponent factor p.2 + ch.rows.getD i 0 + ch.columns.getD p.1 0|).sum =
      ∑ j ∈ Finset.range d.c.length, (((d.constraints.getD j []).filter fun p => p.1 = i).map fun p =>
        |initialExponent factor p.2 + ch.rows.getD i 0 + ch.columns.getD j 0|).sum := by
    unfold rowEntries
    rw [sum_flatMap_int, sum_zipIdx _ _ _ [], hs.columns]
    refine Finset.sum_congr rfl fun j _ => ?_
    rw [List.map_map]
    simp [Function.comp_def]
  have hc : ∀ j ∈ Finset.range d.c.length, (((d.constraints.getD j []).filter fun p => p.1 = i).map fun p =>
        |initialExponent factor p.2 + ch.rows.getD i 0 + ch.columns.getD j 0|).sum ≤
      columnPenalty d factor ch.cost ch.rows j (ch.columns.getD j 0) := by
    intro j _
    have h3 : (((d.constraints.getD j []).filter fun p => p.1 = i).map fun p =>
        |initialExponent factor p.2 + ch.rows.getD i 0 + ch.columns.getD j 0|).sum ≤
        entriesPenalty factor ch.rows (d.constraints.getD j []) (ch.columns.getD j 0) := by
      unfold entriesPenalty
      generalize d.constraints.getD j [] = column
      induction column with
      | nil => simp
      | cons p column ih =>
        rw [List.filter_cons, List.map_cons, List.sum_cons]
        have := abs_nonneg (initialExponent factor p.2 + ch.rows.getD p.1 0 + ch.columns.getD j 0)
        by_cases hp : p.1 = i
        · simp only [hp, decide_true, if_true, List.map_cons, List.sum_cons]
          omega
        · simp only [hp, decide_false, Bool.false_eq_true, if_false]
          omega
    have := optPenalty_nonneg factor (entry d.c j) (ch.cost + ch.columns.getD j 0)
    have := optPenalty_nonneg factor (d.bounds.getD j (none, none)).1 (-ch.columns.getD j 0)
    have := optPenalty_nonneg factor (d.bounds.getD j (none, none)).2 (-ch.columns.getD j 0)
    unfold columnPenalty
    omega
  have h4 := Finset.sum_le_sum hc
  have h5 := Finset.single_le_sum (s := Finset.range d.b.length)
    (f := fun i => optPenalty factor (entry d.b i) (ch.rows.getD i 0))
    (fun i _ => optPenalty_nonneg _ _ _) (Finset.mem_range.2 h2)
  unfold rowPenalty totalPenalty
  rw [hr]
  omega

theorem cost_le_total (d : Factorized) (factor : ℕ) (ch : Changes) :
    costPenalty d factor ch.columns ch.cost ≤ totalPenalty d factor ch := by
  have hr : costPenalty d factor ch.columns ch.cost =
      ∑ j ∈ Finset.range d.c.length, optPenalty factor (entry d.c j) (ch.cost + ch.columns.getD j 0) := by
    unfold costPenalty
    rw [sum_zipIdx _ _ _ none]
    refine Finset.sum_congr rfl fun j _ => ?_
    unfold entry
    simp only [Nat.zero_add, List.getD_eq_getElem?_getD]
    cases d.c[j]? <;> rfl
  have hc : ∀ j ∈ Finset.range d.c.length, optPenalty factor (entry d.c j) (ch.cost + ch.columns.getD j 0) ≤
      columnPenalty d factor ch.cost ch.rows j (ch.columns.getD j 0) := by
    intro j _
    have : 0 ≤ entriesPenalty factor ch.rows (d.constraints.getD j []) (ch.columns.getD j 0) :=
      sum_nonneg_int _ _ fun _ _ => abs_nonneg _
    have := optPenalty_nonneg factor (d.bounds.getD j (none, none)).1 (-ch.columns.getD j 0)
    have := optPenalty_nonneg factor (d.bounds.getD j (none, none)).2 (-ch.columns.getD j 0)
    unfold columnPenalty
    omega
  have h4 := Finset.sum_le_sum hc
  have h5 : 0 ≤ ∑ i ∈ Finset.range d.b.length, optPenalty factor (entry d.b i) (ch.rows.getD i 0) :=
    Finset.sum_nonneg fun _ _ => optPenalty_nonneg _ _ _
  unfold totalPenalty
  rw [hr]
  omega

theorem updateColumn_good {d : Factorized} (hd : d.Shaped) {factor fuel j : ℕ} {s : SearchState} {queue : List ℕ}
    (hs : s.Fits d.b.length d.c.length) (hq : s.columnQueue = j :: queue)
    (hf : totalPenalty d factor s.changes < fuel) :
    ∃ t, updateColumn d factor fuel { s with columnQueue := queue } j = .ok t ∧ GoodStep d factor s t := by
  have hj : j < d.c.length := hs.columnExists j (by rw [hq]; simp)
  have hle := single_le_sum d factor s.changes hj
  obtain ⟨r, hr, h1, h2⟩ := (columnMeasures d factor s.changes j).adjust (x := s.changes.columns.getD j 0)
    (lt_of_le_of_lt hle hf)
  have htot := total_column d factor s.changes j r.1 (by rw [hs.columns]; exact hj) hj
  refine ⟨_, by rw [updateColumn, hr]; rfl, ?_⟩
  have hn := hs.columnNodup
  rw [hq] at hn
  have hfits : SearchState.Fits ⟨{ s.changes with columns := s.changes.columns.set j r.1 },
      if r.2 then (d.constraints.getD j []).foldl (fun queue p => push queue (.constraintRow p.1)) s.rowQueue
      else s.rowQueue, queue⟩ d.b.length d.c.length := by
    have hrow : (if r.2 then (d.constraints.getD j []).foldl (fun queue p => push queue (.constraintRow p.1))
        s.rowQueue else s.rowQueue).Nodup ∧ ∀ q ∈ (if r.2 then (d.constraints.getD j []).foldl
        (fun queue p => push queue (.constraintRow p.1)) s.rowQueue else s.rowQueue), q.Exists d.b.length := by
      split_ifs
      · refine foldl_push _ _ _ (fun p hp queue h3 h4 => ⟨push_nodup h3 _, fun y hy => ?_⟩) hs.rowNodup hs.rowExists
        rcases mem_push hy with h | rfl
        · exact h4 y h
        · have hj' : j < d.constraints.length := by rw [hd.columns]; exact hj
          rw [List.getD_eq_getElem _ _ hj'] at hp
          exact hd.rows _ (List.getElem_mem hj') p hp
      · exact ⟨hs.rowNodup, hs.rowExists⟩
    exact ⟨hs.rows, by simpa using hs.columns, hrow.1, hrow.2, (List.nodup_cons.1 hn).2,
      fun k hk => hs.columnExists k (by rw [hq]; simp [hk])⟩
  refine ⟨hfits, searchMeasure_lt hfits ?_, ?_⟩
  · cases hb : r.2 with
    | true =>
      left
      have := h1 hb
      dsimp only
      omega
    | false =>
      right
      constructor
      · dsimp only
        rw [h2 hb, set_getD_self]
      · simp [hq]
  · cases hb : r.2 with
    | true =>
      have := h1 hb
      dsimp only
      omega
    | false =>
      dsimp only
      rw [h2 hb, set_getD_self]

theorem rowEntries_lt {d : Factorized} (hd : d.Shaped) {i : ℕ} {p : ℕ × Factorization} (hp : p ∈ rowEntries d i) :
    p.1 < d.c.length := by
  unfold rowEntries at hp
  obtain ⟨q, hq, hp⟩ := List.mem_flatMap.1 hp
  obtain ⟨p', _, rfl⟩ := List.mem_map.1 hp
  have := List.snd_lt_of_mem_zipIdx hq
  simp only [hd.columns] at this
  exact this

theorem doConstraint_good {d : Factorized} (hd : d.Shaped) {factor fuel i : ℕ} {s : SearchState}
    {queue : List RowToIncrement} (hs : s.Fits d.b.length d.c.length) (hq : s.rowQueue = .constraintRow i :: queue)
    (hf : totalPenalty d factor s.changes < fuel) :
    ∃ t, doConstraint d factor fuel { s with rowQueue := queue } i = .ok t ∧ GoodStep d factor s t := by
  have hi : i < d.b.length := hs.rowExists (.constraintRow i) (by rw [hq]; simp)
  have hle := row_le_total d factor s.changes hd (by rw [hs.rows]; exact hi) hi
  obtain ⟨r, hr, h1, h2⟩ := (rowMeasures d factor s.changes i).adjust (x := s.changes.rows.getD i 0)
    (lt_of_le_of_lt hle hf)
  have htot := total_row d factor s.changes i r.1 hd.columns (by rw [hs.rows]; exact hi) hi
  refine ⟨_, by rw [doConstraint, hr]; rfl, ?_⟩
  have hn := hs.rowNodup
  rw [hq] at hn
  have hfits : SearchState.Fits ⟨{ s.changes with rows := s.changes.rows.set i r.1 }, queue,
      if r.2 then (rowEntries d i).foldl (fun queue p => push queue p.1) s.columnQueue else s.columnQueue⟩
      d.b.length d.c.length := by
    have hcol : (if r.2 then (rowEntries d i).foldl (fun queue p => push queue p.1) s.columnQueue
        else s.columnQueue).Nodup ∧ ∀ q ∈ (if r.2 then (rowEntries d i).foldl (fun queue p => push queue p.1)
        s.columnQueue else s.columnQueue), q < d.c.length := by
      split_ifs
      · refine foldl_push _ _ (· < d.c.length) (fun p hp queue h3 h4 => ⟨push_nodup h3 _, fun y hy => ?_⟩)
          hs.columnNodup hs.columnExists
        rcases mem_push hy with h | rfl
        · exact h4 y h
        · exact rowEntries_lt hd hp
      · exact ⟨hs.columnNodup, hs.columnExists⟩
    exact ⟨by simpa using hs.rows, hs.columns, (List.nodup_cons.1 hn).2,
      fun k hk => hs.rowExists k (by rw [hq]; simp [hk]), hcol.1, hcol.2⟩
  refine ⟨hfits, searchMeasure_lt hfits ?_, ?_⟩
  · cases hb : r.2 with
    | true =>
      left
      have := h1 hb
      dsimp only
      omega
    | false =>
      right
      constructor
      · dsimp only
        rw [h2 hb, set_getD_self]
      · simp [hq]
  · cases hb : r.2 with
    | true =>
      have := h1 hb
      dsimp only
      omega
    | false =>
      dsimp only
      rw [h2 hb, set_getD_self]

theorem doCost_good {d : Factorized} {factor fuel : ℕ} {s : SearchState}
    {queue : List RowToIncrement} (hs : s.Fits d.b.length d.c.length) (hq : s.rowQueue = .costRow :: queue)
    (hf : totalPenalty d factor s.changes < fuel) :
    ∃ t, doCost d factor fuel { s with rowQueue := queue } = .ok t ∧ GoodStep d factor s t := by
  have hle := cost_le_total d factor s.changes
  obtain ⟨r, hr, h1, h2⟩ := (costMeasures d factor s.changes).adjust (x := s.changes.cost) (lt_of_le_of_lt hle hf)
  have htot := total_cost d factor s.changes r.1
  refine ⟨_, by rw [doCost, hr]; rfl, ?_⟩
  have hn := hs.rowNodup
  rw [hq] at hn
  have hfits : SearchState.Fits ⟨{ s.changes with cost := r.1 }, queue,
      if r.2 then d.c.zipIdx.foldl (fun queue q => if q.1.isSome then push queue q.2 else queue) s.columnQueue
      else s.columnQueue⟩ d.b.length d.c.length := by
    have hcol : (if r.2 then d.c.zipIdx.foldl (fun queue q => if q.1.isSome then push queue q.2 else queue)
        s.columnQueue else s.columnQueue).Nodup ∧ ∀ q ∈ (if r.2 then d.c.zipIdx.foldl
        (fun queue q => if q.1.isSome then push queue q.2 else queue) s.columnQueue else s.columnQueue),
        q < d.c.length := by
      split_ifs
      · refine foldl_push _ _ (· < d.c.length) (fun p hp queue h3 h4 => ?_) hs.columnNodup hs.columnExists
        split_ifs
        · refine ⟨push_nodup h3 _, fun y hy => ?_⟩
          rcases mem_push hy with h | rfl
          · exact h4 y h
          · simpa using List.snd_lt_of_mem_zipIdx hp
        · exact ⟨h3, h4⟩
      · exact ⟨hs.columnNodup, hs.columnExists⟩
    exact ⟨hs.rows, hs.columns, (List.nodup_cons.1 hn).2,
      fun k hk => hs.rowExists k (by rw [hq]; simp [hk]), hcol.1, hcol.2⟩
  refine ⟨hfits, searchMeasure_lt hfits ?_, ?_⟩
  · cases hb : r.2 with
    | true =>
      left
      have := h1 hb
      dsimp only
      omega
    | false =>
      right
      constructor
      · dsimp only
        rw [h2 hb]
      · simp [hq]
  · cases hb : r.2 with
    | true =>
      have := h1 hb
      dsimp only
      omega
    | false =>
      dsimp only
      rw [h2 hb]

theorem searchLoop_ends {d : Factorized} (hd : d.Shaped) (hn : 0 < d.c.length) {factor fuel : ℕ} {s : SearchState}
    (hs : s.Fits d.b.length d.c.length) (hf : searchMeasure d factor s < fuel) :
    ∃ ch, searchLoop d factor fuel s = .ok ch ∧ ch.rows.length = d.b.length ∧ ch.columns.length = d.c.length ∧
      totalPenalty d factor ch ≤ totalPenalty d factor s.changes := by
  induction fuel generalizing s with
  | zero => exact absurd hf (Nat.not_lt_zero _)
  | succ fuel ih =>
    rw [searchLoop]
    have hnn := totalPenalty_nonneg d factor s.changes
    have hm : s.rowQueue.length + s.columnQueue.length + (totalPenalty d factor s.changes).toNat ≤
        searchMeasure d factor s := by
      unfold searchMeasure
      have := Nat.le_mul_of_pos_right (totalPenalty d factor s.changes).toNat
        (show 0 < d.b.length + d.c.length + 2 by omega)
      omega
    split_ifs with h1 h2
    · exact ⟨_, rfl, hs.rows, hs.columns, le_refl _⟩
    · cases hc : s.columnQueue with
      | nil =>
        exfalso
        rw [hc, List.length_nil, Nat.zero_mul, Nat.le_zero, Nat.mul_eq_zero, List.length_eq_zero_iff] at h2
        rcases h2 with h2 | h2
        · exact h1 ⟨by rw [h2]; rfl, by rw [hc]; rfl⟩
        · omega
      | cons j queue =>
        rw [hc, List.length_cons] at hm
        obtain ⟨t, ht, hg⟩ := updateColumn_good hd hs hc (factor := factor) (fuel := fuel) (by omega)
        obtain ⟨ch, h3, h4, h5, h6⟩ := ih hg.fits (lt_of_lt_of_le hg.less (Nat.lt_succ_iff.1 hf))
        refine ⟨ch, ?_, h4, h5, le_trans h6 hg.penalty⟩
        dsimp only
        rw [ht]
        exact h3
    · cases hc : s.rowQueue with
      | nil =>
        rw [hc, List.length_nil, Nat.zero_mul] at h2
        exact absurd (Nat.zero_le _) h2
      | cons r queue =>
        rw [hc, List.length_cons] at hm
        cases r with
        | constraintRow i =>
          obtain ⟨t, ht, hg⟩ := doConstraint_good hd hs hc (factor := factor) (fuel := fuel) (by omega)
          obtain ⟨ch, h3, h4, h5, h6⟩ := ih hg.fits (lt_of_lt_of_le hg.less (Nat.lt_succ_iff.1 hf))
          refine ⟨ch, ?_, h4, h5, le_trans h6 hg.penalty⟩
          dsimp only
          rw [ht]
          exact h3
        | costRow =>
          obtain ⟨t, ht, hg⟩ := doCost_good hs hc (factor := factor) (fuel := fuel) (by omega)
          obtain ⟨ch, h3, h4, h5, h6⟩ := ih hg.fits (lt_of_lt_of_le hg.less (Nat.lt_succ_iff.1 hf))
          refine ⟨ch, ?_, h4, h5, le_trans h6 hg.penalty⟩
          dsimp only
          rw [ht]
          exact h3

/-- A larger fuel gives the same result. -/
theorem searchLoop_mono {d : Factorized} {factor fuel : ℕ} {s : SearchState} {ch : Changes}
    (h : searchLoop d factor fuel s = .ok ch) : searchLoop d factor (fuel + 1) s = .ok ch := by
  induction fuel generalizing s with
  | zero => cases h
  | succ fuel ih =>
    rw [searchLoop] at h ⊢
    split_ifs at h ⊢ with h1 h2
    · exact h
    · cases hc : s.columnQueue with
      | nil => rw [hc] at h; cases h
      | cons j queue =>
        rw [hc] at h
        dsimp only at h ⊢
        unfold updateColumn at h ⊢
        dsimp only at h ⊢
        cases hr : adjust (columnCounts d factor s.changes j) fuel (s.changes.columns.getD j 0) with
        | error e => rw [hr] at h; cases h
        | ok r =>
          rw [hr] at h
          rw [adjust_mono hr]
          exact ih h
    · cases hc : s.rowQueue with
      | nil => rw [hc] at h; cases h
      | cons r queue =>
        rw [hc] at h
        cases r with
        | constraintRow i =>
          dsimp only at h ⊢
          unfold doConstraint at h ⊢
          dsimp only at h ⊢
          cases hr : adjust (rowCounts d factor s.changes i) fuel (s.changes.rows.getD i 0) with
          | error e => rw [hr] at h; cases h
          | ok r =>
            rw [hr] at h
            rw [adjust_mono hr]
            exact ih h
        | costRow =>
          dsimp only at h ⊢
          unfold doCost at h ⊢
          dsimp only at h ⊢
          cases hr : adjust (costCounts d factor s.changes) fuel s.changes.cost with
          | error e => rw [hr] at h; cases h
          | ok r =>
            rw [hr] at h
            rw [adjust_mono hr]
            exact ih h

/-- No changes. -/
def Changes.zero (m n : ℕ) : Changes := ⟨0, List.replicate m 0, List.replicate n 0⟩

theorem mono_of_succ {α : Type} {f : ℕ → Except Stop α} (h : ∀ fuel a, f fuel = .ok a → f (fuel + 1) = .ok a)
    {fuel fuel' : ℕ} (hle : fuel ≤ fuel') {a : α} (ha : f fuel = .ok a) : f fuel' = .ok a := by
  induction hle with
  | refl => exact ha
  | step _ ih => exact h _ _ ih

theorem solveSingle_ends {d : Factorized} (hd : d.Shaped) (hn : 0 < d.c.length) (factor : ℕ) :
    ∃ N ch, (∀ fuel ≥ N, solveSingle fuel d factor = .ok ch) ∧ ch.rows.length = d.b.length ∧
      ch.columns.length = d.c.length ∧
      totalPenalty d factor ch ≤ totalPenalty d factor (Changes.zero d.b.length d.c.length) := by
  have hs : SearchState.Fits ⟨⟨0, List.replicate d.b.length 0, List.replicate d.c.length 0⟩,
      (List.range d.b.length).map .constraintRow ++ [.costRow], List.range d.c.length⟩ d.b.length d.c.length := by
    refine ⟨by simp, by simp, ?_, ?_, List.nodup_range, fun j hj => List.mem_range.1 hj⟩
    · rw [List.nodup_append]
      refine ⟨List.Nodup.map (fun a b h => by cases h; rfl) List.nodup_range, by simp, ?_⟩
      intro a ha b hb
      obtain ⟨i, _, rfl⟩ := List.mem_map.1 ha
      rw [List.mem_singleton] at hb
      subst hb
      exact fun e => nomatch e
    · intro r hr
      rcases List.mem_append.1 hr with hr | hr
      · obtain ⟨i, hi, rfl⟩ := List.mem_map.1 hr
        exact List.mem_range.1 hi
      · rw [List.mem_singleton] at hr
        subst hr
        trivial
  obtain ⟨ch, h1, h2, h3, h4⟩ := searchLoop_ends hd hn hs (factor := factor) (Nat.lt_succ_self _)
  exact ⟨_, ch, fun fuel hf => mono_of_succ (f := fun fuel => solveSingle fuel d factor)
    (fun _ _ h => searchLoop_mono h) hf h1, h2, h3, h4⟩

theorem removeFactorInfo_shaped {d : Factorized} (hd : d.Shaped) (factor : ℕ) : (removeFactorInfo factor d).Shaped where
  columns := by simpa [removeFactorInfo] using hd.columns
  rows := by
    intro column hc p hp
    obtain ⟨column', hc', rfl⟩ := List.mem_map.1 hc
    obtain ⟨p', hp', rfl⟩ := List.mem_map.1 hp
    simpa [removeFactorInfo] using hd.rows column' hc' p' hp'

theorem solveFactors_ends {factors : List ℕ} {d : Factorized} (hd : d.Shaped) (hn : 0 < d.c.length) :
    ∃ N result, (∀ fuel ≥ N, solveFactors fuel factors d = .ok result) ∧ result.map (·.1) = factors ∧
      ∀ q ∈ result, q.2.rows.length = d.b.length ∧ q.2.columns.length = d.c.length := by
  induction factors generalizing d with
  | nil => exact ⟨0, [], fun _ _ => rfl, rfl, by simp⟩
  | cons factor factors ih =>
    obtain ⟨N1, ch, h1, h2, h3, _⟩ := solveSingle_ends hd hn factor
    obtain ⟨N2, result, h4, h5, h6⟩ := ih (removeFactorInfo_shaped hd factor) (by simpa [removeFactorInfo] using hn)
    refine ⟨max N1 N2, (factor, ch) :: result, fun fuel hf => ?_, by simp [h5], ?_⟩
    · rw [solveFactors, h1 fuel (le_trans (le_max_left _ _) hf), h4 fuel (le_trans (le_max_right _ _) hf)]
      rfl
    · intro q hq
      rcases List.mem_cons.1 hq with rfl | hq
      · exact ⟨h2, h3⟩
      · simpa [removeFactorInfo] using h6 q hq

/-! ### The factors that are combined are positive -/

theorem combineFactors_positive {result : List (ℕ × Changes)} {m n : ℕ} (h0 : result ≠ [])
    (h : ∀ q ∈ result, 0 < q.1 ∧ q.2.rows.length = m ∧ q.2.columns.length = n) :
    ∃ s, combineFactors result = .ok s ∧ s.rowFactors.length = m ∧ s.columnFactors.length = n ∧
      0 < s.costFactor ∧ (∀ r ∈ s.rowFactors, 0 < r) ∧ ∀ c ∈ s.columnFactors, 0 < c := by
  cases result with
  | nil => exact absurd rfl h0
  | cons first rest =>
    refine ⟨_, rfl, ?_⟩
    have key : ∀ (l : List (ℕ × Changes)) (s : Scaling),
        (∀ q ∈ l, 0 < q.1 ∧ q.2.rows.length = m ∧ q.2.columns.length = n) →
        (s.rowFactors.length = m ∧ s.columnFactors.length = n ∧
          0 < s.costFactor ∧ (∀ r ∈ s.rowFactors, 0 < r) ∧ ∀ c ∈ s.columnFactors, 0 < c) →
        let t := l.foldl (fun s q => (⟨s.costFactor * (q.1 : ℚ) ^ q.2.cost,
          List.zipWith (fun r k => r * (q.1 : ℚ) ^ k) s.rowFactors q.2.rows,
          List.zipWith (fun c k => c * (q.1 : ℚ) ^ (-k)) s.columnFactors q.2.columns⟩ : Scaling)) s
        t.rowFactors.length = m ∧ t.columnFactors.length = n ∧
          0 < t.costFactor ∧ (∀ r ∈ t.rowFactors, 0 < r) ∧ ∀ c ∈ t.columnFactors, 0 < c := by
      intro l
      induction l with
      | nil => intro s _ hs; exact hs
      | cons q l ih =>
        intro s hl hs
        obtain ⟨h1, h2, h3⟩ := hl q (by simp)
        obtain ⟨h4, h5, h6, h7, h8⟩ := hs
        have hq : (0 : ℚ) < q.1 := by exact_mod_cast h1
        refine ih _ (fun q' hq' => hl q' (by simp [hq'])) ⟨by simp [h4, h2], by simp [h5, h3],
          mul_pos h6 (zpow_pos hq _), ?_, ?_⟩
        · intro r hr
          obtain ⟨i, hi, rfl⟩ := List.getElem_of_mem hr
          rw [List.getElem_zipWith]
          exact mul_pos (h7 _ (List.getElem_mem _)) (zpow_pos hq _)
        · intro r hr
          obtain ⟨i, hi, rfl⟩ := List.getElem_of_mem hr
          rw [List.getElem_zipWith]
          exact mul_pos (h8 _ (List.getElem_mem _)) (zpow_pos hq _)
    have hf := h first (by simp)
    exact key (first :: rest) _ h ⟨by simp [hf.2.1], by simp [hf.2.2], zero_lt_one,
      fun r hr => by rw [List.eq_of_mem_replicate hr]; exact zero_lt_one,
      fun r hr => by rw [List.eq_of_mem_replicate hr]; exact zero_lt_one⟩

/-! ### The whole computation -/

theorem factorizeForm_shaped (factorize : ℚ → Factorization) {G : GeneralForm} (hG : G.Shaped) :
    (factorizeForm factorize G).Shaped where
  columns := by simpa [factorizeForm] using hG.dataLength
  rows := by
    intro column hc p hp
    obtain ⟨column', hc', rfl⟩ := List.mem_map.1 hc
    obtain ⟨p', hp', rfl⟩ := List.mem_map.1 hp
    have := hG.inRange column' hc' p' hp'
    simpa [factorizeForm, hG.bLength] using this

theorem factorizeNonZero_eq_some {factorize : ℚ → Factorization} {v : ℚ} {f : Factorization} :
    factorizeNonZero factorize v = some f ↔ v ≠ 0 ∧ factorize v = f := by
  unfold factorizeNonZero
  split_ifs with h
  · simp [h]
  · simp [h]

theorem mem_factors (factorize : ℚ → Factorization) {G : GeneralForm} (hG : G.Shaped) {p : ℕ} :
    p ∈ (factorizeForm factorize G).factors ↔ ∃ v, G.Number v ∧ ∃ k, (p, k) ∈ factorize v := by
  unfold factorizeForm
  simp only [List.mem_insertionSort, List.mem_dedup, List.mem_flatMap, List.mem_map, List.mem_append,
    List.mem_filterMap, id, exists_eq_right]
  constructor
  · rintro ⟨f, hf, ⟨q, k⟩, hq, rfl⟩
    rcases hf with ((⟨v, hv, e⟩ | ⟨w, hw, e⟩) | (⟨_, ⟨w, hw, rfl⟩, e⟩ | ⟨_, ⟨w, hw, rfl⟩, e⟩)) |
      ⟨_, ⟨column, hc, rfl⟩, _, hp, rfl⟩
    · obtain ⟨h0, rfl⟩ := factorizeNonZero_eq_some.1 e
      exact ⟨v, ⟨h0, Or.inl hv⟩, k, hq⟩
    · obtain ⟨h0, rfl⟩ := factorizeNonZero_eq_some.1 e
      exact ⟨_, ⟨h0, Or.inr (Or.inl ⟨w, hw, Or.inl rfl⟩)⟩, k, hq⟩
    · obtain ⟨v, hv, e⟩ := Option.bind_eq_some_iff.1 e
      obtain ⟨h0, rfl⟩ := factorizeNonZero_eq_some.1 e
      exact ⟨v, ⟨h0, Or.inr (Or.inl ⟨w, hw, Or.inr (Or.inl hv)⟩)⟩, k, hq⟩
    · obtain ⟨v, hv, e⟩ := Option.bind_eq_some_iff.1 e
      obtain ⟨h0, rfl⟩ := factorizeNonZero_eq_some.1 e
      exact ⟨v, ⟨h0, Or.inr (Or.inl ⟨w, hw, Or.inr (Or.inr hv)⟩)⟩, k, hq⟩
    · obtain ⟨p, hp', rfl⟩ := List.mem_map.1 hp
      exact ⟨p.2, ⟨(hG.wf column hc).nonzero p hp', Or.inr (Or.inr ⟨column, hc, p, hp', rfl⟩)⟩, k, hq⟩
  · rintro ⟨v, ⟨h0, hv⟩, k, hk⟩
    refine ⟨factorize v, ?_, (p, k), hk, rfl⟩
    have e : factorizeNonZero factorize v = some (factorize v) := factorizeNonZero_eq_some.2 ⟨h0, rfl⟩
    rcases hv with hv | ⟨w, hw, rfl | hv | hv⟩ | ⟨column, hc, q, hq, rfl⟩
    · exact Or.inl (Or.inl (Or.inl ⟨v, hv, e⟩))
    · exact Or.inl (Or.inl (Or.inr ⟨w, hw, e⟩))
    · exact Or.inl (Or.inr (Or.inl ⟨_, ⟨w, hw, rfl⟩, by dsimp only; rw [hv]; exact e⟩))
    · exact Or.inl (Or.inr (Or.inr ⟨_, ⟨w, hw, rfl⟩, by dsimp only; rw [hv]; exact e⟩))
    · exact Or.inr ⟨_, ⟨column, hc, rfl⟩, _, List.mem_map.2 ⟨q, hq, rfl⟩, rfl⟩

theorem compute_ends (factorize : ℚ → Factorization) {G : GeneralForm}
    (hf : ∀ v, G.Number v → ∀ q ∈ factorize v, 0 < q.1) (hG : G.Shaped) (hv : G.vars ≠ []) (hn : ∃ v, G.Number v ∧ factorize v ≠ []) :
    ∃ N H s, (∀ fuel ≥ N, compute factorize fuel G = .ok (H, s)) ∧ s.Positive G ∧ s.scale G = some H := by
  have hc : (factorizeForm factorize G).c.length = G.vars.length := by simp [factorizeForm]
  have hb : (factorizeForm factorize G).b.length = G.b.length := by simp [factorizeForm]
  obtain ⟨N, result, h1, h2, h3⟩ := solveFactors_ends (factors := (factorizeForm factorize G).factors.reverse)
    (factorizeForm_shaped factorize hG) (by rw [hc]; exact List.length_pos_iff.2 hv)
  have h0 : result ≠ [] := by
    rintro rfl
    obtain ⟨v, hv, hne⟩ := hn
    obtain ⟨⟨p, k⟩, rest, e⟩ := List.exists_cons_of_ne_nil hne
    have : p ∈ (factorizeForm factorize G).factors := (mem_factors factorize hG).2 ⟨v, hv, k, by rw [e]; simp⟩
    rw [List.map_nil, eq_comm, List.reverse_eq_nil_iff] at h2
    rw [h2] at this
    cases this
  obtain ⟨s, h4, h5, h6, h7, h8, h9⟩ := combineFactors_positive h0 (m := G.constraintTypes.length)
    (n := G.vars.length) fun q hq => by
      have := h3 q hq
      rw [hb, hc, hG.bLength] at this
      refine ⟨?_, this⟩
      have hp : q.1 ∈ (factorizeForm factorize G).factors := by
        rw [← List.mem_reverse, ← h2]
        exact List.mem_map.2 ⟨q, hq, rfl⟩
      obtain ⟨v, hv, k, hk⟩ := (mem_factors factorize hG).1 hp
      exact hf v hv _ hk
  have hp : s.Positive G := ⟨h5, h6, h7, h8, h9⟩
  have hs : s.scale G = some (s.scaled (· * ·) (· / ·) G) :=
    apply_eq hG.dataLength hG.bLength hG.inRange h5 h6
  refine ⟨N, _, s, fun fuel hfuel => ?_, hp, hs⟩
  unfold compute
  simp only [h1 fuel hfuel, h4, hs, bind, Except.bind, pure, Except.pure]

theorem solveFactors_mono {factors : List ℕ} {d : Factorized} {fuel : ℕ} {result : List (ℕ × Changes)}
    (h : solveFactors fuel factors d = .ok result) : solveFactors (fuel + 1) factors d = .ok result := by
  induction factors generalizing d result with
  | nil => exact h
  | cons factor factors ih =>
    rw [solveFactors] at h ⊢
    cases h1 : solveSingle fuel d factor with
    | error e => rw [h1] at h; cases h
    | ok ch =>
      cases h2 : solveFactors fuel factors (removeFactorInfo factor d) with
      | error e => rw [h1, h2] at h; cases h
      | ok rest =>
        rw [h1, h2] at h
        have h1' : solveSingle (fuel + 1) d factor = .ok ch := searchLoop_mono h1
        rw [h1', ih h2]
        exact h

theorem compute_mono {factorize : ℚ → Factorization} {G : GeneralForm} {fuel fuel' : ℕ} (hle : fuel ≤ fuel')
    {r : GeneralForm × Scaling} (h : compute factorize fuel G = .ok r) : compute factorize fuel' G = .ok r := by
  refine mono_of_succ (f := fun fuel => compute factorize fuel G) (fun fuel r h => ?_) hle h
  unfold compute at h ⊢
  dsimp only at h ⊢
  cases h1 : solveFactors fuel (factorizeForm factorize G).factors.reverse (factorizeForm factorize G) with
  | error e => rw [h1] at h; cases h
  | ok result =>
    rw [h1] at h
    rw [solveFactors_mono h1]
    exact h

theorem compute_no_factors (factorize : ℚ → Factorization) {G : GeneralForm} (hG : G.Shaped)
    (hn : ∀ v, G.Number v → factorize v = []) (fuel : ℕ) : compute factorize fuel G = .error .panic := by
  have : (factorizeForm factorize G).factors = [] := by
    rw [List.eq_nil_iff_forall_not_mem]
    intro p hp
    obtain ⟨v, hv, k, hk⟩ := (mem_factors factorize hG).1 hp
    rw [hn v hv] at hk
    cases hk
  unfold compute
  dsimp only
  rw [this]
  rfl

theorem compute_no_vars (factorize : ℚ → Factorization) {G : GeneralForm} (hG : G.Shaped) (hv : G.vars = [])
    (hn : ∃ v, G.Number v ∧ factorize v ≠ []) (fuel : ℕ) : compute factorize (fuel + 1) G = .error .panic := by
  have hc : (factorizeForm factorize G).c = [] := by simp [factorizeForm, hv]
  have h0 : (factorizeForm factorize G).factors.reverse ≠ [] := by
    intro h
    rw [List.reverse_eq_nil_iff] at h
    obtain ⟨v, hv, hne⟩ := hn
    obtain ⟨⟨p, k⟩, rest, e⟩ := List.exists_cons_of_ne_nil hne
    have : p ∈ (factorizeForm factorize G).factors := (mem_factors factorize hG).2 ⟨v, hv, k, by rw [e]; simp⟩
    rw [h] at this
    cases this
  unfold compute
  dsimp only
  obtain ⟨factor, factors, e⟩ := List.exists_cons_of_ne_nil h0
  have hs : solveSingle (fuel + 1) (factorizeForm factorize G) factor = .error .panic := by
    unfold solveSingle
    rw [searchLoop, hc]
    simp
  rw [e, solveFactors, hs]
  rfl

theorem compute_positive {factorize : ℚ → Factorization} {G K : GeneralForm}
    (hf : ∀ v, G.Number v → ∀ q ∈ factorize v, 0 < q.1)
    (hG : G.Shaped) {fuel : ℕ} {s : Scaling} (h : compute factorize fuel G = .ok (K, s)) :
    s.Positive G ∧ s.scale G = some K := by
  have hn : ∃ v, G.Number v ∧ factorize v ≠ [] := by
    by_contra hn
    push Not at hn
    rw [compute_no_factors factorize hG hn] at h
    cases h
  have hv : G.vars ≠ [] := by
    intro hv
    have := compute_no_vars factorize hG hv hn fuel
    rw [compute_mono (Nat.le_succ fuel) h] at this
    cases this
  obtain ⟨N, K', s', h1, h2, h3⟩ := compute_ends factorize hf hG hv hn
  have := h1 (max N fuel) (le_max_left _ _)
  rw [compute_mono (le_max_right _ _) h] at this
  cases this
  exact ⟨h2, h3⟩

end Scaling

end Relp
