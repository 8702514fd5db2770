import Verif.Model.Network
import Verif.Spec.Network
import Verif.Proof.Filter

/-!
# Incidence matrices, and the linear programs of the network problems
-/

namespace Relp

open Spec

namespace Network

/-- The position of a vertex among those that are not removed. -/
abbrev position (removed : List ℕ) (v : ℕ) : ℕ := (keptIndices removed v).length

theorem position_eq {removed : List ℕ} (hn : removed.Nodup) (v : ℕ) :
    position removed v = v - (removed.filter (· < v)).length := by
  rw [position, RemoveRows.keptIndices_filter, keptIndices_length (hn.filter _)
    (fun i hi => by simpa using (List.mem_filter.1 hi).2)]

theorem keptIndices_congr {l l' : List ℕ} (h : l.Perm l') (n : ℕ) : keptIndices l n = keptIndices l' n := by
  unfold keptIndices
  apply List.filter_congr
  intro i _
  rw [decide_eq_decide, h.mem_iff]

/-- The entry of the column of an arc in the row of vertex `v`. -/
def entry (source target v : ℕ) : ℚ := (if target = v then 1 else 0) - (if source = v then 1 else 0)

theorem numbers_wf {tuples : List (ℕ × ArcDirection)} (h : tuples.Pairwise fun p q => p.1 < q.1) :
    SVec.WF (numbers tuples) := by
  constructor
  · rw [numbers, List.pairwise_map]
    exact h
  · intro p hp
    obtain ⟨q, -, rfl⟩ := List.mem_map.1 hp
    cases q.2 <;> simp [ArcDirection.toRat]

theorem arcTuples_sorted {removed : List ℕ} (hn : removed.Nodup) {source target : ℕ}
    (hne : source ≠ target) : (arcTuples removed source target).Pairwise fun p q => p.1 < q.1 := by
  unfold arcTuples binarySearch
  by_cases hs : source ∈ removed <;> by_cases ht : target ∈ removed <;> simp only [hs, ht, if_true, if_false]
  · simp
  · simp
  · simp
  · rw [← position_eq hn, ← position_eq hn]
    split
    · simpa using by assumption
    · next h =>
      have : position removed source ≠ position removed target :=
        fun h => hne (keptIndices_length_inj hs ht h)
      simp only [List.pairwise_cons, List.mem_singleton, forall_eq, List.not_mem_nil, false_imp_iff,
        implies_true, List.Pairwise.nil, and_true]
      omega

theorem arcTuples_lt {removed : List ℕ} (hn : removed.Nodup) {source target n : ℕ}
    (hs : source < n) (ht : target < n) :
    ∀ p ∈ arcTuples removed source target, p.1 < position removed n := by
  have h1 : source ∉ removed → position removed source < position removed n := keptIndices_mono hs
  have h2 : target ∉ removed → position removed target < position removed n := keptIndices_mono ht
  rw [position_eq hn source] at h1
  rw [position_eq hn target] at h2
  unfold arcTuples binarySearch
  by_cases hs : source ∈ removed <;> by_cases ht : target ∈ removed <;>
    simp only [hs, ht, if_true, if_false]
  · simp
  · simpa using h2 ht
  · simpa using h1 hs
  · split
    · simpa using ⟨h1 hs, h2 ht⟩
    · simpa using ⟨h2 ht, h1 hs⟩

theorem val_arcTuples {removed : List ℕ} (hn : removed.Nodup) {source target v : ℕ}
    (hv : v ∉ removed) :
    SVec.val (numbers (arcTuples removed source target)) (position removed v) = entry source target v := by
  have h1 : source ∉ removed → (position removed source = position removed v ↔ source = v) :=
    fun h => ⟨fun e => keptIndices_length_inj h hv e, fun e => by rw [e]⟩
  have h2 : target ∉ removed → (position removed target = position removed v ↔ target = v) :=
    fun h => ⟨fun e => keptIndices_length_inj h hv e, fun e => by rw [e]⟩
  have h3 : source ∈ removed → source ≠ v := fun h e => hv (e ▸ h)
  have h4 : target ∈ removed → target ≠ v := fun h e => hv (e ▸ h)
  rw [position_eq hn source] at h1
  rw [position_eq hn target] at h2
  unfold arcTuples binarySearch entry
  by_cases hs : source ∈ removed <;> by_cases ht : target ∈ removed <;>
    simp only [hs, ht, if_true, if_false]
  · simp [numbers, SVec.val, h3 hs, h4 ht]
  · simp [numbers, SVec.val, h3 hs, h2 ht, ArcDirection.toRat]
  · simp only [numbers, SVec.val, h4 ht, h1 hs, ArcDirection.toRat, List.map_cons, List.map_nil,
      List.sum_cons, List.sum_nil, if_false]
    split <;> norm_num
  · split
    · simp only [numbers, SVec.val, h1 hs, h2 ht, ArcDirection.toRat, List.map_cons, List.map_nil,
        List.sum_cons, List.sum_nil]
      split <;> split <;> norm_num
    · simp only [numbers, SVec.val, h1 hs, h2 ht, ArcDirection.toRat, List.map_cons, List.map_nil,
        List.sum_cons, List.sum_nil]
      split <;> split <;> norm_num

/-! ### The incidence matrix -/

section

variable (A : SparseMatrix) (removed : List ℕ)

theorem new_items (f : ℕ → ℕ → List (ℕ × ArcDirection)) :
    (A.data.zipIdx.flatMap fun p => p.1.map fun q => (f p.2 q.1, q.2)) =
      (arcs A).map fun a => (f a.source a.target, a.value) := by
  unfold arcs
  rw [List.map_flatMap]
  congr 1
  funext p
  rw [List.map_map]
  rfl

theorem new_data : (IncidenceMatrix.new A removed).1.data =
    (arcs A).map fun a => arcTuples (removed.insertionSort (· ≤ ·)) a.source a.target := by
  simp only [IncidenceMatrix.new]
  rw [new_items A (arcTuples (removed.insertionSort (· ≤ ·))), List.map_map]
  rfl

theorem new_values : (IncidenceMatrix.new A removed).2 = (arcs A).map (·.value) := by
  simp only [IncidenceMatrix.new]
  rw [new_items A (arcTuples (removed.insertionSort (· ≤ ·))), List.map_map]
  rfl

theorem new_nrColumns : (IncidenceMatrix.new A removed).1.nrColumns = (arcs A).length := by
  have := congrArg List.length (new_data A removed)
  rwa [List.length_map] at this

theorem new_nrRows : (IncidenceMatrix.new A removed).1.nrRows = A.major - removed.length := by
  simp [IncidenceMatrix.new]

variable {A removed}

theorem new_column {j : ℕ} (hj : j < (arcs A).length) : (IncidenceMatrix.new A removed).1.column j =
    arcTuples (removed.insertionSort (· ≤ ·)) (arcs A)[j].source (arcs A)[j].target := by
  rw [IncidenceMatrix.column, new_data, List.getD_eq_getElem?_getD, List.getElem?_map,
    List.getElem?_eq_getElem hj]
  rfl

theorem mem_arcs {a : Arc} : a ∈ arcs A ↔
    ∃ v, A.data[a.source]? = some v ∧ (a.target, a.value) ∈ v := by
  unfold arcs
  simp only [List.mem_flatMap, List.mem_map, List.mem_zipIdx_iff_getElem?]
  constructor
  · rintro ⟨p, hp, q, hq, rfl⟩
    exact ⟨p.1, hp, hq⟩
  · rintro ⟨v, hv, hq⟩
    exact ⟨(v, a.source), hv, _, hq, rfl⟩

variable (hA : Adjacency A)

include hA

theorem arc_ok {a : Arc} (ha : a ∈ arcs A) : a.source < A.major ∧ a.target < A.major ∧
    a.source ≠ a.target ∧ a.value ≠ 0 := by
  obtain ⟨v, hv, hq⟩ := mem_arcs.1 ha
  have hm := List.mem_of_getElem? hv
  refine ⟨?_, hA.inRange v hm _ hq, (hA.noLoop (v, a.source) (List.mem_zipIdx_iff_getElem?.2 hv) _ hq).symm, (hA.wf v hm).2 _ hq⟩
  rw [← hA.length]
  exact (List.getElem?_eq_some_iff.1 hv).1

theorem new_column_wf (hn : removed.Nodup) {j : ℕ} (hj : j < (arcs A).length) :
    SVec.WF (numbers ((IncidenceMatrix.new A removed).1.column j)) := by
  rw [new_column hj]
  exact numbers_wf (arcTuples_sorted ((removed.perm_insertionSort _).nodup_iff.2 hn)
    (arc_ok hA (List.getElem_mem hj)).2.2.1)

theorem new_column_lt (hn : removed.Nodup) (hr : ∀ v ∈ removed, v < A.major) {j : ℕ}
    (hj : j < (arcs A).length) :
    ∀ p ∈ (IncidenceMatrix.new A removed).1.column j, p.1 < A.major - removed.length := by
  rw [new_column hj]
  obtain ⟨h1, h2, -⟩ := arc_ok hA (List.getElem_mem hj)
  have := arcTuples_lt ((removed.perm_insertionSort (· ≤ ·)).nodup_iff.2 hn) h1 h2
  rwa [position, keptIndices_congr (removed.perm_insertionSort _), keptIndices_length hn hr] at this

theorem new_column_val (hn : removed.Nodup) {j : ℕ} (hj : j < (arcs A).length) {v : ℕ}
    (hv : v ∉ removed) :
    SVec.val (numbers ((IncidenceMatrix.new A removed).1.column j)) (position removed v) =
      entry (arcs A)[j].source (arcs A)[j].target v := by
  rw [new_column hj]
  have hp := removed.perm_insertionSort (· ≤ ·)
  have := val_arcTuples (hp.nodup_iff.2 hn) (source := (arcs A)[j].source)
    (target := (arcs A)[j].target) (v := v) (fun h => hv (hp.mem_iff.1 h))
  rwa [position, keptIndices_congr hp] at this

end

/-! ### Flows -/

section

variable {E : List Arc}

theorem excess_eq (f : Fin E.length → ℚ) (v : ℕ) :
    ∑ k, entry E[k].source E[k].target v * f k = inflow E f v - outflow E f v := by
  unfold inflow outflow entry
  rw [← Finset.sum_sub_distrib]
  apply Finset.sum_congr rfl
  intro k _
  split <;> split <;> ring

/-- The flow that follows a walk. -/
def walkFlow (p : List (Fin E.length)) (k : Fin E.length) : ℚ := (p.count k : ℚ)

theorem excess_single (k : Fin E.length) (v : ℕ) :
    ∑ l, entry E[l].source E[l].target v * (if k = l then 1 else 0) =
      entry E[k].source E[k].target v := by
  simp

theorem walkFlow_cons (k : Fin E.length) (p : List (Fin E.length)) (l : Fin E.length) :
    walkFlow (k :: p) l = walkFlow p l + (if k = l then 1 else 0) := by
  unfold walkFlow
  rw [List.count_cons]
  by_cases h : k = l <;> simp [h]

theorem walk_excess {a b : ℕ} {p : List (Fin E.length)} (hw : Walk E a b p) (v : ℕ) :
    ∑ k, entry E[k].source E[k].target v * walkFlow p k =
      (if b = v then 1 else 0) - (if a = v then 1 else 0) := by
  induction hw with
  | nil w => simp [walkFlow]
  | cons k rest ih =>
    simp only [walkFlow_cons, mul_add, Finset.sum_add_distrib]
    rw [ih, excess_single]
    unfold entry
    ring

theorem walk_cost {a b : ℕ} {p : List (Fin E.length)} (hw : Walk E a b p) :
    flowCost E (walkFlow p) = walkLength E p := by
  unfold flowCost walkLength
  induction hw with
  | nil w => simp [walkFlow]
  | cons k rest ih =>
    simp only [walkFlow_cons, mul_add, Finset.sum_add_distrib, List.map_cons, List.sum_cons]
    rw [ih]
    simp [add_comm]

theorem walkFlow_nonneg (p : List (Fin E.length)) (k : Fin E.length) : 0 ≤ walkFlow p k := by
  unfold walkFlow
  positivity

theorem Walk.append {a b c : ℕ} {p q : List (Fin E.length)} (h : Walk E a b p) (h' : Walk E b c q) :
    Walk E a c (p ++ q) := by
  induction h with
  | nil => exact h'
  | cons k rest ih => exact .cons k (ih h')

theorem unitFlow_iff {n s t : ℕ} (hst : s ≠ t) (ht : t < n) {f : Fin E.length → ℚ} : UnitFlow E n s t f ↔
    (∀ k, 0 ≤ f k) ∧ ∀ v < n, v ≠ s →
      ∑ k, entry E[k].source E[k].target v * f k = if v = t then 1 else 0 := by
  simp only [excess_eq]
  constructor
  · rintro ⟨h1, h2, h3⟩
    refine ⟨h1, fun v hv hs => ?_⟩
    split
    · next h => rw [h, h3]; ring
    · next h => rw [h2 v hv hs h]; ring
  · rintro ⟨h1, h2⟩
    refine ⟨h1, fun v hv hs hvt => ?_, ?_⟩
    · have := h2 v hv hs
      rw [if_neg hvt] at this
      linarith
    · have := h2 t ht hst.symm
      rw [if_pos rfl] at this
      linarith

/-- A walk from `s` to `t` is a flow of one unit. -/
theorem walk_unitFlow {n s t : ℕ} (hst : s ≠ t) (ht : t < n) {p : List (Fin E.length)}
    (hw : Walk E s t p) : UnitFlow E n s t (walkFlow p) := by
  rw [unitFlow_iff hst ht]
  refine ⟨walkFlow_nonneg p, fun v _ hv => ?_⟩
  rw [walk_excess hw, if_neg (Ne.symm hv), sub_zero]
  simp [eq_comm]

/-- The arcs that a flow of one unit uses contain a walk from `s` to `t`. -/
theorem exists_walk {n s t : ℕ} (hst : s ≠ t) (ht : t < n) (hE : ∀ a ∈ E, a.source < n ∧ a.target < n)
    {f : Fin E.length → ℚ} (hf : UnitFlow E n s t f) :
    ∃ p, Walk E s t p ∧ ∀ k ∈ p, 0 < f k := by
  classical
  by_contra hc
  let R : ℕ → Prop := fun v => ∃ p, Walk E s v p ∧ ∀ k ∈ p, 0 < f k
  have hs : R s := ⟨[], .nil s, by simp⟩
  have ht' : ¬R t := hc
  have hstep : ∀ k : Fin E.length, 0 < f k → R E[k].source → R E[k].target := by
    rintro k hk ⟨p, hp, hpos⟩
    refine ⟨p ++ [k], Walk.append hp (.cons k (.nil _)), ?_⟩
    intro l hl
    rcases List.mem_append.1 hl with hl | hl
    · exact hpos l hl
    · rw [List.mem_singleton] at hl
      rw [hl]; exact hk
  obtain ⟨h1, h2⟩ := (unitFlow_iff hst ht).1 hf
  have hsum : ∑ v ∈ (Finset.range n).filter (fun v => ¬R v),
      ∑ k, entry E[k].source E[k].target v * f k = 1 := by
    have e : ∀ v ∈ (Finset.range n).filter (fun v => ¬R v),
        ∑ k, entry E[k].source E[k].target v * f k = if v = t then 1 else 0 := by
      intro v hv
      rw [Finset.mem_filter, Finset.mem_range] at hv
      exact h2 v hv.1 fun e => hv.2 (e ▸ hs)
    rw [Finset.sum_congr rfl e]
    rw [Finset.sum_ite_eq' _ t, if_pos]
    rw [Finset.mem_filter, Finset.mem_range]
    exact ⟨ht, ht'⟩
  rw [Finset.sum_comm] at hsum
  have hle : ∀ k : Fin E.length, ∑ v ∈ (Finset.range n).filter (fun v => ¬R v),
      entry E[k].source E[k].target v * f k ≤ 0 := by
    intro k
    obtain ⟨hks, hkt⟩ := hE E[k] (List.getElem_mem k.2)
    rw [← Finset.sum_mul]
    rcases (h1 k).eq_or_lt with h0 | hpos
    · rw [← h0, mul_zero]
    apply mul_nonpos_of_nonpos_of_nonneg _ (h1 k)
    unfold entry
    rw [Finset.sum_sub_distrib, Finset.sum_ite_eq, Finset.sum_ite_eq]
    simp only [Finset.mem_filter, Finset.mem_range, hks, hkt, true_and]
    have := hstep k hpos
    generalize E[k].target = a at *
    generalize E[k].source = b at *
    by_cases ha : R a <;> by_cases hb : R b <;> simp only [ha, hb, not_true, not_false_iff, if_true, if_false]
    · norm_num
    · norm_num
    · exact absurd (this hb) ha
    · norm_num
  have := Finset.sum_nonpos fun k (_ : k ∈ Finset.univ) => hle k
  linarith

/-- A cheapest flow of one unit is as expensive as any walk on the arcs that it uses. -/
theorem walk_optimal {n s t : ℕ} (hst : s ≠ t) (ht : t < n) {f : Fin E.length → ℚ}
    (hf : UnitFlow E n s t f) (hopt : ∀ g, UnitFlow E n s t g → flowCost E f ≤ flowCost E g)
    {p : List (Fin E.length)} (hp : Walk E s t p) (hpos : ∀ k ∈ p, 0 < f k) :
    walkLength E p = flowCost E f := by
  apply le_antisymm
  · -- a little of the walk can be taken out of the flow
    obtain ⟨ε, h0, h1, h2⟩ : ∃ ε : ℚ, 0 < ε ∧ ε < 1 ∧ ∀ k, ε * walkFlow p k ≤ f k := by
      have : ∀ l : List (Fin E.length), (∀ k ∈ l, 0 < f k) →
          ∃ ε : ℚ, 0 < ε ∧ ε < 1 ∧ ∀ k ∈ l, ε * walkFlow p k ≤ f k := by
        intro l
        induction l with
        | nil => exact fun _ => ⟨1 / 2, by norm_num, by norm_num, by simp⟩
        | cons k l ih =>
          intro h
          obtain ⟨ε, h0, h1, h2⟩ := ih fun k hk => h k (List.mem_cons_of_mem _ hk)
          have hfk := h k List.mem_cons_self
          have hw : 0 < walkFlow p k + 1 := by linarith [walkFlow_nonneg p k]
          refine ⟨min ε (f k / (walkFlow p k + 1)), lt_min h0 (div_pos hfk hw),
            lt_of_le_of_lt (min_le_left _ _) h1, ?_⟩
          intro l hl
          rcases List.mem_cons.1 hl with rfl | hl
          · calc _ ≤ f l / (walkFlow p l + 1) * walkFlow p l :=
                  mul_le_mul_of_nonneg_right (min_le_right _ _) (walkFlow_nonneg p l)
              _ ≤ f l / (walkFlow p l + 1) * (walkFlow p l + 1) :=
                  mul_le_mul_of_nonneg_left (by linarith) (div_pos hfk hw).le
              _ = f l := div_mul_cancel₀ _ hw.ne'
          · exact le_trans (mul_le_mul_of_nonneg_right (min_le_left _ _) (walkFlow_nonneg p l)) (h2 l hl)
      obtain ⟨ε, h0, h1, h2⟩ := this p hpos
      refine ⟨ε, h0, h1, fun k => ?_⟩
      by_cases hk : k ∈ p
      · exact h2 k hk
      · rw [walkFlow, List.count_eq_zero_of_not_mem hk]
        simpa using hf.nonneg k
    have hε : 0 < 1 - ε := by linarith
    have hg : UnitFlow E n s t fun k => (1 - ε)⁻¹ * (f k - ε * walkFlow p k) := by
      obtain ⟨f1, f2⟩ := (unitFlow_iff hst ht).1 hf
      rw [unitFlow_iff hst ht]
      refine ⟨fun k => mul_nonneg (inv_nonneg.2 hε.le) (by linarith [h2 k]), fun v hv hvs => ?_⟩
      have e : ∀ k, entry E[k].source E[k].target v * ((1 - ε)⁻¹ * (f k - ε * walkFlow p k)) =
          (1 - ε)⁻¹ * (entry E[k].source E[k].target v * f k) -
          (1 - ε)⁻¹ * ε * (entry E[k].source E[k].target v * walkFlow p k) := fun k => by ring
      rw [Finset.sum_congr rfl fun k _ => e k, Finset.sum_sub_distrib, ← Finset.mul_sum,
        ← Finset.mul_sum, f2 v hv hvs, walk_excess hp, if_neg (Ne.symm hvs)]
      simp only [eq_comm (a := t)]
      split
      · rw [sub_zero, mul_one, mul_one, ← mul_one_sub, inv_mul_cancel₀ hε.ne']
      · simp
    have hle := hopt _ hg
    have ec : flowCost E (fun k => (1 - ε)⁻¹ * (f k - ε * walkFlow p k)) =
        (1 - ε)⁻¹ * (flowCost E f - ε * walkLength E p) := by
      rw [← walk_cost hp]
      unfold flowCost
      rw [Finset.mul_sum, ← Finset.sum_sub_distrib, Finset.mul_sum]
      exact Finset.sum_congr rfl fun k _ => by ring
    rw [ec, inv_mul_eq_div, le_div_iff₀ hε] at hle
    nlinarith
  · rw [← walk_cost hp]
    exact hopt _ (walk_unitFlow hst ht hp)

end

end Network

end Relp
