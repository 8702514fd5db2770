import Verif.Proof.Network
import Verif.Spec.Provider

/-!
# The linear programs of the network problems
-/

namespace Relp

open Spec

namespace Network

/-- The remaining rows are those of the vertices that are not removed. -/
theorem rows_iff {removed : List ℕ} (hn : removed.Nodup) {n : ℕ} (hr : ∀ v ∈ removed, v < n)
    {p : ℕ → Prop} : (∀ i < n - removed.length, p i) ↔
      ∀ v < n, v ∉ removed → p (position removed v) := by
  rw [← keptIndices_length hn hr]
  constructor
  · exact fun h v hv hm => h _ (keptIndices_mono hv hm)
  · intro h i hi
    have hg := List.getElem?_eq_getElem hi
    obtain ⟨h1, h2⟩ := mem_keptIndices.1 (List.mem_of_getElem? hg)
    rw [keptIndices_inj hg]
    exact h _ h1 h2

theorem sum_cast {a b : ℕ} (h : a = b) (f : Fin b → ℚ) : ∑ j, f j = ∑ k : Fin a, f (k.cast h) := by
  subst h
  rfl

/-! ### Shortest path -/

namespace ShortestPath

variable {A : SparseMatrix} {s t : ℕ}

theorem nrEdges_eq : (arcs A).length = (ShortestPath.new A s t).matrix.nrEdges :=
  (new_nrColumns A [s]).symm

theorem nrRows_eq (hs : s < A.major) : (ShortestPath.new A s t).nrRows = A.major - 1 := by
  simp only [nrRows, IncidenceMatrix.nrVertices, ShortestPath.new, new_nrRows]
  simp [IncidenceMatrix.new]

theorem position_single {v : ℕ} (hv : v ≠ s) : position [s] v = if v < s then v else v - 1 := by
  rw [position_eq (by simp)]
  by_cases h : v < s
  · rw [if_pos h, List.filter_cons_of_neg (by simp; omega)]
    simp
  · rw [if_neg h, List.filter_cons_of_pos (by simp; omega)]
    simp

variable (hA : Adjacency A) (hs : s < A.major) (ht : t < A.major) (hst : s ≠ t)

include hs ht hst

theorem rhs_eq {v : ℕ} (hv : v < A.major) (hvs : v ≠ s) :
    (ShortestPath.new A s t).rightHandSide.getD (position [s] v) 0 = if v = t then 1 else 0 := by
  have e : (if t < s then t else t - 1) = position [s] t := (position_single hst.symm).symm
  have hlt : ∀ w < A.major, w ≠ s → position [s] w < A.major - 1 := by
    intro w hw hws
    have := keptIndices_mono (indices := [s]) hw (by simpa using hws)
    rwa [keptIndices_length (n := A.major) (by simp) (by simpa using hs)] at this
  unfold rightHandSide
  rw [nrRows_eq hs]
  change ((List.replicate (A.major - 1) (0 : ℚ)).set (if t < s then t else t - 1) 1).getD _ 0 = _
  rw [e, list_getD_set _ _ _ _ (by rw [List.length_replicate]; exact hlt t ht hst.symm)]
  by_cases h : v = t
  · simp [h]
  · have : position [s] v ≠ position [s] t := fun hc => h
      (keptIndices_length_inj (by simpa using hvs) (by simpa using hst.symm) hc)
    rw [if_neg h, if_neg (by first | exact this | exact this.symm)]
    simp [List.getD_eq_getElem?_getD, List.getElem?_replicate]
    split <;> rfl

include hA

/-- The feasible points of the linear program are the flows of one unit. -/
theorem feasible_iff (x : Fin (ShortestPath.new A s t).matrix.nrEdges → ℚ) :
    (ShortestPath.new A s t).toProvider.toLP.Feasible x ↔
      UnitFlow (arcs A) A.major s t fun k => x (k.cast nrEdges_eq) := by
  rw [unitFlow_iff hst ht]
  unfold LP.Feasible
  rw [and_comm]
  apply and_congr
  · constructor
    · exact fun h k => h _
    · exact fun h k => h (k.cast nrEdges_eq.symm)
  · have hrow : (∀ v < A.major, v ≠ s → ∑ k : Fin (arcs A).length,
          entry (arcs A)[k].source (arcs A)[k].target v * x (k.cast nrEdges_eq) =
            if v = t then 1 else 0) ↔
        ∀ i < A.major - [s].length, ∑ j : Fin (ShortestPath.new A s t).matrix.nrEdges,
          SVec.val (numbers ((ShortestPath.new A s t).matrix.column j)) i * x j =
            (ShortestPath.new A s t).rightHandSide.getD i 0 := by
      rw [rows_iff (removed := [s]) (by simp) (by simpa using hs)]
      refine forall_congr' fun v => forall_congr' fun hv => ?_
      simp only [List.mem_singleton]
      refine forall_congr' fun hvs => ?_
      rw [rhs_eq hs ht hst hv hvs, sum_cast nrEdges_eq]
      apply Eq.congr _ rfl
      refine Finset.sum_congr rfl fun k _ => ?_
      exact congrArg (· * _) (new_column_val hA (removed := [s]) (by simp) k.2 (by simpa using hvs)).symm
    rw [hrow]
    constructor
    · intro h i hi
      have hi' : i < (ShortestPath.new A s t).nrRows := by rw [nrRows_eq hs]; simpa using hi
      have := congrFun h ⟨i, hi'⟩
      rw [← show (ShortestPath.new A s t).toProvider.toLP.b ⟨i, hi'⟩ =
        (ShortestPath.new A s t).rightHandSide.getD i 0 from rfl, ← this]
      refine Finset.sum_congr rfl fun j _ => ?_
      congr 1
      exact (SVec.val_toFin _ _ ⟨i, hi'⟩).symm
    · intro h
      funext i
      have := h i (by simpa using lt_of_lt_of_eq i.2 (nrRows_eq hs))
      refine Eq.trans ?_ this
      unfold Matrix.mulVec dotProduct
      refine Finset.sum_congr rfl fun j _ => ?_
      congr 1
      exact SVec.val_toFin _ _ i

omit hs ht hst hA in
theorem objective_eq (x : Fin (ShortestPath.new A s t).matrix.nrEdges → ℚ) :
    (ShortestPath.new A s t).toProvider.toLP.objective x =
      flowCost (arcs A) fun k => x (k.cast nrEdges_eq) := by
  unfold LP.objective flowCost dotProduct
  rw [sum_cast nrEdges_eq]
  refine Finset.sum_congr rfl fun k _ => ?_
  congr 1
  change (IncidenceMatrix.new A [s]).2.getD k 0 = _
  rw [new_values, List.getD_eq_getElem?_getD, List.getElem?_map, List.getElem?_eq_getElem k.2]
  rfl

omit ht hst hs in
theorem column_wf (j : Fin (ShortestPath.new A s t).matrix.nrEdges) :
    SVec.WF (numbers ((ShortestPath.new A s t).matrix.column j)) :=
  new_column_wf hA (by simp) (lt_of_lt_of_eq j.2 nrEdges_eq.symm)

omit ht hst in
theorem ok : (ShortestPath.new A s t).toProvider.Ok := by
  refine ⟨fun j => SVec.wf_toFin (column_wf hA j), fun i => ?_, fun rows hr j => ?_⟩
  · apply MatrixData.list_getD_nonneg
    intro x hx
    rcases List.mem_or_eq_of_mem_set hx with h | h
    · rw [(List.mem_replicate.1 h).2]
    · rw [h]; norm_num
  · exact toFin_removeSparseTuples rows (column_wf hA j)

end ShortestPath

/-! ### Maximum flow -/

namespace MaxFlow

variable {A : SparseMatrix} {s t : ℕ}

theorem nrEdges_eq : (arcs A).length = (MaxFlow.new A s t).matrix.nrEdges :=
  (new_nrColumns A [s, t]).symm

theorem nrConstraints_eq (hs : s < A.major) (ht : t < A.major) (hst : s ≠ t) :
    (MaxFlow.new A s t).nrConstraints = A.major - 2 := by
  simp only [nrConstraints, IncidenceMatrix.nrVertices, MaxFlow.new, new_nrRows]
  simp only [IncidenceMatrix.new, List.length_insertionSort, List.length_cons, List.length_nil]
  omega

/-- The arc of a column, and of its slack. -/
def arcColumn (k : Fin (arcs A).length) : Fin (MaxFlow.new A s t).nrColumns :=
  Fin.castAdd _ (k.cast nrEdges_eq)

/-- The slack column of an arc. -/
def slackColumn (k : Fin (arcs A).length) : Fin (MaxFlow.new A s t).nrColumns :=
  Fin.natAdd _ (k.cast nrEdges_eq)

theorem sum_columns (f : Fin (MaxFlow.new A s t).nrColumns → ℚ) :
    ∑ j, f j = ∑ k, f (arcColumn k) + ∑ k, f (slackColumn k) := by
  have := Fin.sum_univ_add
    (f : Fin ((MaxFlow.new A s t).matrix.nrEdges + (MaxFlow.new A s t).matrix.nrEdges) → ℚ)
  rw [sum_cast nrEdges_eq, sum_cast nrEdges_eq] at this
  exact this

theorem columns_cases {p : Fin (MaxFlow.new A s t).nrColumns → Prop} :
    (∀ j, p j) ↔ (∀ k, p (arcColumn k)) ∧ ∀ k, p (slackColumn k) := by
  constructor
  · exact fun h => ⟨fun k => h _, fun k => h _⟩
  · rintro ⟨h1, h2⟩ j
    have := Fin.addCases (m := (MaxFlow.new A s t).matrix.nrEdges) (motive := p)
      (fun k => h1 (k.cast nrEdges_eq.symm)) (fun k => h2 (k.cast nrEdges_eq.symm)) j
    exact this

theorem val_slack (i : ℕ) (v : List (ℕ × ArcDirection)) (r : ℕ) :
    SVec.val (numbers (v ++ [(i, .incoming)])) r = SVec.val (numbers v) r + if i = r then 1 else 0 := by
  unfold numbers
  rw [List.map_append, SVec.val_append']
  simp [SVec.val, ArcDirection.toRat]

theorem arc_tuples (k : Fin (arcs A).length) :
    ((MaxFlow.new A s t).column (arcColumn (s := s) (t := t) k)).tuples =
      numbers ((IncidenceMatrix.new A [s, t]).1.column k ++
        [((MaxFlow.new A s t).nrConstraints + k, .incoming)]) := by
  have : (arcColumn (s := s) (t := t) k).val = k.val := rfl
  unfold MaxFlow.column
  rw [this, if_pos (lt_of_lt_of_eq k.2 nrEdges_eq)]
  rfl

theorem slack_tuples (k : Fin (arcs A).length) :
    ((MaxFlow.new A s t).column (slackColumn (s := s) (t := t) k)).tuples =
      numbers ([] ++ [((MaxFlow.new A s t).nrConstraints + k, .incoming)]) := by
  have : (slackColumn (s := s) (t := t) k).val = (MaxFlow.new A s t).matrix.nrEdges + k.val := rfl
  unfold MaxFlow.column
  rw [this, if_neg (by omega)]
  rw [show (MaxFlow.new A s t).nrConstraints + ((MaxFlow.new A s t).matrix.nrEdges + k.val) -
    (MaxFlow.new A s t).matrix.nrEdges = (MaxFlow.new A s t).nrConstraints + k.val by omega]
  rfl

variable (hA : Adjacency A) (hs : s < A.major) (ht : t < A.major) (hst : s ≠ t)

include hs ht hst hA

theorem column_lt (k : Fin (arcs A).length) :
    ∀ p ∈ (IncidenceMatrix.new A [s, t]).1.column k, p.1 < (MaxFlow.new A s t).nrConstraints := by
  rw [nrConstraints_eq hs ht hst]
  exact new_column_lt hA (removed := [s, t]) (by simpa using hst) (by simp [hs, ht]) k.2

theorem wf_arc (k : Fin (arcs A).length) :
    SVec.WF ((MaxFlow.new A s t).column (arcColumn (s := s) (t := t) k)).tuples := by
  rw [arc_tuples]
  apply numbers_wf
  rw [List.pairwise_append]
  have h := new_column_wf hA (removed := [s, t]) (by simpa using hst) k.2
  refine ⟨?_, by simp, ?_⟩
  · have := h.1
    rwa [numbers, List.pairwise_map] at this
  · intro p hp q hq
    rw [List.mem_singleton] at hq
    rw [hq]
    have := column_lt hA hs ht hst k p hp
    dsimp only
    omega

omit hs ht hst hA in
theorem wf_slack (k : Fin (arcs A).length) :
    SVec.WF ((MaxFlow.new A s t).column (slackColumn (s := s) (t := t) k)).tuples := by
  rw [slack_tuples]
  exact numbers_wf (by simp)

theorem wf_column (j : Fin (MaxFlow.new A s t).nrColumns) :
    SVec.WF ((MaxFlow.new A s t).column j).tuples :=
  columns_cases (p := fun j => SVec.WF ((MaxFlow.new A s t).column j).tuples).2
    ⟨wf_arc hA hs ht hst, wf_slack⟩ j

theorem arc_vertex (k : Fin (arcs A).length) {v : ℕ} (hv : v < A.major) (hvs : v ≠ s) (hvt : v ≠ t) :
    SVec.val ((MaxFlow.new A s t).column (arcColumn (s := s) (t := t) k)).tuples (position [s, t] v) =
      entry (arcs A)[k].source (arcs A)[k].target v := by
  have hlt : position [s, t] v < (MaxFlow.new A s t).nrConstraints := by
    rw [nrConstraints_eq hs ht hst]
    have := keptIndices_mono (indices := [s, t]) hv (by simp [hvs, hvt])
    rwa [keptIndices_length (n := A.major) (by simpa using hst) (by simp [hs, ht])] at this
  rw [arc_tuples, val_slack, if_neg (by omega), add_zero]
  exact new_column_val hA (removed := [s, t]) (by simpa using hst) k.2 (by simp [hvs, hvt])

omit hA in
theorem slack_vertex (k : Fin (arcs A).length) {v : ℕ} (hv : v < A.major) (hvs : v ≠ s) (hvt : v ≠ t) :
    SVec.val ((MaxFlow.new A s t).column (slackColumn (s := s) (t := t) k)).tuples
      (position [s, t] v) = 0 := by
  have hlt : position [s, t] v < (MaxFlow.new A s t).nrConstraints := by
    rw [nrConstraints_eq hs ht hst]
    have := keptIndices_mono (indices := [s, t]) hv (by simp [hvs, hvt])
    rwa [keptIndices_length (n := A.major) (by simpa using hst) (by simp [hs, ht])] at this
  rw [slack_tuples, val_slack, if_neg (by omega), add_zero]
  rfl

theorem arc_bound (k l : Fin (arcs A).length) :
    SVec.val ((MaxFlow.new A s t).column (arcColumn (s := s) (t := t) k)).tuples
      ((MaxFlow.new A s t).nrConstraints + l) = if k = l then 1 else 0 := by
  rw [arc_tuples, val_slack, SVec.val_eq_zero_of_notMem, zero_add]
  · simp [Fin.ext_iff]
  · intro p hp
    obtain ⟨q, hq, rfl⟩ := List.mem_map.1 hp
    have := column_lt hA hs ht hst k q hq
    dsimp only
    omega

omit hs ht hst hA in
theorem slack_bound (k l : Fin (arcs A).length) :
    SVec.val ((MaxFlow.new A s t).column (slackColumn (s := s) (t := t) k)).tuples
      ((MaxFlow.new A s t).nrConstraints + l) = if k = l then 1 else 0 := by
  rw [slack_tuples, val_slack]
  simp [Fin.ext_iff, numbers, SVec.val]

omit hs ht hst hA in
theorem rhs_bound (l : Fin (arcs A).length) : (MaxFlow.new A s t).rightHandSide.getD
    ((MaxFlow.new A s t).nrConstraints + l) 0 = (arcs A)[l].value := by
  unfold rightHandSide
  rw [list_getD_append, List.length_replicate, if_neg (by omega), Nat.add_sub_cancel_left]
  change (IncidenceMatrix.new A [s, t]).2.getD l 0 = _
  rw [new_values, List.getD_eq_getElem?_getD, List.getElem?_map, List.getElem?_eq_getElem l.2]
  rfl

omit hs ht hst hA in
theorem rhs_vertex {i : ℕ} (hi : i < (MaxFlow.new A s t).nrConstraints) :
    (MaxFlow.new A s t).rightHandSide.getD i 0 = 0 := by
  unfold rightHandSide
  rw [list_getD_append, List.length_replicate, if_pos hi]
  simp [List.getD_eq_getElem?_getD, List.getElem?_replicate, hi]

omit hA in
/-- The rows are those of the remaining vertices and those of the arcs. -/
theorem rows_cases {p : ℕ → Prop} : (∀ i < (MaxFlow.new A s t).nrRows, p i) ↔
    (∀ v < A.major, v ≠ s → v ≠ t → p (position [s, t] v)) ∧
      ∀ l : Fin (arcs A).length, p ((MaxFlow.new A s t).nrConstraints + l) := by
  have h1 := rows_iff (removed := [s, t]) (n := A.major) (by simpa using hst) (by simp [hs, ht]) (p := p)
  have h2 : (∀ v < A.major, v ≠ s → v ≠ t → p (position [s, t] v)) ↔
      ∀ v < A.major, v ∉ [s, t] → p (position [s, t] v) := by
    refine forall_congr' fun v => forall_congr' fun _ => ?_
    simp
  rw [h2, ← h1]
  have h3 : A.major - [s, t].length = (MaxFlow.new A s t).nrConstraints :=
    (nrConstraints_eq hs ht hst).symm
  rw [h3]
  constructor
  · intro h
    refine ⟨fun i hi => h i (by unfold nrRows; omega), fun l => h _ ?_⟩
    have := lt_of_lt_of_eq l.2 (nrEdges_eq (s := s) (t := t))
    unfold nrRows
    omega
  · rintro ⟨h1, h2⟩ i hi
    by_cases hc : i < (MaxFlow.new A s t).nrConstraints
    · exact h1 i hc
    · have e : (arcs A).length = (MaxFlow.new A s t).matrix.nrEdges := nrEdges_eq
      unfold nrRows at hi
      have := h2 ⟨i - (MaxFlow.new A s t).nrConstraints, by omega⟩
      rwa [Nat.add_sub_cancel' (by omega)] at this

/-- The feasible points of the linear program are the flows within the capacities, and what is left of the
capacities. -/
theorem feasible_iff (x : Fin (MaxFlow.new A s t).nrColumns → ℚ) :
    (MaxFlow.new A s t).toProvider.toLP.Feasible x ↔
      CapacityFlow (arcs A) A.major s t (fun k => x (arcColumn k)) ∧
        ∀ k, x (slackColumn k) = (arcs A)[k].value - x (arcColumn k) := by
  have hrow : (MaxFlow.new A s t).toProvider.toLP.A.mulVec x = (MaxFlow.new A s t).toProvider.toLP.b ↔
      ∀ i < (MaxFlow.new A s t).nrRows,
        ∑ j : Fin (MaxFlow.new A s t).nrColumns, SVec.val ((MaxFlow.new A s t).column j).tuples i * x j =
          (MaxFlow.new A s t).rightHandSide.getD i 0 := by
    rw [funext_iff]
    constructor
    · intro h i hi
      refine Eq.trans ?_ (h ⟨i, hi⟩)
      unfold Matrix.mulVec dotProduct
      refine Finset.sum_congr rfl fun j _ => ?_
      congr 1
      exact (SVec.val_toFin _ _ ⟨i, hi⟩).symm
    · intro h i
      refine Eq.trans ?_ (h i i.2)
      unfold Matrix.mulVec dotProduct
      refine Finset.sum_congr rfl fun j _ => ?_
      congr 1
      exact SVec.val_toFin _ _ i
  unfold LP.Feasible
  rw [hrow, rows_cases hs ht hst, columns_cases]
  have e1 : ∀ v < A.major, v ≠ s → v ≠ t →
      (∑ j : Fin (MaxFlow.new A s t).nrColumns, SVec.val ((MaxFlow.new A s t).column j).tuples (position [s, t] v) * x j =
        (MaxFlow.new A s t).rightHandSide.getD (position [s, t] v) 0 ↔
      inflow (arcs A) (fun k => x (arcColumn k)) v = outflow (arcs A) (fun k => x (arcColumn k)) v) := by
    intro v hv hvs hvt
    have hlt : position [s, t] v < (MaxFlow.new A s t).nrConstraints := by
      rw [nrConstraints_eq hs ht hst]
      have := keptIndices_mono (indices := [s, t]) hv (by simp [hvs, hvt])
      rwa [keptIndices_length (n := A.major) (by simpa using hst) (by simp [hs, ht])] at this
    rw [sum_columns, rhs_vertex hlt]
    simp only [arc_vertex hA hs ht hst _ hv hvs hvt, slack_vertex hs ht hst _ hv hvs hvt, zero_mul,
      Finset.sum_const_zero, add_zero]
    rw [excess_eq, sub_eq_zero]
  have e2 : ∀ l : Fin (arcs A).length,
      (∑ j : Fin (MaxFlow.new A s t).nrColumns, SVec.val ((MaxFlow.new A s t).column j).tuples ((MaxFlow.new A s t).nrConstraints + l) * x j =
        (MaxFlow.new A s t).rightHandSide.getD ((MaxFlow.new A s t).nrConstraints + l) 0 ↔
      x (slackColumn l) = (arcs A)[l].value - x (arcColumn l)) := by
    intro l
    rw [sum_columns, rhs_bound]
    simp only [arc_bound hA hs ht hst, slack_bound, ite_mul, one_mul, zero_mul]
    rw [Finset.sum_ite_eq', Finset.sum_ite_eq', if_pos (Finset.mem_univ _), if_pos (Finset.mem_univ _)]
    constructor <;> intro h <;> linarith
  constructor
  · rintro ⟨⟨h1, h2⟩, h3, h4⟩
    have h5 := fun l => (e2 l).1 (h2 l)
    refine ⟨⟨h3, fun k => ?_, fun v hv hvs hvt => (e1 v hv hvs hvt).1 (h1 v hv hvs hvt)⟩, h5⟩
    have := h4 k
    rw [h5 k] at this
    linarith
  · rintro ⟨h1, h2⟩
    refine ⟨⟨fun v hv hvs hvt => (e1 v hv hvs hvt).2 (h1.conserved v hv hvs hvt),
      fun l => (e2 l).2 (h2 l)⟩, h1.nonneg, fun k => ?_⟩
    have := h1.capacity k
    rw [h2 k]
    linarith

/-! #### Objective -/

omit hs ht hst hA in
/-- The arcs of a part of the columns of an adjacency matrix. -/
theorem source_iff (data : List (SVec ℕ)) (n : ℕ) (s k : ℕ) (a : Arc)
    (ha : ((data.zipIdx n).flatMap fun p => p.1.map fun q => (⟨p.2, q.1, q.2⟩ : Arc))[k]? = some a) :
    n + s = a.source ↔ ((data.take s).map List.length).sum ≤ k ∧
      k < ((data.take s).map List.length).sum + (data.getD s []).length := by
  induction data generalizing n s k with
  | nil => simp at ha
  | cons v data ih =>
    rw [List.zipIdx_cons, List.flatMap_cons] at ha
    by_cases hk : k < v.length
    · rw [List.getElem?_append_left (by simpa using hk), List.getElem?_map] at ha
      obtain ⟨q, -, rfl⟩ := Option.map_eq_some_iff.1 ha
      cases s with
      | zero => simpa using hk
      | succ s => simp; omega
    · rw [List.getElem?_append_right (by simpa using hk), List.length_map] at ha
      cases s with
      | zero =>
        have : n + 1 ≤ a.source := by
          obtain ⟨p, hp, hq⟩ := List.mem_flatMap.1 (List.mem_of_getElem? ha)
          obtain ⟨q, -, rfl⟩ := List.mem_map.1 hq
          exact (List.mem_zipIdx hp).1
        simp
        omega
      | succ s =>
        have := ih (n + 1) s (k - v.length) ha
        rw [show n + (s + 1) = n + 1 + s by omega, this]
        simp only [List.take_succ_cons, List.map_cons, List.sum_cons, List.getD_cons_succ]
        omega

omit hs ht hst hA in
theorem objective_eq (x : Fin (MaxFlow.new A s t).nrColumns → ℚ) :
    (MaxFlow.new A s t).toProvider.toLP.objective x =
      -outflow (arcs A) (fun k => x (arcColumn k)) s := by
  unfold LP.objective outflow dotProduct
  rw [sum_columns, ← Finset.sum_neg_distrib]
  have e1 : ∀ k : Fin (arcs A).length, (MaxFlow.new A s t).toProvider.toLP.c (slackColumn k) = 0 := by
    intro k
    change (MaxFlow.new A s t).costValue ((MaxFlow.new A s t).matrix.nrEdges + k) = 0
    unfold costValue
    rw [if_neg]
    rintro ⟨-, h⟩
    have hle : (MaxFlow.new A s t).sArcsEnd ≤ (arcs A).length := by
      have := List.length_flatMap (l := A.data.zipIdx)
        (f := fun p => p.1.map fun q => (⟨p.2, q.1, q.2⟩ : Arc))
      change ((A.data.take s).map List.length).sum + (A.data.getD s []).length ≤ _
      unfold arcs
      rw [this]
      have e : (A.data.zipIdx.map fun p => (p.1.map fun q => (⟨p.2, q.1, q.2⟩ : Arc)).length) =
          A.data.map List.length := by
        simp only [List.length_map]
        conv_rhs => rw [← List.zipIdx_map_fst 0 A.data, List.map_map]
        rfl
      rw [e]
      conv_rhs => rw [← List.take_append_drop s A.data, List.map_append, List.sum_append]
      gcongr
      by_cases hs : s < A.data.length
      · rw [List.drop_eq_getElem_cons hs, List.getD_eq_getElem?_getD, List.getElem?_eq_getElem hs,
          List.map_cons, List.sum_cons]
        exact Nat.le_add_right _ _
      · rw [List.getD_eq_getElem?_getD, List.getElem?_eq_none (by omega)]
        simp
    have := nrEdges_eq (A := A) (s := s) (t := t)
    omega
  have e2 : ∀ k : Fin (arcs A).length, (MaxFlow.new A s t).toProvider.toLP.c (arcColumn k) =
      if (arcs A)[k].source = s then -1 else 0 := by
    intro k
    change (MaxFlow.new A s t).costValue k = _
    unfold costValue
    have := source_iff A.data 0 s k (arcs A)[k] (by
      exact List.getElem?_eq_getElem (l := arcs A) k.2)
    rw [zero_add] at this
    refine if_congr (Iff.trans this.symm eq_comm) rfl rfl
  simp only [e1, e2, zero_mul, Finset.sum_const_zero, add_zero]
  refine Finset.sum_congr rfl fun k _ => ?_
  split <;> ring

/-! #### Initial basis -/

omit hs ht hst hA in
theorem start_ok : StartOk (MaxFlow.new A s t).toProvider (MaxFlow.new A s t).initialBasis := by
  refine ⟨?_, fun p hp => ?_⟩
  · rw [List.pairwise_map, List.pairwise_filterMap, pivotElementIndices, List.pairwise_map]
    refine List.pairwise_lt_range.imp fun {p q} hpq a ha b hb => ?_
    split_ifs at ha hb
    simp only [Option.some.injEq] at ha hb
    subst ha; subst hb
    simp only [Fin.mk_lt_mk]
    omega
  · obtain ⟨q, hq, h⟩ := List.mem_filterMap.1 hp
    split_ifs at h with hc
    simp only [Option.some.injEq] at h
    subst h
    simp only [pivotElementIndices, List.mem_map, List.mem_range] at hq
    obtain ⟨k, hk, rfl⟩ := hq
    funext i
    change SVec.val (((MaxFlow.new A s t).column _).tuples.toFin (MaxFlow.new A s t).nrRows) i = _
    rw [SVec.val_toFin]
    have hk' : k < (arcs A).length := lt_of_lt_of_eq hk nrEdges_eq.symm
    have := slack_tuples (A := A) (s := s) (t := t) ⟨k, hk'⟩
    change ((MaxFlow.new A s t).column ((MaxFlow.new A s t).matrix.nrEdges + k)).tuples = _ at this
    simp only
    rw [this, val_slack, Pi.single_apply]
    simp only [Fin.ext_iff, numbers, SVec.val, List.map_nil, List.sum_nil, zero_add]
    refine if_congr ?_ rfl rfl
    omega

/-! #### Redundant rows -/

/-- If every vertex is connected to `s` or `t`, no row is redundant. -/
theorem not_redundant
    (hcon : ∀ v < A.major, Relation.EqvGen (fun a b => ∃ e ∈ arcs A, e.source = a ∧ e.target = b) v s ∨
      Relation.EqvGen (fun a b => ∃ e ∈ arcs A, e.source = a ∧ e.target = b) v t)
    {rows : List (Fin (MaxFlow.new A s t).nrRows)}
    (hr : (MaxFlow.new A s t).toProvider.toLP.Redundant rows) : rows = [] := by
  by_contra hne
  obtain ⟨i, hi⟩ := List.exists_mem_of_ne_nil rows hne
  obtain ⟨u, h1, -, h3, -⟩ := hr.2 i hi
  let w : ℕ → ℚ := fun i => if h : i < (MaxFlow.new A s t).nrRows then u ⟨i, h⟩ else 0
  have hw : ∀ i : Fin (MaxFlow.new A s t).nrRows, w i = u i := fun i => dif_pos i.2
  suffices h : ∀ i < (MaxFlow.new A s t).nrRows, w i = 0 by
    have := h i i.2
    rw [hw, h3] at this
    exact one_ne_zero this
  have hcol : ∀ j : Fin (MaxFlow.new A s t).nrColumns,
      (((MaxFlow.new A s t).column j).tuples.map fun p => w p.1 * p.2).sum = 0 := by
    intro j
    have h := congrFun h1 j
    have hr : ∀ p ∈ ((MaxFlow.new A s t).column j).tuples, p.1 < (MaxFlow.new A s t).nrRows := by
      have : ∀ p ∈ ((MaxFlow.new A s t).column j).tuples, p.1 < (MaxFlow.new A s t).nrConstraints +
          (arcs A).length := by
        refine columns_cases (p := fun j => ∀ p ∈ ((MaxFlow.new A s t).column j).tuples,
          p.1 < (MaxFlow.new A s t).nrConstraints + (arcs A).length).2 ⟨fun k p hp => ?_, fun k p hp => ?_⟩ j
        · rw [arc_tuples] at hp
          obtain ⟨q, hq, rfl⟩ := List.mem_map.1 hp
          rcases List.mem_append.1 hq with hq | hq
          · have := column_lt hA hs ht hst k q hq
            dsimp only
            omega
          · rw [List.mem_singleton] at hq
            subst hq
            dsimp only
            omega
        · rw [slack_tuples] at hp
          obtain ⟨q, hq, rfl⟩ := List.mem_map.1 hp
          rw [List.nil_append, List.mem_singleton] at hq
          subst hq
          dsimp only
          omega
      intro p hp
      have := this p hp
      unfold nrRows
      rwa [← nrEdges_eq]
    rw [sum_tuples hr, Finset.sum_range]
    refine Eq.trans ?_ h
    unfold Matrix.vecMul dotProduct
    refine Finset.sum_congr rfl fun i _ => ?_
    rw [hw]
    congr 1
    exact (SVec.val_toFin _ _ i).symm
  have hbound : ∀ l : Fin (arcs A).length, w ((MaxFlow.new A s t).nrConstraints + l) = 0 := by
    intro l
    have := hcol (slackColumn l)
    rw [slack_tuples] at this
    simpa [numbers, ArcDirection.toRat] using this
  let φ : ℕ → ℚ := fun v => if v = s ∨ v = t then 0 else w (position [s, t] v)
  have harc : ∀ e ∈ arcs A, φ e.source = φ e.target := by
    intro e he
    obtain ⟨k, hk, rfl⟩ := List.mem_iff_getElem.1 he
    have := hcol (arcColumn ⟨k, hk⟩)
    rw [arc_tuples] at this
    unfold numbers at this
    rw [List.map_map, List.map_append, List.sum_append] at this
    simp only [List.map_cons, List.map_nil, Function.comp, List.sum_cons, List.sum_nil] at this
    rw [hbound ⟨k, hk⟩, zero_mul, add_zero, add_zero] at this
    simp only [new_column hk] at this
    have hp := [s, t].perm_insertionSort (· ≤ ·)
    have hn : ([s, t].insertionSort (· ≤ ·)).Nodup := hp.nodup_iff.2 (by simpa using hst)
    have hmem : ∀ v, v ∈ [s, t].insertionSort (· ≤ ·) ↔ v = s ∨ v = t := by
      intro v; rw [hp.mem_iff]; simp
    generalize hr : [s, t].insertionSort (· ≤ ·) = r at *
    have hpos : ∀ v, position [s, t] v = position r v := by
      intro v; rw [position, position, keptIndices_congr hp.symm]
    simp only [φ, hpos]
    generalize (arcs A)[k].source = a at *
    generalize (arcs A)[k].target = b at *
    unfold arcTuples binarySearch at this
    by_cases ha : a ∈ r <;> by_cases hb : b ∈ r <;> simp only [ha, hb, if_true, if_false] at this
    · rw [if_pos ((hmem a).1 ha), if_pos ((hmem b).1 hb)]
    · rw [if_pos ((hmem a).1 ha), if_neg (fun h => hb ((hmem b).2 h)), position_eq hn]
      simpa [ArcDirection.toRat, eq_comm] using this
    · rw [if_neg (fun h => ha ((hmem a).2 h)), if_pos ((hmem b).1 hb), position_eq hn]
      simpa [ArcDirection.toRat] using this
    · rw [if_neg (fun h => ha ((hmem a).2 h)), if_neg (fun h => hb ((hmem b).2 h)), position_eq hn,
        position_eq hn]
      split at this
      · simp [ArcDirection.toRat] at this
        linarith
      · simp [ArcDirection.toRat] at this
        linarith
  have hconst : ∀ a b, Relation.EqvGen (fun a b => ∃ e ∈ arcs A, e.source = a ∧ e.target = b) a b →
      φ a = φ b := by
    intro a b h
    induction h with
    | rel a b h =>
      obtain ⟨e, he, rfl, rfl⟩ := h
      exact harc e he
    | refl a => rfl
    | symm a b _ ih => exact ih.symm
    | trans a b c _ _ ih1 ih2 => exact ih1.trans ih2
  rw [rows_cases hs ht hst]
  refine ⟨fun v hv hvs hvt => ?_, hbound⟩
  have e : φ v = w (position [s, t] v) := if_neg (by tauto)
  rw [← e]
  rcases hcon v hv with h | h
  · rw [hconst _ _ h]; exact if_pos (Or.inl rfl)
  · rw [hconst _ _ h]; exact if_pos (Or.inr rfl)

/-- If every vertex is connected to `s` or `t` and capacities are not negative, this is a valid problem. -/
theorem ok (hcap : ∀ e ∈ arcs A, 0 ≤ e.value)
    (hcon : ∀ v < A.major, Relation.EqvGen (fun a b => ∃ e ∈ arcs A, e.source = a ∧ e.target = b) v s ∨
      Relation.EqvGen (fun a b => ∃ e ∈ arcs A, e.source = a ∧ e.target = b) v t) :
    (MaxFlow.new A s t).toProvider.Ok := by
  refine ⟨fun j => SVec.wf_toFin (wf_column hA hs ht hst j), fun i => ?_, fun rows hr j => ?_⟩
  · apply MatrixData.list_getD_nonneg
    intro x hx
    rcases List.mem_append.1 hx with h | h
    · rw [(List.mem_replicate.1 h).2]
    · have h : x ∈ (IncidenceMatrix.new A [s, t]).2 := h
      rw [new_values] at h
      obtain ⟨e, he, rfl⟩ := List.mem_map.1 h
      exact hcap e he
  · obtain rfl := not_redundant hA hs ht hst hcon hr
    have e := toFin_removeSparseTuples (m := (MaxFlow.new A s t).nrRows) []
      (wf_column hA hs ht hst j)
    refine Eq.trans ?_ e
    change SVec.toFin _ _ = _
    congr 1
    have hk : ∀ n, (keptIndices [] n).length = n := by
      intro n
      simp [keptIndices]
    have h1 : ∀ v : SVec ℕ, removeSparseTuples [] v = v := by
      intro v
      simp [removeSparseTuples, hk]
    rw [List.map_nil, h1]
    unfold Column.intoFiltered Column.tuples
    simp [hk]

end MaxFlow

end Network

end Relp
