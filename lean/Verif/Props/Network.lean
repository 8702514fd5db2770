import Verif.Props.Solve
import Verif.Proof.NetworkProblems

/-!
# Properties of network data and of the network problems (C41, C49, C50)

`arcs A` lists the arcs of the graph with adjacency matrix `A`; flows and walks are defined in
`Verif/Spec/Network.lean`.
-/

namespace Relp

open Spec Network

/-! ### C41: incidence matrices -/

/-- The list of arcs has an arc for each nonzero element of the adjacency matrix, ordered by source and then
by target. -/
theorem C41_arcs (A : SparseMatrix) (hA : Adjacency A) :
    (∀ a : Arc, a ∈ arcs A ↔ a.value ≠ 0 ∧ SVec.val (A.data.getD a.source []) a.target = a.value) ∧
      (arcs A).Pairwise fun a b =>
        a.source < b.source ∨ a.source = b.source ∧ a.target < b.target := by
  constructor
  · intro a
    rw [mem_arcs, List.getD_eq_getElem?_getD]
    constructor
    · rintro ⟨v, hv, hm⟩
      have hwf := hA.wf v (List.mem_of_getElem? hv)
      rw [hv]
      exact ⟨hwf.2 _ hm, SVec.val_of_mem hwf hm⟩
    · rintro ⟨h1, h2⟩
      match hv : A.data[a.source]? with
      | none => rw [hv] at h2; exact absurd h2.symm h1
      | some v =>
        rw [hv, Option.getD_some] at h2
        exact ⟨v, rfl, (SVec.mem_iff (hA.wf v (List.mem_of_getElem? hv)) _ _).2 ⟨h2, h1⟩⟩
  · unfold arcs
    rw [List.pairwise_flatMap]
    constructor
    · intro p hp
      rw [List.pairwise_map]
      have hv := List.mem_zipIdx_iff_getElem?.1 hp
      exact (hA.wf p.1 (List.mem_of_getElem? hv)).1.imp fun h => Or.inr ⟨rfl, h⟩
    · have : A.data.zipIdx.Pairwise fun p q => p.2 < q.2 := by
        rw [← List.pairwise_map (f := Prod.snd), List.zipIdx_map_snd]
        exact List.pairwise_lt_range'
      refine this.imp ?_
      intro p q hpq a ha b hb
      obtain ⟨_, -, rfl⟩ := List.mem_map.1 ha
      obtain ⟨_, -, rfl⟩ := List.mem_map.1 hb
      exact Or.inl hpq

/-- **C41.** The incidence matrix has a column for each arc, in the order of the values, and a row for each
vertex that is not removed. The columns are valid; that of an arc has -1 in the row of its source and 1 in
the row of its target. `keptIndices removed n` lists the vertices below `n` that are not removed. -/
theorem C41_incidence_matrix (A : SparseMatrix) (hA : Adjacency A) (removed : List ℕ)
    (hn : removed.Nodup) (hr : ∀ v ∈ removed, v < A.major) :
    let I := (IncidenceMatrix.new A removed).1
    (IncidenceMatrix.new A removed).2 = (arcs A).map (·.value) ∧
    I.nrVertices = A.major ∧ I.nrEdges = (arcs A).length ∧ I.nrRows = A.major - removed.length ∧
    ∀ k : Fin (arcs A).length,
      (I.column k).Pairwise (fun p q => p.1 < q.1) ∧ (∀ p ∈ I.column k, p.1 < I.nrRows) ∧
      ∀ i v, (keptIndices removed A.major)[i]? = some v →
        SVec.val (numbers (I.column k)) i =
          (if (arcs A)[k].target = v then 1 else 0) - (if (arcs A)[k].source = v then 1 else 0) := by
  intro I
  have hle : removed.length ≤ A.major := by
    have := keptIndices_length hn hr
    have h2 := List.Nodup.length_le_card (α := Fin A.major)
      (l := removed.attach.map fun v => ⟨v.1, hr v.1 v.2⟩) (by
        rw [List.nodup_map_iff_inj_on (List.nodup_attach.2 hn)]
        intro x _ y _ h
        exact Subtype.ext (by simpa using h))
    simpa using h2
  refine ⟨new_values A removed, ?_, new_nrColumns A removed, new_nrRows A removed, fun k => ⟨?_, ?_, ?_⟩⟩
  · change (IncidenceMatrix.new A removed).1.nrRows + (removed.insertionSort (· ≤ ·)).length = _
    rw [new_nrRows, List.length_insertionSort]
    omega
  · have := (new_column_wf hA hn k.2).1
    rwa [numbers, List.pairwise_map] at this
  · rw [show I.nrRows = A.major - removed.length from new_nrRows A removed]
    exact new_column_lt hA hn hr k.2
  · intro i v hv
    obtain ⟨-, hm⟩ := mem_keptIndices.1 (List.mem_of_getElem? hv)
    rw [keptIndices_inj hv]
    exact new_column_val hA hn k.2 hm

/-- Arithmetic with a direction is arithmetic with the number that it stands for. -/
theorem C41_arithmetic (x : ℚ) (d : ArcDirection) :
    d.add x = x + d.toRat ∧ d.sub x = x - d.toRat ∧ d.mul x = x * d.toRat ∧ d.mul x = x / d.toRat := by
  cases d <;> simp [ArcDirection.add, ArcDirection.sub, ArcDirection.mul, ArcDirection.toRat,
    div_neg] <;> ring

namespace Example

/-- The graph of the example in shortest_path.rs. -/
def graph : SparseMatrix := ⟨[[(1, 1), (2, 2)], [(2, 2), (3, 3)], [(3, 1)], []], 4, 4⟩

theorem graph_ok : Adjacency graph :=
  ⟨rfl, by decide +kernel, by decide +kernel, by decide +kernel⟩

end Example

example : (IncidenceMatrix.new Example.graph [2, 0]).1.data =
    [[(0, .incoming)], [], [(0, .outgoing)], [(0, .outgoing), (1, .incoming)], [(1, .incoming)]] ∧
    SVec.val (numbers ((IncidenceMatrix.new Example.graph [2, 0]).1.column 3)) 1 = 1 - 0 :=
  ⟨by decide +kernel, ((C41_incidence_matrix Example.graph Example.graph_ok [2, 0] (by decide)
    (by decide)).2.2.2.2 (3 : Fin 5)).2.2 1 3 (by decide +kernel)⟩

/-! ### C49: shortest paths -/

section

variable {A : SparseMatrix} (hA : Adjacency A) {s t : ℕ} (hs : s < A.major) (ht : t < A.major)
  (hst : s ≠ t) (inv : InverseName) (rule : RuleName) (fuel : ℕ)

include hA hs ht hst

/-- **C49.** A reported optimum of the shortest path problem is a flow of one unit from `s` to `t`; the arcs
it uses contain a walk from `s` to `t`, each such walk is as long as the cost of the flow, and no walk from
`s` to `t` is shorter. -/
theorem C49_shortest_path (x : SVec (Fin (ShortestPath.new A s t).matrix.nrEdges))
    (hx : solveRelaxation inv rule fuel (ShortestPath.new A s t).toProvider .none =
      .ok (.finiteOptimum x)) :
    let flow : Fin (arcs A).length → ℚ := fun k => SVec.val x (k.cast ShortestPath.nrEdges_eq)
    UnitFlow (arcs A) A.major s t flow ∧
    (∃ p, Walk (arcs A) s t p ∧ ∀ k ∈ p, 0 < flow k) ∧
    (∀ p, Walk (arcs A) s t p → (∀ k ∈ p, 0 < flow k) →
      walkLength (arcs A) p = flowCost (arcs A) flow) ∧
    ∀ p, Walk (arcs A) s t p → flowCost (arcs A) flow ≤ walkLength (arcs A) p := by
  intro flow
  have hok := ShortestPath.ok (t := t) hA hs
  have h1 := (ShortestPath.feasible_iff hA hs ht hst _).1
    (C01_optimum_feasible inv rule fuel _ hok .none trivial x hx)
  have h2 : ∀ g, UnitFlow (arcs A) A.major s t g → flowCost (arcs A) flow ≤ flowCost (arcs A) g := by
    intro g hg
    have := C02_optimum_optimal inv rule fuel _ hok .none trivial x hx
      (fun j => g (j.cast ShortestPath.nrEdges_eq.symm))
      ((ShortestPath.feasible_iff hA hs ht hst _).2 hg)
    rwa [ShortestPath.objective_eq, ShortestPath.objective_eq] at this
  refine ⟨h1, ?_, ?_, ?_⟩
  · exact exists_walk hst ht (fun a ha => ⟨(arc_ok hA ha).1, (arc_ok hA ha).2.1⟩) h1
  · exact fun p hp hpos => walk_optimal hst ht h1 h2 hp hpos
  · intro p hp
    rw [← walk_cost hp]
    exact h2 _ (walk_unitFlow hst ht hp)

/-- If the shortest path problem is reported to be infeasible, there is no walk from `s` to `t`. -/
theorem C49_infeasible
    (hx : solveRelaxation inv rule fuel (ShortestPath.new A s t).toProvider .none = .ok .infeasible) :
    ¬∃ p, Walk (arcs A) s t p := by
  rintro ⟨p, hp⟩
  exact C04_infeasible_correct inv rule fuel _ (ShortestPath.ok hA hs) .none trivial hx
    (fun j => walkFlow p (j.cast ShortestPath.nrEdges_eq.symm))
    ((ShortestPath.feasible_iff hA hs ht hst _).2 (walk_unitFlow hst ht hp))

/-- The shortest path problem is reported to be unbounded only if some arc has a negative length. -/
theorem C49_unbounded
    (hx : solveRelaxation inv rule fuel (ShortestPath.new A s t).toProvider .none = .ok .unbounded) :
    ∃ a ∈ arcs A, a.value < 0 := by
  by_contra hc
  push Not at hc
  obtain ⟨x, h1, h2⟩ := C03_unbounded_correct inv rule fuel _ (ShortestPath.ok (t := t) hA hs) .none trivial
    hx 0
  rw [ShortestPath.objective_eq] at h2
  have : 0 ≤ flowCost (arcs A) fun k => x (k.cast ShortestPath.nrEdges_eq) :=
    Finset.sum_nonneg fun k _ => mul_nonneg (hc _ (List.getElem_mem k.2)) (h1.2 _)
  linarith

end

/-- The example in shortest_path.rs: the walk along arcs 1 and 4 is a shortest one. -/
example : ∀ p, Walk (arcs Example.graph) 0 3 p → 3 ≤ walkLength (arcs Example.graph) p := by
  intro p hp
  have hx : solveRelaxation .rows .steepestDescentAlongObjective 30
      (ShortestPath.new Example.graph 0 3).toProvider .none =
        .ok (.finiteOptimum [((1 : Fin 5), 1), ((4 : Fin 5), 1)]) := by decide +kernel
  have := (C49_shortest_path Example.graph_ok (by decide) (by decide) (by decide) _ _ _ _ hx).2.2.2 p hp
  exact le_trans (le_of_eq (by decide +kernel)) this

/-! ### C50: maximum flows -/

section

variable {A : SparseMatrix} (hA : Adjacency A) {s t : ℕ} (hs : s < A.major) (ht : t < A.major)
  (hst : s ≠ t) (hcap : ∀ e ∈ arcs A, 0 ≤ e.value)
  (hcon : ∀ v < A.major,
    Relation.EqvGen (fun a b => ∃ e ∈ arcs A, e.source = a ∧ e.target = b) v s ∨
    Relation.EqvGen (fun a b => ∃ e ∈ arcs A, e.source = a ∧ e.target = b) v t)
  (inv : InverseName) (rule : RuleName) (fuel : ℕ)

include hA hs ht hst hcap hcon

/-- What the problem of the example maximises: in a graph of which every vertex is connected to `s` or `t`, a
reported optimum is a flow within the capacities, and no other one has more that leaves `s`, not counting what
comes back. -/
theorem C50_outflow (x : SVec (Fin (MaxFlow.new A s t).nrColumns))
    (hx : solveRelaxation inv rule fuel (MaxFlow.new A s t).toProvider (MaxFlow.new A s t).initialBasis =
      .ok (.finiteOptimum x)) :
    let flow : Fin (arcs A).length → ℚ := fun k => SVec.val x (MaxFlow.arcColumn k)
    CapacityFlow (arcs A) A.major s t flow ∧
    ∀ g, CapacityFlow (arcs A) A.major s t g → outflow (arcs A) g s ≤ outflow (arcs A) flow s := by
  intro flow
  have hok := MaxFlow.ok hA hs ht hst hcap hcon
  have h1 := (MaxFlow.feasible_iff hA hs ht hst _).1
    (C01_optimum_feasible inv rule fuel _ hok _ MaxFlow.start_ok x hx)
  refine ⟨h1.1, fun g hg => ?_⟩
  let y : Fin (MaxFlow.new A s t).nrColumns → ℚ := fun j =>
    if h : j.val < (arcs A).length then g ⟨j.val, h⟩
    else if h : j.val - (arcs A).length < (arcs A).length then
      (arcs A)[j.val - (arcs A).length].value - g ⟨j.val - (arcs A).length, h⟩ else 0
  have ha : ∀ k : Fin (arcs A).length, y (MaxFlow.arcColumn k) = g k := fun k => dif_pos k.2
  have hb : ∀ k : Fin (arcs A).length, y (MaxFlow.slackColumn k) = (arcs A)[k].value - g k := by
    intro k
    have e : (MaxFlow.slackColumn (A := A) (s := s) (t := t) k).val = (arcs A).length + k :=
      congrArg (· + k.val) (MaxFlow.nrEdges_eq (s := s) (t := t)).symm
    simp only [y, e]
    rw [dif_neg (by omega), dif_pos (by omega)]
    simp
  have h2 := C02_optimum_optimal inv rule fuel _ hok _ MaxFlow.start_ok x hx y
    ((MaxFlow.feasible_iff hA hs ht hst _).2 ⟨by simpa only [ha] using hg, fun k => by rw [hb, ha]⟩)
  rw [MaxFlow.objective_eq, MaxFlow.objective_eq] at h2
  simp only [ha] at h2
  exact neg_le_neg_iff.1 h2

/-- **C50**, partial: in a graph of which every vertex is connected to `s` or `t`, and without arcs into `s`, a
reported optimum is a flow within the capacities of the greatest value.

Missing: graphs with arcs into `s` or with other components, see `C50_not_net` and `C50_not_isolated`. -/
theorem C50_max_flow_partial (hin : ∀ e ∈ arcs A, e.target ≠ s)
    (x : SVec (Fin (MaxFlow.new A s t).nrColumns))
    (hx : solveRelaxation inv rule fuel (MaxFlow.new A s t).toProvider (MaxFlow.new A s t).initialBasis =
      .ok (.finiteOptimum x)) :
    let flow : Fin (arcs A).length → ℚ := fun k => SVec.val x (MaxFlow.arcColumn k)
    CapacityFlow (arcs A) A.major s t flow ∧
    ∀ g, CapacityFlow (arcs A) A.major s t g →
      outflow (arcs A) g s - inflow (arcs A) g s ≤
        outflow (arcs A) flow s - inflow (arcs A) flow s := by
  intro flow
  obtain ⟨h1, h2⟩ := C50_outflow hA hs ht hst hcap hcon inv rule fuel x hx
  have hz : ∀ f, inflow (arcs A) f s = 0 := fun f =>
    Finset.sum_eq_zero fun k _ => if_neg (hin _ (List.getElem_mem k.2))
  refine ⟨h1, fun g hg => ?_⟩
  rw [hz, hz, sub_zero, sub_zero]
  exact h2 g hg

/-- For such graphs, the maximum flow problem is never reported to be infeasible or unbounded. -/
theorem C50_verdict :
    solveRelaxation inv rule fuel (MaxFlow.new A s t).toProvider (MaxFlow.new A s t).initialBasis ≠
      .ok .infeasible ∧
    solveRelaxation inv rule fuel (MaxFlow.new A s t).toProvider (MaxFlow.new A s t).initialBasis ≠
      .ok .unbounded := by
  have hok := MaxFlow.ok hA hs ht hst hcap hcon
  constructor
  · intro hx
    refine C04_infeasible_correct inv rule fuel _ hok _ MaxFlow.start_ok hx
      (fun j => if h : j.val - (arcs A).length < (arcs A).length then
        if j.val < (arcs A).length then 0 else (arcs A)[j.val - (arcs A).length].value else 0) ?_
    have ha : ∀ k : Fin (arcs A).length, (MaxFlow.arcColumn (s := s) (t := t) k).val = k := fun k => rfl
    have hb : ∀ k : Fin (arcs A).length,
        (MaxFlow.slackColumn (s := s) (t := t) k).val = (arcs A).length + k :=
      fun k => congrArg (· + k.val) (MaxFlow.nrEdges_eq (s := s) (t := t)).symm
    rw [MaxFlow.feasible_iff hA hs ht hst]
    simp only [ha, hb]
    have h0 : ∀ k : Fin (arcs A).length, (if h : k.val - (arcs A).length < (arcs A).length then
        if k.val < (arcs A).length then (0 : ℚ) else (arcs A)[k.val - (arcs A).length].value else 0) = 0 := by
      intro k
      split
      · rw [if_pos k.2]
      · rfl
    simp only [h0]
    refine ⟨⟨by simp, fun k => hcap _ (List.getElem_mem k.2), by simp [inflow, outflow]⟩, fun k => ?_⟩
    rw [dif_pos (by omega), if_neg (by omega)]
    simp
  · intro hx
    obtain ⟨x, h1, h2⟩ := C03_unbounded_correct inv rule fuel _ hok _ MaxFlow.start_ok hx
      (-∑ k : Fin (arcs A).length, (arcs A)[k].value)
    rw [MaxFlow.objective_eq] at h2
    have h3 := ((MaxFlow.feasible_iff hA hs ht hst _).1 h1).1
    have : outflow (arcs A) (fun k => x (MaxFlow.arcColumn k)) s ≤
        ∑ k : Fin (arcs A).length, (arcs A)[k].value := by
      refine Finset.sum_le_sum fun k _ => ?_
      split
      · exact h3.capacity k
      · exact hcap _ (List.getElem_mem k.2)
    linarith

end

namespace Example

/-- The graph of the example in max_flow.rs. -/
def pipes : SparseMatrix := ⟨[[(1, 2), (2, 1)], [(2, 1), (3, 1)], [(3, 2)], []], 4, 4⟩

theorem pipes_ok : Adjacency pipes :=
  ⟨rfl, by decide +kernel, by decide +kernel, by decide +kernel⟩

theorem pipes_connected (v : ℕ) (hv : v < 4) :
    Relation.EqvGen (fun a b => ∃ e ∈ arcs pipes, e.source = a ∧ e.target = b) v 0 ∨
    Relation.EqvGen (fun a b => ∃ e ∈ arcs pipes, e.source = a ∧ e.target = b) v 3 := by
  have h : ∀ w < 3, ∃ e ∈ arcs pipes, e.source = w ∧ e.target = 3 ∨ w = 0 := by decide +kernel
  by_cases h3 : v = 3
  · exact Or.inr (h3 ▸ .refl _)
  · obtain ⟨e, he, h | h⟩ := h v (by omega)
    · exact Or.inr (.rel _ _ ⟨e, he, h⟩)
    · exact Or.inl (h ▸ .refl _)

/-- A graph with an arc from `a = 1` back into `s = 2`. -/
def back : SparseMatrix := ⟨[[], [(0, 1), (2, 1)], [(1, 1)]], 3, 3⟩

theorem back_ok : Adjacency back := ⟨rfl, by decide +kernel, by decide +kernel, by decide +kernel⟩

theorem back_connected (v : ℕ) (hv : v < 3) :
    Relation.EqvGen (fun a b => ∃ e ∈ arcs back, e.source = a ∧ e.target = b) v 2 ∨
    Relation.EqvGen (fun a b => ∃ e ∈ arcs back, e.source = a ∧ e.target = b) v 0 := by
  match v with
  | 0 => exact Or.inr (.refl _)
  | 1 => exact Or.inl (.rel _ _ (by decide +kernel))
  | 2 => exact Or.inl (.refl _)

/-- A graph with an isolated vertex 2. -/
def isolated : SparseMatrix := ⟨[[(1, 5)], [], []], 3, 3⟩

theorem isolated_ok : Adjacency isolated :=
  ⟨rfl, by decide +kernel, by decide +kernel, by decide +kernel⟩

/-- The maximum flow problem from 0 to 1 in this graph. -/
def isolatedProvider : Provider 2 2 := (MaxFlow.new isolated 0 1).toProvider

end Example

/-- The example in max_flow.rs: no flow has a greater value than 3. -/
example (g : Fin 5 → ℚ) (hg : CapacityFlow (arcs Example.pipes) 4 0 3 g) :
    outflow (arcs Example.pipes) g 0 - inflow (arcs Example.pipes) g 0 ≤ 3 := by
  have hx : solveRelaxation .rows .steepestDescentAlongObjective 30
      (MaxFlow.new Example.pipes 0 3).toProvider (MaxFlow.new Example.pipes 0 3).initialBasis =
        .ok (.finiteOptimum [((0 : Fin 10), 2), ((1 : Fin 10), 1), ((2 : Fin 10), 1), ((3 : Fin 10), 1),
          ((4 : Fin 10), 2)]) := by decide +kernel
  have := (C50_max_flow_partial Example.pipes_ok (by decide) (by decide) (by decide) (by decide +kernel)
    Example.pipes_connected _ _ _ (by decide +kernel) _ hx).2 g hg
  exact le_trans this (le_of_eq (by decide +kernel))

/-- In a graph with an arc into `s = 2`, no flow has more than 1 that leaves `s`. -/
example (g : Fin 3 → ℚ) (hg : CapacityFlow (arcs Example.back) 3 2 0 g) :
    outflow (arcs Example.back) g 2 ≤ 1 := by
  have hx : solveRelaxation .rows .steepestDescentAlongObjective 30
      (MaxFlow.new Example.back 2 0).toProvider (MaxFlow.new Example.back 2 0).initialBasis =
        .ok (.finiteOptimum [((1 : Fin 6), 1), ((2 : Fin 6), 1), ((3 : Fin 6), 1)]) := by decide +kernel
  have := (C50_outflow Example.back_ok (by decide) (by decide) (by decide) (by decide +kernel)
    Example.back_connected _ _ _ _ hx).2 g hg
  exact le_trans this (le_of_eq (by decide +kernel))

/-- **C50 is false** with arcs into `s`: the amount that leaves `s` is maximised, so that a circulation through
`s` is reported to be optimal. The value of the reported flow is 0, that of another one is 1. -/
theorem C50_not_net : Adjacency Example.back ∧ ∃ x,
    solveRelaxation .rows .steepestDescentAlongObjective 30
      (MaxFlow.new Example.back 2 0).toProvider (MaxFlow.new Example.back 2 0).initialBasis =
        .ok (.finiteOptimum x) ∧
    outflow (arcs Example.back) (fun k => SVec.val x (MaxFlow.arcColumn k)) 2 -
      inflow (arcs Example.back) (fun k => SVec.val x (MaxFlow.arcColumn k)) 2 = 0 ∧
    ∃ g, CapacityFlow (arcs Example.back) 3 2 0 g ∧
      outflow (arcs Example.back) g 2 - inflow (arcs Example.back) g 2 = 1 :=
  ⟨Example.back_ok, [((1 : Fin 6), 1), ((2 : Fin 6), 1), ((3 : Fin 6), 1)], by decide +kernel,
    by decide +kernel, (![1, 0, 1] : Fin 3 → ℚ),
    ⟨fun (k : Fin 3) => by revert k; decide +kernel, fun (k : Fin 3) => by revert k; decide +kernel,
      by decide +kernel⟩, by decide +kernel⟩

/-- **C50 is false** with an isolated vertex: phase one finds the row of this vertex to be redundant, and
the columns without this row still have the old index of the slack, which is out of range. -/
theorem C50_not_isolated : Adjacency Example.isolated ∧
    (∃ carry basis, PhaseOneResult (BI := InverseName.rows.type) (nrArtificial := 1)
      RuleName.steepestDescentAlongObjective.type Example.isolatedProvider
      (MaxFlow.new Example.isolated 0 1).initialBasis
      (.feasible (.deficient [(0 : Fin 2)]) carry basis)) ∧
    keptLen [(0 : Fin 2)] = 1 ∧
    ((MaxFlow.new Example.isolated 0 1).column 0).tuples = [(1, 1)] ∧
    (((MaxFlow.new Example.isolated 0 1).column 0).intoFiltered [0]).tuples = [(1, 1)] := by
  refine ⟨Example.isolated_ok, ?_, by decide +kernel, by decide +kernel, by decide +kernel⟩
  have h : (do
      let t ← (Tableau.newPartially Example.isolatedProvider
        [((1 : Fin 2), (1 : Fin 2))] : Res (Tableau InverseName.rows.type 2 (1 + 2)))
      let f ← phaseOne RuleName.steepestDescentAlongObjective.type 10 t
      pure (match f with | .feasible (.deficient rows) _ _ => decide (rows = [0]) | _ => false))
      = (.ok true : Res Bool) := by decide +kernel
  obtain ⟨t, h1, h⟩ := bind_eq_ok h
  obtain ⟨f, h2, h⟩ := bind_eq_ok h
  match f, h2, h with
  | .feasible (.deficient rows) carry basis, h2, h =>
    have hr : rows = [0] := by
      injection h with h
      simpa using h
    subst hr
    exact ⟨carry, basis, phaseOneResult_partially h1 h2⟩

end Relp
