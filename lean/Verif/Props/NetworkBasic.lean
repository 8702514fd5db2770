import Verif.Props.Network
import Verif.Props.Termination
import Verif.Proof.NetworkBasic

/-!
# Properties of the network problems: paths, integral flows and cuts (C49, C50)

`Walk`, `CapacityFlow` and `cutCapacity` are defined in `Verif/Spec/Network.lean`.
-/

namespace Relp

open Spec Network

section

variable {A : SparseMatrix} (hA : Adjacency A) {s t : ℕ} (hs : s < A.major) (ht : t < A.major)
  (hst : s ≠ t) (inv : InverseName) (rule : RuleName) (fuel : ℕ)

include hA hs ht hst

/-- **C49.** The reported optimum of the shortest path problem is a path: there is a shortest walk from `s` to
`t`, which visits no vertex twice, and the flow is 1 on its arcs and 0 on all others. -/
theorem C49_path (x : SVec (Fin (ShortestPath.new A s t).matrix.nrEdges))
    (hx : solveRelaxation inv rule fuel (ShortestPath.new A s t).toProvider .none =
      .ok (.finiteOptimum x)) :
    ∃ p, Walk (arcs A) s t p ∧ (s :: p.map fun k => (arcs A)[k].target).Nodup ∧
      (∀ k : Fin (arcs A).length, SVec.val x (k.cast ShortestPath.nrEdges_eq) = if k ∈ p then 1 else 0) ∧
      ∀ q, Walk (arcs A) s t q → walkLength (arcs A) p ≤ walkLength (arcs A) q := by
  have hok := ShortestPath.ok (t := t) hA hs
  have hf := C01_optimum_feasible inv rule fuel _ hok .none trivial x hx
  obtain ⟨h1, -, h3, h4⟩ := C49_shortest_path hA hs ht hst inv rule fuel x hx
  have hi := (C06_optimum_basic inv rule fuel _ hok .none trivial x hx).2.2.2
  obtain ⟨p, hp1, hp2, hp3⟩ := path_of_unique hst ht
    (fun a ha => ⟨(arc_ok hA ha).1, (arc_ok hA ha).2.1⟩) h1 (fun p hp hpos => by
      have := feasible_unique _ hf
        (y := fun j => walkFlow p (j.cast ShortestPath.nrEdges_eq.symm))
        ((ShortestPath.feasible_iff hA hs ht hst _).2 (walk_unitFlow hst ht hp)) hi (fun j hj => by
          unfold walkFlow
          rw [List.count_eq_zero_of_not_mem]
          · norm_num
          · intro hm
            have := hpos _ hm
            exact absurd hj this.ne')
      funext k
      exact congrFun this (k.cast ShortestPath.nrEdges_eq))
  refine ⟨p, hp1, hp2, hp3, fun q hq => ?_⟩
  rw [h3 p hp1 fun k hk => lt_of_lt_of_eq one_pos ((hp3 k).trans (if_pos hk)).symm]
  exact h4 q hq

/-- **C49.** The shortest path problem is reported to be unbounded only if there is a closed walk of negative
length. -/
theorem C49_negative_cycle
    (hx : solveRelaxation inv rule fuel (ShortestPath.new A s t).toProvider .none = .ok .unbounded) :
    ∃ v p, Walk (arcs A) v v p ∧ walkLength (arcs A) p < 0 := by
  by_contra hc
  push Not at hc
  obtain ⟨L, hL⟩ := flowCost_bounded hc
    (fun a ha => ⟨(arc_ok hA ha).1, (arc_ok hA ha).2.1⟩) ht hst
  obtain ⟨x, h1, h2⟩ := C03_unbounded_correct inv rule fuel _ (ShortestPath.ok (t := t) hA hs) .none trivial
    hx L
  rw [ShortestPath.objective_eq] at h2
  exact absurd (hL _ ((ShortestPath.feasible_iff hA hs ht hst _).1 h1)) (not_le.2 h2)

/-- An optimum is reported only if no closed walk has a negative length. -/
theorem C49_no_negative_cycle (x : SVec (Fin (ShortestPath.new A s t).matrix.nrEdges))
    (hx : solveRelaxation inv rule fuel (ShortestPath.new A s t).toProvider .none =
      .ok (.finiteOptimum x)) (v : ℕ) (p : List (Fin (arcs A).length)) (hp : Walk (arcs A) v v p) :
    0 ≤ walkLength (arcs A) p := by
  have hok := ShortestPath.ok (t := t) hA hs
  have h1 := (C49_shortest_path hA hs ht hst inv rule fuel x hx).1
  have h2 := C02_optimum_optimal inv rule fuel _ hok .none trivial x hx
    (fun j => SVec.val x j + walkFlow p (j.cast ShortestPath.nrEdges_eq.symm))
    ((ShortestPath.feasible_iff hA hs ht hst _).2 (by
      rw [unitFlow_iff hst ht] at h1 ⊢
      refine ⟨fun k => add_nonneg (h1.1 k) (walkFlow_nonneg p k), fun w hw hws => ?_⟩
      have h3 := h1.2 w hw hws
      have h4 := walk_excess hp w
      rw [sub_self] at h4
      have h5 := congrArg₂ (· + ·) h3 h4
      rw [← Finset.sum_add_distrib, add_zero] at h5
      rw [← h5]
      exact Finset.sum_congr rfl fun k _ => mul_add _ _ _))
  rw [ShortestPath.objective_eq, ShortestPath.objective_eq] at h2
  have h5 : flowCost (arcs A) (fun k => SVec.val x (k.cast ShortestPath.nrEdges_eq) + walkFlow p k) =
      flowCost (arcs A) (fun k => SVec.val x (k.cast ShortestPath.nrEdges_eq)) + walkLength (arcs A) p := by
    rw [← walk_cost hp]
    unfold flowCost
    rw [← Finset.sum_add_distrib]
    exact Finset.sum_congr rfl fun k _ => mul_add _ _ _
  have h6 := h2.trans (le_of_eq h5)
  linarith

/-- **C49.** With the rule `FirstProfitable` and the row-wise basis inverse, there always is an answer: infeasible
exactly if there is no walk from `s` to `t`, unbounded exactly if there is one and a closed walk of negative length,
and an optimum exactly if there is one and no closed walk of negative length. -/
theorem C49_answers : ∃ N, ∀ fuel ≥ N,
    let answer := solveRelaxation .rows .firstProfitable fuel (ShortestPath.new A s t).toProvider .none
    (answer = .ok .infeasible ↔ ¬∃ p, Walk (arcs A) s t p) ∧
    (answer = .ok .unbounded ↔
      (∃ p, Walk (arcs A) s t p) ∧ ∃ v p, Walk (arcs A) v v p ∧ walkLength (arcs A) p < 0) ∧
    ((∃ x, answer = .ok (.finiteOptimum x)) ↔
      (∃ p, Walk (arcs A) s t p) ∧ ∀ v p, Walk (arcs A) v v p → 0 ≤ walkLength (arcs A) p) := by
  have hok := ShortestPath.ok (t := t) hA hs
  have hm : (ShortestPath.new A s t).nrRows ≠ 0 := by
    rw [ShortestPath.nrRows_eq hs]
    omega
  obtain ⟨result, h, -⟩ := C07_first_profitable_answers _ hok .none trivial hm
  refine ⟨((ShortestPath.new A s t).nrRows + (ShortestPath.new A s t).matrix.nrEdges) ^
    (ShortestPath.new A s t).nrRows + 1, fun fuel hf => ?_⟩
  have hr := h fuel (Nat.lt_of_succ_le hf)
  intro answer
  have ha : answer = .ok result := hr
  rw [ha]
  cases result with
  | infeasible =>
    have h1 := C49_infeasible hA hs ht hst .rows .firstProfitable fuel hr
    refine ⟨⟨fun _ => h1, fun _ => rfl⟩, ⟨nofun, fun h => absurd h.1 h1⟩, ⟨?_, fun h => absurd h.1 h1⟩⟩
    rintro ⟨x, hx⟩
    cases hx
  | unbounded =>
    have h1 := C49_negative_cycle hA hs ht hst .rows .firstProfitable fuel hr
    have h2 : ∃ p, Walk (arcs A) s t p := by
      obtain ⟨x, h3, -⟩ := C03_unbounded_correct .rows .firstProfitable fuel _ hok .none trivial hr 0
      obtain ⟨p, hp, -⟩ := exists_walk hst ht (fun a ha => ⟨(arc_ok hA ha).1, (arc_ok hA ha).2.1⟩)
        ((ShortestPath.feasible_iff hA hs ht hst _).1 h3)
      exact ⟨p, hp⟩
    refine ⟨⟨nofun, fun h => absurd h2 h⟩, ⟨fun _ => ⟨h2, h1⟩, fun _ => rfl⟩, ⟨?_, fun h => ?_⟩⟩
    · rintro ⟨x, hx⟩
      cases hx
    · obtain ⟨v, p, h3, h4⟩ := h1
      exact absurd (h.2 v p h3) (not_le.2 h4)
  | finiteOptimum x =>
    have h1 := C49_no_negative_cycle hA hs ht hst .rows .firstProfitable fuel x hr
    obtain ⟨p, hp, -⟩ := C49_path hA hs ht hst .rows .firstProfitable fuel x hr
    refine ⟨⟨nofun, fun h => absurd ⟨p, hp⟩ h⟩, ⟨nofun, ?_⟩, ⟨fun _ => ⟨⟨p, hp⟩, h1⟩, fun _ => ⟨x, rfl⟩⟩⟩
    rintro ⟨-, v, q, h3, h4⟩
    exact absurd (h1 v q h3) (not_le.2 h4)

end

namespace Example

/-- Three vertices, with a closed walk of length -1 through 1 and 2. -/
def negative : SparseMatrix := ⟨[[(1, 1)], [(2, 1)], [(1, -2)]], 3, 3⟩

theorem negative_ok : Adjacency negative :=
  ⟨rfl, by decide +kernel, by decide +kernel, by decide +kernel⟩

end Example

/-- A graph for which unbounded is reported. -/
example : ∃ v p, Walk (arcs Example.negative) v v p ∧ walkLength (arcs Example.negative) p < 0 :=
  C49_negative_cycle Example.negative_ok (s := 0) (t := 1) (by decide) (by decide) (by decide) .rows
    .firstProfitable 30 (by decide +kernel)

/-- In this graph, unbounded is reported exactly because of a walk from 0 to 1 and the closed walk. -/
example : ∃ N, ∀ fuel ≥ N, solveRelaxation .rows .firstProfitable fuel
    (ShortestPath.new Example.negative 0 1).toProvider .none = .ok .unbounded := by
  obtain ⟨N, h⟩ := C49_answers Example.negative_ok (s := 0) (t := 1) (by decide) (by decide) (by decide)
  refine ⟨N, fun fuel hf => (h fuel hf).2.1.2 ⟨⟨[(0 : Fin 3)], ?_⟩, 1, [(1 : Fin 3), (2 : Fin 3)], ?_,
    by decide +kernel⟩⟩
  · exact Walk.cons (E := arcs Example.negative) (0 : Fin 3) (Walk.nil 1)
  · exact Walk.cons (E := arcs Example.negative) (1 : Fin 3)
      (Walk.cons (E := arcs Example.negative) (2 : Fin 3) (Walk.nil 1))

/-- The example in shortest_path.rs: the reported flow is a path. -/
example : ∃ p, Walk (arcs Example.graph) 0 3 p ∧
    (0 :: p.map fun k => (arcs Example.graph)[k].target).Nodup ∧ walkLength (arcs Example.graph) p ≤ 3 := by
  have hx : solveRelaxation .rows .steepestDescentAlongObjective 30
      (ShortestPath.new Example.graph 0 3).toProvider .none =
        .ok (.finiteOptimum [((1 : Fin 5), 1), ((4 : Fin 5), 1)]) := by decide +kernel
  obtain ⟨p, h1, h2, -, h4⟩ := C49_path Example.graph_ok (by decide) (by decide) (by decide) _ _ _ _ hx
  refine ⟨p, h1, h2, (h4 [(1 : Fin 5), (4 : Fin 5)] ?_).trans (le_of_eq (by decide +kernel))⟩
  exact Walk.cons (E := arcs Example.graph) (1 : Fin 5)
    (Walk.cons (E := arcs Example.graph) (4 : Fin 5) (Walk.nil 3))

section

variable {A : SparseMatrix} (hA : Adjacency A) {s t : ℕ} (hs : s < A.major) (ht : t < A.major)
  (hst : s ≠ t) (hcap : ∀ e ∈ arcs A, 0 ≤ e.value)
  (hcon : ∀ v < A.major,
    Relation.EqvGen (fun a b => ∃ e ∈ arcs A, e.source = a ∧ e.target = b) v s ∨
    Relation.EqvGen (fun a b => ∃ e ∈ arcs A, e.source = a ∧ e.target = b) v t)
  (inv : InverseName) (rule : RuleName) (fuel : ℕ)

include hA hs ht hst hcap hcon

/-- **C50.** If all capacities are integers, so are the amounts of a reported flow. -/
theorem C50_integral (hint : ∀ e ∈ arcs A, ∃ z : ℤ, e.value = z)
    (x : SVec (Fin (MaxFlow.new A s t).nrColumns))
    (hx : solveRelaxation inv rule fuel (MaxFlow.new A s t).toProvider (MaxFlow.new A s t).initialBasis =
      .ok (.finiteOptimum x)) (k : Fin (arcs A).length) :
    ∃ z : ℤ, SVec.val x (MaxFlow.arcColumn k) = z := by
  classical
  have hok := MaxFlow.ok hA hs ht hst hcap hcon
  have hfx := C01_optimum_feasible inv rule fuel _ hok _ MaxFlow.start_ok x hx
  have hi := (C06_optimum_basic inv rule fuel _ hok _ MaxFlow.start_ok x hx).2.2.2
  obtain ⟨hf, hsl⟩ := (MaxFlow.feasible_iff hA hs ht hst _).1 hfx
  set f : Fin (arcs A).length → ℚ := fun k => SVec.val x (MaxFlow.arcColumn k) with hfdef
  let F : Finset (Fin (arcs A).length) := Finset.univ.filter fun k => ¬∃ z : ℤ, f k = z
  have hstrict : ∀ k ∈ F, 0 < f k ∧ f k < (arcs A)[k].value := by
    intro k hk
    have hk := (Finset.mem_filter.1 hk).2
    refine ⟨lt_of_le_of_ne (hf.nonneg k) fun h => hk ⟨0, by rw [← h]; norm_num⟩,
      lt_of_le_of_ne (hf.capacity k) fun h => hk ?_⟩
    obtain ⟨z, hz⟩ := hint _ (List.getElem_mem k.2)
    exact ⟨z, h.trans hz⟩
  let V : Finset ℕ := (Finset.range A.major).filter fun v => v ≠ s ∧ v ≠ t
  have hV : ∀ v, v ∈ V ↔ v < A.major ∧ v ≠ s ∧ v ≠ t := fun v => by
    rw [Finset.mem_filter, Finset.mem_range]
  have hind : Independent V F := by
    intro d h1 h2
    obtain ⟨ε, hε, h3⟩ := exists_small d
      (fun k => if k ∈ F then min (f k) ((arcs A)[k].value - f k) else 1) (fun k => by
        split
        · next h => exact lt_min (hstrict k h).1 (sub_pos.2 (hstrict k h).2)
        · exact one_pos)
    have h4 : ∀ k ∈ F, ε * |d k| ≤ f k ∧ ε * |d k| ≤ (arcs A)[k].value - f k := by
      intro k hk
      have := h3 k
      rw [if_pos hk] at this
      exact le_min_iff.1 this
    have hg : CapacityFlow (arcs A) A.major s t fun k => f k + ε * d k := by
      refine ⟨fun k => ?_, fun k => ?_, fun v hv hvs hvt => ?_⟩
      · by_cases hk : k ∈ F
        · have h5 := (h4 k hk).1
          have h6 := mul_le_mul_of_nonneg_left (neg_abs_le (d k)) hε.le
          linarith
        · rw [h1 k hk, mul_zero, add_zero]
          exact hf.nonneg k
      · by_cases hk : k ∈ F
        · have h5 := (h4 k hk).2
          have h6 := mul_le_mul_of_nonneg_left (le_abs_self (d k)) hε.le
          linarith
        · rw [h1 k hk, mul_zero, add_zero]
          exact hf.capacity k
      · have := excess_add f d ε v
        rw [h2 v ((hV v).2 ⟨hv, hvs, hvt⟩), hf.conserved v hv hvs hvt] at this
        linarith
    let y : Fin (MaxFlow.new A s t).nrColumns → ℚ := fun j =>
      if h : j.val < (arcs A).length then f ⟨j.val, h⟩ + ε * d ⟨j.val, h⟩
      else if h : j.val - (arcs A).length < (arcs A).length then
        (arcs A)[j.val - (arcs A).length].value -
          (f ⟨j.val - (arcs A).length, h⟩ + ε * d ⟨j.val - (arcs A).length, h⟩) else 0
    have ha : ∀ k : Fin (arcs A).length, y (MaxFlow.arcColumn k) = f k + ε * d k := fun k => dif_pos k.2
    have hb : ∀ k : Fin (arcs A).length,
        y (MaxFlow.slackColumn k) = (arcs A)[k].value - (f k + ε * d k) := by
      intro k
      have e : (MaxFlow.slackColumn (A := A) (s := s) (t := t) k).val = (arcs A).length + k :=
        congrArg (· + k.val) (MaxFlow.nrEdges_eq (s := s) (t := t)).symm
      simp only [y, e]
      rw [dif_neg (by omega), dif_pos (by omega)]
      simp
    have hyx : y = fun j => SVec.val x j := by
      refine feasible_unique _ hfx
        ((MaxFlow.feasible_iff hA hs ht hst _).2 ⟨by simpa only [ha] using hg, fun k => by rw [hb, ha]⟩) hi ?_
      rw [MaxFlow.columns_cases]
      refine ⟨fun k hk => ?_, fun k hk => ?_⟩
      · have hkF : k ∉ F := fun h => (hstrict k h).1.ne' hk
        have hk : f k = 0 := hk
        rw [ha, h1 k hkF, mul_zero, add_zero, hk]
      · rw [hsl k] at hk
        have hk : (arcs A)[k].value - f k = 0 := hk
        have hkF : k ∉ F := fun h => by
          have := (hstrict k h).2
          linarith
        rw [hb, h1 k hkF, mul_zero, add_zero, hk]
    funext k
    have h5 := congrFun hyx (MaxFlow.arcColumn k)
    rw [ha] at h5
    have h5 : f k + ε * d k = f k := h5
    have h6 : ε * d k = 0 := by linarith
    exact (mul_eq_zero.1 h6).resolve_left hε.ne'
  by_contra hk
  have hkF : k ∈ F := Finset.mem_filter.2 ⟨Finset.mem_univ k, hk⟩
  refine hk (integral_of_independent
    (fun l => (arc_ok hA (List.getElem_mem l.2)).2.2.1) F.card rfl hind f (fun v hv => ?_)
    k hkF)
  obtain ⟨hv1, hv2, hv3⟩ := (hV v).1 hv
  have h1 : ∑ l, entry (arcs A)[l].source (arcs A)[l].target v * f l = 0 := by
    rw [excess_eq, hf.conserved v hv1 hv2 hv3, sub_self]
  rw [← Finset.sum_filter_add_sum_filter_not Finset.univ fun l => ¬∃ z : ℤ, f l = z] at h1
  have h2 : ∃ z : ℤ, ∑ l ∈ Finset.univ.filter (fun l => ¬¬∃ z : ℤ, f l = z),
      entry (arcs A)[l].source (arcs A)[l].target v * f l = z := by
    refine Finset.sum_induction _ (fun q : ℚ => ∃ z : ℤ, q = z) ?_ ⟨0, by norm_num⟩ ?_
    · rintro a b ⟨p, rfl⟩ ⟨q, rfl⟩
      exact ⟨p + q, by push_cast; rfl⟩
    · intro l hl
      obtain ⟨z, hz⟩ := not_not.1 (Finset.mem_filter.1 hl).2
      refine ⟨((if (arcs A)[l].target = v then 1 else 0) - (if (arcs A)[l].source = v then 1 else 0)) * z, ?_⟩
      rw [hz]
      unfold entry
      push_cast
      rfl
  obtain ⟨z, hz⟩ := h2
  refine ⟨-z, ?_⟩
  rw [hz] at h1
  push_cast
  exact eq_neg_of_add_eq_zero_left h1

/-- **C50.** With the rule `FirstProfitable` and the row-wise basis inverse, a flow is always reported. -/
theorem C50_answers : ∃ N, ∀ fuel ≥ N, ∃ x,
    solveRelaxation .rows .firstProfitable fuel (MaxFlow.new A s t).toProvider
      (MaxFlow.new A s t).initialBasis = .ok (.finiteOptimum x) := by
  have hok := MaxFlow.ok hA hs ht hst hcap hcon
  refine ⟨((MaxFlow.new A s t).nrRows + (MaxFlow.new A s t).nrColumns) ^ (MaxFlow.new A s t).nrRows + 1,
    fun fuel hf => ?_⟩
  rcases solveRows_spec .firstProfitable fuel hok MaxFlow.start_ok (fun _ pivots he => by cases he) with
    h | ⟨a, h, -⟩
  · exact absurd h (C07_first_profitable_terminates .rows _ hok _ MaxFlow.start_ok fuel (by omega))
  · have hv := C50_verdict hA hs ht hst hcap hcon .rows .firstProfitable fuel
    cases a with
    | infeasible => exact absurd h hv.1
    | unbounded => exact absurd h hv.2
    | finiteOptimum x => exact ⟨x, h⟩

/-- **C50**, partial: in the graphs of `C50_max_flow_partial`, the value of a reported flow is the least
capacity of a set of vertices with `s` and without `t`.

Missing: graphs with arcs into `s` or with other components, as there. -/
theorem C50_min_cut_partial (hin : ∀ e ∈ arcs A, e.target ≠ s)
    (x : SVec (Fin (MaxFlow.new A s t).nrColumns))
    (hx : solveRelaxation inv rule fuel (MaxFlow.new A s t).toProvider (MaxFlow.new A s t).initialBasis =
      .ok (.finiteOptimum x)) :
    let flow : Fin (arcs A).length → ℚ := fun k => SVec.val x (MaxFlow.arcColumn k)
    let value := outflow (arcs A) flow s - inflow (arcs A) flow s
    (∃ S : Finset ℕ, s ∈ S ∧ t ∉ S ∧ value = cutCapacity (arcs A) S) ∧
      ∀ S : Finset ℕ, s ∈ S → t ∉ S → value ≤ cutCapacity (arcs A) S := by
  obtain ⟨h1, h2⟩ := C50_max_flow_partial hA hs ht hst hcap hcon inv rule fuel hin x hx
  have hE : ∀ a ∈ arcs A, a.source < A.major ∧ a.target < A.major :=
    fun a ha => ⟨(arc_ok hA ha).1, (arc_ok hA ha).2.1⟩
  exact ⟨exists_cut hE hs ht hst h1 h2, fun S h3 h4 => value_le_cut hE h1 hcap h3 h4⟩

end

/-- The example in max_flow.rs: every set with 0 and without 3 has capacity 3 or more. -/
example (S : Finset ℕ) (h0 : 0 ∈ S) (h3 : 3 ∉ S) : 3 ≤ cutCapacity (arcs Example.pipes) S := by
  have hx : solveRelaxation .rows .steepestDescentAlongObjective 30
      (MaxFlow.new Example.pipes 0 3).toProvider (MaxFlow.new Example.pipes 0 3).initialBasis =
        .ok (.finiteOptimum [((0 : Fin 10), 2), ((1 : Fin 10), 1), ((2 : Fin 10), 1), ((3 : Fin 10), 1),
          ((4 : Fin 10), 2)]) := by decide +kernel
  have := (C50_min_cut_partial Example.pipes_ok (by decide) (by decide) (by decide) (by decide +kernel)
    Example.pipes_connected _ _ _ (by decide +kernel) _ hx).2 S h0 h3
  exact le_trans (le_of_eq (by decide +kernel)) this

/-- Its capacities are integers. -/
example : ∀ e ∈ arcs Example.pipes, ∃ z : ℤ, e.value = z := by
  intro e he
  have h : ∀ e ∈ arcs Example.pipes, e.value.den = 1 := by decide +kernel
  exact ⟨e.value.num, ((Rat.den_eq_one_iff _).1 (h e he)).symm⟩

end Relp
