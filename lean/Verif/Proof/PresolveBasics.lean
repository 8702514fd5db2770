import Verif.Spec.Presolve
import Verif.Proof.Sparse
import Verif.Proof.Matrix
import Mathlib.Algebra.BigOperators.Group.List.Lemmas
import Mathlib.Algebra.BigOperators.Group.Finset.Piecewise
import Mathlib.Algebra.BigOperators.Ring.Finset
import Mathlib.Tactic.Ring
import Mathlib.Tactic.Linarith

/-!
# Rows and columns of the index of presolving
-/

namespace Relp

open Finset

namespace Presolve

variable {G : GeneralForm}

/-! ### Lists of tuples with different keys -/

/-- The list has the tuples `(k, f k)` for `k` in `S`. -/
structure Tuples (l : SVec ℕ) (S : Finset ℕ) (f : ℕ → ℚ) : Prop where
  nodup : (l.map (·.1)).Nodup
  mem : ∀ p, p ∈ l ↔ p.1 ∈ S ∧ p.2 = f p.1

namespace Tuples

variable {l : SVec ℕ} {S : Finset ℕ} {f : ℕ → ℚ}

theorem mem_keys (h : Tuples l S f) {k : ℕ} : k ∈ l.map (·.1) ↔ k ∈ S := by
  rw [List.mem_map]
  constructor
  · rintro ⟨p, hp, rfl⟩
    exact ((h.mem p).1 hp).1
  · intro hk
    exact ⟨(k, f k), (h.mem _).2 ⟨hk, rfl⟩, rfl⟩

theorem toFinset (h : Tuples l S f) : (l.map (·.1)).toFinset = S := by
  ext k
  rw [List.mem_toFinset, h.mem_keys]

theorem length (h : Tuples l S f) : l.length = #S := by
  rw [← h.toFinset, List.toFinset_card_of_nodup h.nodup, List.length_map]

theorem eq_map (h : Tuples l S f) : l = (l.map (·.1)).map fun k => (k, f k) := by
  rw [List.map_map]
  conv_lhs => rw [← List.map_id l]
  apply List.map_congr_left
  intro p hp
  have := ((h.mem p).1 hp).2
  exact Prod.ext rfl this

theorem sum (h : Tuples l S f) (g : ℕ × ℚ → ℚ) : (l.map g).sum = ∑ k ∈ S, g (k, f k) := by
  rw [← h.toFinset, List.sum_toFinset _ h.nodup]
  conv_lhs => rw [h.eq_map, List.map_map]
  rfl

theorem filter (h : Tuples l S f) (q : ℕ × ℚ → Bool) :
    Tuples (l.filter q) (S.filter fun k => q (k, f k) = true) f := by
  refine ⟨h.nodup.sublist (List.filter_sublist.map _), fun p => ?_⟩
  rw [List.mem_filter, h.mem, Finset.mem_filter]
  constructor
  · rintro ⟨⟨h1, h2⟩, h3⟩
    exact ⟨⟨h1, by rw [← h2]; exact h3⟩, h2⟩
  · rintro ⟨⟨h1, h3⟩, h2⟩
    exact ⟨⟨h1, h2⟩, by rw [← h2] at h3; exact h3⟩

end Tuples

/-! ### Rows and columns -/

theorem nodup_keys_of_wf {v : SVec ℕ} (hv : SVec.WF v) : (v.map (·.1)).Nodup :=
  (List.pairwise_map.2 (hv.1.imp fun h => ne_of_lt h))

theorem column_wf (hG : G.Consistent) (j : ℕ) : SVec.WF (column G j) := by
  unfold column
  by_cases hj : j < G.constraints.data.length
  · rw [List.getD_eq_getElem?_getD, List.getElem?_eq_getElem hj]
    exact hG.wf _ (List.getElem_mem hj)
  · rw [List.getD_eq_getElem?_getD, List.getElem?_eq_none (by omega)]
    exact SVec.WF.nil

theorem mem_column (hG : G.Consistent) {j : ℕ} {p : ℕ × ℚ} :
    p ∈ column G j ↔ p.2 = coef G p.1 j ∧ coef G p.1 j ≠ 0 := by
  have := SVec.mem_iff (column_wf hG j) p.1 p.2
  rw [this]
  constructor
  · rintro ⟨h1, h2⟩
    exact ⟨h1.symm, fun h => h2 (h1.symm.trans h)⟩
  · rintro ⟨h1, h2⟩
    exact ⟨h1.symm, h1 ▸ h2⟩

theorem coef_row_lt (hG : G.Consistent) {i j : ℕ} (h : coef G i j ≠ 0) : i < G.constraintTypes.length := by
  have : (i, coef G i j) ∈ column G j := (mem_column hG).2 ⟨rfl, h⟩
  unfold column at this
  by_cases hj : j < G.constraints.data.length
  · rw [List.getD_eq_getElem?_getD, List.getElem?_eq_getElem hj] at this
    exact hG.inRange _ (List.getElem_mem hj) _ this
  · rw [List.getD_eq_getElem?_getD, List.getElem?_eq_none (by omega)] at this
    cases this

theorem coef_var_lt (hG : G.Consistent) {i j : ℕ} (h : coef G i j ≠ 0) : j < G.vars.length := by
  by_contra hj
  apply h
  unfold coef column
  rw [List.getD_eq_getElem?_getD, List.getElem?_eq_none (by rw [hG.dataLength]; omega)]
  rfl

theorem row_eq (hG : G.Consistent) {i : ℕ} (hi : i < G.constraintTypes.length) :
    row G i = transposedTuples G.constraints.data i := by
  unfold row rows
  rw [fromMinorOrdered_data, List.getD_eq_getElem?_getD, List.getElem?_map,
    List.getElem?_range (by rw [hG.minor]; exact hi)]
  rfl

theorem row_nodup (hG : G.Consistent) {i : ℕ} (hi : i < G.constraintTypes.length) :
    ((row G i).map (·.1)).Nodup := by
  rw [row_eq hG hi]
  exact List.pairwise_map.2 ((transposedTuples_sorted (fun v hv => (hG.wf v hv).1) i).imp
    fun h => ne_of_lt h)

theorem mem_row (hG : G.Consistent) {i : ℕ} (hi : i < G.constraintTypes.length) {p : ℕ × ℚ} :
    p ∈ row G i ↔ p.2 = coef G i p.1 ∧ coef G i p.1 ≠ 0 := by
  rw [row_eq hG hi, show p = (p.1, p.2) from rfl, mem_transposedTuples]
  have key : (i, p.2) ∈ column G p.1 ↔ p.2 = coef G i p.1 ∧ coef G i p.1 ≠ 0 := mem_column hG
  rw [← key]
  unfold column
  rw [List.getD_eq_getElem?_getD]
  constructor
  · rintro ⟨v, h1, h2⟩
    rw [h1]
    exact h2
  · intro h
    match hv : G.constraints.data[p.1]? with
    | none => rw [hv] at h; cases h
    | some v => rw [hv] at h; exact ⟨v, rfl, h⟩

theorem column_tuples (hG : G.Consistent) (j : ℕ) :
    Tuples (column G j) ((range G.constraintTypes.length).filter fun i => coef G i j ≠ 0)
      (fun i => coef G i j) :=
  ⟨nodup_keys_of_wf (column_wf hG j), fun p => by
    rw [mem_column hG, Finset.mem_filter, Finset.mem_range]
    constructor
    · rintro ⟨h1, h2⟩
      exact ⟨⟨coef_row_lt hG h2, h2⟩, h1⟩
    · rintro ⟨⟨_, h2⟩, h1⟩
      exact ⟨h1, h2⟩⟩

theorem row_tuples (hG : G.Consistent) {i : ℕ} (hi : i < G.constraintTypes.length) :
    Tuples (row G i) ((range G.vars.length).filter fun j => coef G i j ≠ 0) (fun j => coef G i j) :=
  ⟨row_nodup hG hi, fun p => by
    rw [mem_row hG hi, Finset.mem_filter, Finset.mem_range]
    constructor
    · rintro ⟨h1, h2⟩
      exact ⟨⟨coef_var_lt hG h2, h2⟩, h1⟩
    · rintro ⟨⟨_, h2⟩, h1⟩
      exact ⟨h1, h2⟩⟩

theorem activeColumn_tuples (hG : G.Consistent) (c : Counters) (j : ℕ) :
    Tuples (activeColumn G c j) (rowsOf G c j) (fun i => coef G i j) := by
  have := (column_tuples hG j).filter fun p => 0 < c.constraint p.1
  rw [Finset.filter_filter] at this
  refine Eq.subst (motive := fun S => Tuples (activeColumn G c j) S fun i => coef G i j) ?_ this
  apply Finset.filter_congr
  intro i _
  rw [decide_eq_true_eq, Nat.pos_iff_ne_zero]

theorem activeRow_tuples (hG : G.Consistent) (c : Counters) {i : ℕ}
    (hi : i < G.constraintTypes.length) :
    Tuples (activeRow G c i) (varsOf G c i) (fun j => coef G i j) := by
  have := (row_tuples hG hi).filter fun p => 0 < c.columns p.1
  rw [Finset.filter_filter] at this
  refine Eq.subst (motive := fun S => Tuples (activeRow G c i) S fun j => coef G i j) ?_ this
  apply Finset.filter_congr
  intro i _
  rw [decide_eq_true_eq, Nat.pos_iff_ne_zero]

theorem mem_rowsOf {c : Counters} {i j : ℕ} :
    i ∈ rowsOf G c j ↔ i < G.constraintTypes.length ∧ coef G i j ≠ 0 ∧ c.constraint i ≠ 0 := by
  simp [rowsOf]

theorem mem_varsOf {c : Counters} {i j : ℕ} :
    j ∈ varsOf G c i ↔ j < G.vars.length ∧ coef G i j ≠ 0 ∧ c.columns j ≠ 0 := by
  simp [varsOf]

/-! ### The state -/

theorem Updates.mem_live {u : Updates} {j : ℕ} :
    j ∈ u.live G ↔ j < G.vars.length ∧ j ∉ u.removedVariables.map (·.1) := by
  simp only [Updates.live, Finset.mem_filter, Finset.mem_range]

namespace Index.WF

variable {s : Index} (h : s.WF G)

include h

theorem mem_live {j : ℕ} : j ∈ s.updates.live G ↔ j < G.vars.length ∧ s.counters.columns j ≠ 0 := by
  rw [Updates.mem_live]
  constructor
  · rintro ⟨h1, h2⟩
    exact ⟨h1, fun h3 => h2 ((h.varsRemoved j h1).2 h3)⟩
  · rintro ⟨h1, h2⟩
    exact ⟨h1, fun h3 => h2 ((h.varsRemoved j h1).1 h3)⟩

theorem value_eq {i : ℕ} (x : ℕ → ℚ) :
    s.updates.value G i x = ∑ j ∈ varsOf G s.counters i, coef G i j * x j := by
  symm
  unfold Updates.value
  apply Finset.sum_subset
  · intro j hj
    rw [mem_varsOf] at hj
    rw [h.mem_live]
    exact ⟨hj.1, hj.2.2⟩
  · intro j hj hj'
    rw [h.mem_live] at hj
    rw [mem_varsOf] at hj'
    have : coef G i j = 0 := by
      by_contra hc
      exact hj' ⟨hj.1, hc, hj.2⟩
    rw [this, zero_mul]

theorem row_active {i : ℕ} (hi : i < G.constraintTypes.length) :
    i ∉ s.updates.constraintsRemoved ↔ s.counters.constraint i ≠ 0 :=
  not_congr (h.rowsRemoved i hi)

end Index.WF

theorem Updates.live_cons {u : Updates} {j : ℕ} {r : RemovedVariable} {v : Updates}
    (hv : v.removedVariables = u.removedVariables ++ [(j, r)]) : v.live G = (u.live G).erase j := by
  ext k
  rw [Finset.mem_erase, Updates.mem_live, Updates.mem_live, hv]
  simp only [List.map_append, List.mem_append, List.map_cons, List.map_nil, List.mem_singleton]
  tauto

end Presolve

end Relp
