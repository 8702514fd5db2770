import Verif.Proof.PresolveBounds

/-!
# Substitution of fixed variables
-/

namespace Relp

open Finset

namespace Presolve

variable {G : GeneralForm}

theorem isEmptyConstraintFeasible_iff (b : ℚ) (t : ConstraintType) :
    isEmptyConstraintFeasible b t = true ↔ t.Holds b 0 := by
  cases t <;> simp only [isEmptyConstraintFeasible, ConstraintType.Holds, decide_eq_true_eq, ge_iff_le,
    Bool.decide_and, Bool.and_eq_true]
  · exact eq_comm
  · tauto

theorem isVariableFixed_iff {u : Updates} {j : ℕ} {value : ℚ} :
    u.isVariableFixed G j = some value ↔
      u.variableBound G j .lower = some value ∧ u.variableBound G j .upper = some value := by
  unfold Updates.isVariableFixed
  cases u.variableBound G j .lower with
  | none => simp
  | some l =>
    cases u.variableBound G j .upper with
    | none => simp
    | some r =>
      simp only [Option.some.injEq]
      split
      · rename_i h
        subst h
        simp
      · rename_i h
        constructor
        · intro h'; cases h'
        · rintro ⟨rfl, rfl⟩; exact absurd rfl h

/-- The right-hand sides after a variable is substituted. -/
theorem changeB_foldl (value : ℚ) (l : List (ℕ × ℚ)) : ∀ (u : Updates), (l.map (·.1)).Nodup →
    (l.foldl (fun u p => u.changeB G p.1 (-p.2 * value)) u) =
      { u with b := fun i => match l.lookup i with
        | some c => some (u.rhs G i - c * value)
        | none => u.b i } := by
  induction l with
  | nil => intro u _; rfl
  | cons p l ih =>
    intro u hn
    rw [List.map_cons, List.nodup_cons] at hn
    rw [List.foldl_cons, ih _ hn.2]
    unfold Updates.changeB
    congr 1
    funext i
    rw [List.lookup_cons]
    by_cases hi : i = p.1
    · have h1 : l.lookup i = none := by
        rw [List.lookup_eq_none_iff]
        intro q hq
        rw [bne_iff_ne]
        intro h
        exact hn.1 (hi ▸ h ▸ List.mem_map_of_mem hq)
      rw [h1]
      subst hi
      simp only [beq_self_eq_true, insertAt_same]
      congr 1
      ring
    · have : (i == p.1) = false := by simpa using hi
      simp only [this]
      unfold Updates.rhs
      simp only [insertAt_ne _ _ hi]

theorem lookup_of_tuples {l : List (ℕ × ℚ)} {S : Finset ℕ} {f : ℕ → ℚ} (h : Tuples l S f) (i : ℕ) :
    l.lookup i = if i ∈ S then some (f i) else none := by
  cases hl : l.lookup i with
  | some c =>
    have hm : (i, c) ∈ l := by
      obtain ⟨l1, l2, e, _⟩ := List.lookup_eq_some_iff.1 hl
      rw [e]
      simp
    obtain ⟨h1, h2⟩ := (h.mem _).1 hm
    rw [if_pos h1]
    exact congrArg some h2
  | none =>
    rw [if_neg]
    intro hi
    rw [List.lookup_eq_none_iff] at hl
    have := hl (i, f i) ((h.mem _).2 ⟨hi, rfl⟩)
    simp at this

/-- The proposed changes after a variable is substituted, before rows are removed. -/
def substituted (G : GeneralForm) (s : Index) (j : ℕ) (value : ℚ) : Updates :=
  { s.updates with
    b := fun i => if i ∈ rowsOf G s.counters j then some (s.updates.rhs G i - coef G i j * value)
      else s.updates.b i
    fixedCost := s.updates.fixedCost + costOf G j * value }

/-- The state after a fixed variable is substituted. -/
def fixedState (G : GeneralForm) (s : Index) (j : ℕ) (value : ℚ) : Index :=
  removeVariable (fixedResult { s with updates := substituted G s j value } j
    ((activeColumn G s.counters j).map (·.1))) j (.solved value)

theorem presolveFixedVariable_eq (hG : G.Consistent) {s : Index} (hs : s.Counts G) {j : ℕ} {value : ℚ}
    (hf : s.updates.isVariableFixed G j = some value) (hj : j < G.vars.length)
    (hj0 : s.counters.columns j ≠ 0) :
    presolveFixedVariable G s j =
      if ∀ i ∈ rowsOf G s.counters j, s.counters.constraint i = 1 →
        (s.updates.constraintType G i).Holds (s.updates.rhs G i - coef G i j * value) 0 then
        .ok (fixedState G s j value)
      else .error (.verdict .infeasible) := by
  have ht := activeColumn_tuples hG s.counters j
  have e1 : ((activeColumn G s.counters j).foldl
      (fun u p => u.changeB G p.1 (-p.2 * value)) s.updates) =
      { s.updates with
        b := fun i => if i ∈ rowsOf G s.counters j then some (s.updates.rhs G i - coef G i j * value)
          else s.updates.b i } := by
    rw [changeB_foldl value _ _ ht.nodup]
    congr 1
    funext i
    rw [lookup_of_tuples ht]
    split <;> rename_i h
    · split at h
      · rename_i hi
        rw [if_pos hi]
        cases h
        rfl
      · cases h
    · split at h
      · cases h
      · rename_i hi
        rw [if_neg hi]
  unfold presolveFixedVariable
  rw [hf]
  simp only [unwrap, bind, Except.bind]
  rw [e1]
  have hloop := fixedLoop (G := G) j ((activeColumn G s.counters j).map (·.1))
    { s with updates := substituted G s j value } ht.nodup (by
      rw [List.length_map, ht.length]
      exact le_of_eq (hs.colCount j hj hj0).symm) (by
      intro i hi
      rw [ht.mem_keys] at hi
      exact (mem_rowsOf.1 hi).2.2)
  simp only [bind, Except.bind] at hloop
  have e2 : ({ s with updates := substituted G s j value } : Index).updates =
      substituted G s j value := rfl
  unfold substituted at hloop
  rw [hloop]
  have hiff : (∀ i ∈ (activeColumn G s.counters j).map (·.1),
      EmptyOk G { s with updates := substituted G s j value } i) ↔
      ∀ i ∈ rowsOf G s.counters j, s.counters.constraint i = 1 →
        (s.updates.constraintType G i).Holds (s.updates.rhs G i - coef G i j * value) 0 := by
    constructor
    · intro h i hi h1
      have := h i (ht.mem_keys.2 hi) h1
      rw [isEmptyConstraintFeasible_iff] at this
      have er : (substituted G s j value).rhs G i = s.updates.rhs G i - coef G i j * value := by
        show Option.getD (if _ then _ else _) _ = _
        rw [if_pos hi]
        rfl
      rw [e2, er] at this
      exact this
    · intro h i hi h1
      rw [ht.mem_keys] at hi
      rw [isEmptyConstraintFeasible_iff]
      have er : (substituted G s j value).rhs G i = s.updates.rhs G i - coef G i j * value := by
        show Option.getD (if _ then _ else _) _ = _
        rw [if_pos hi]
        rfl
      rw [e2, er]
      exact h i hi h1
  unfold substituted at hiff
  by_cases hall : ∀ i ∈ rowsOf G s.counters j, s.counters.constraint i = 1 →
        (s.updates.constraintType G i).Holds (s.updates.rhs G i - coef G i j * value) 0
  · rw [if_pos hall, if_pos (hiff.2 hall)]
    rfl
  · rw [if_neg hall, if_neg (fun h => hall (hiff.1 h))]

theorem fixedState_columnGone (hG : G.Consistent) {s : Index} (hs : s.Counts G) {j : ℕ} {value : ℚ}
    (hf : s.updates.isVariableFixed G j = some value) (hj : j < G.vars.length)
    (hj0 : s.counters.columns j ≠ 0) : ColumnGone G s (fixedState G s j value) j := by
  have ht := activeColumn_tuples hG s.counters j
  have hb := isVariableFixed_iff.1 hf
  refine ⟨?_, ?_, fun i hi hi0 d => ?_, rfl, rfl, rfl, rfl, fun k => ?_, rfl, fun p hp => Or.inl hp⟩
  · show insertAt _ _ _ = _
    congr 1
    rw [List.length_map, ht.length]
    have := hs.colCount j hj hj0
    show s.counters.columns j - _ = 0
    omega
  · funext i
    show (if i ∈ _ then _ else _) = _
    simp only [ht.mem_keys]
  · show s.counters.activity i d = _
    have hi1 : s.counters.constraint i ≠ 0 := by
      intro h0
      apply hi0
      show (if _ then s.counters.constraint i - 1 else s.counters.constraint i) = 0
      rw [h0]
      split <;> rfl
    rw [hs.activity i hi hi1, Finset.erase_eq_of_notMem]
    intro hm
    have := (Finset.mem_filter.1 hm).2
    unfold BoundDirection.times at this
    split at this <;> cases d <;> simp [BoundDirection.flip, hb.1, hb.2] at this
  · show k ∈ (List.filter _ _).reverse ++ _ ↔ _
    rw [List.mem_append, List.mem_reverse, List.mem_filter, ht.mem_keys]
    simp only [decide_eq_true_eq]
    tauto

theorem ordered_solved {l : List (ℕ × RemovedVariable)} (h : Ordered l) (j : ℕ) (v : ℚ) :
    Ordered (l ++ [(j, .solved v)]) := h.append_solved [(j, v)]

theorem fixedState_wf (hG : G.Consistent) {s : Index} (hs : s.WF G) {j : ℕ} {value : ℚ}
    (hf : s.updates.isVariableFixed G j = some value) (hj : j < G.vars.length)
    (hj0 : s.counters.columns j ≠ 0) : (fixedState G s j value).WF G := by
  have ht := activeColumn_tuples hG s.counters j
  refine (fixedState_columnGone hG hs.toCounts hf hj hj0).wf hs hG hj hj0 (r := .solved value)
    (R := ((activeColumn G s.counters j).map (·.1)).filter fun i => s.counters.constraint i = 1)
    rfl rfl ?_ ?_ ?_ ?_
  · exact ht.nodup.filter _
  · intro i
    rw [List.mem_filter, ht.mem_keys]
    simp
  · exact ordered_solved hs.ordered j value
  · exact fun _ h => h.elim

theorem proper_of {u v : Updates} (h : Proper G u) (hl : ∀ j ∈ v.live G, j ∈ u.live G)
    (hr : ∀ i < G.constraintTypes.length, i ∉ v.constraintsRemoved → i ∉ u.constraintsRemoved ∧
      v.constraintType G i = u.constraintType G i)
    (hb : ∀ j ∈ v.live G, ∀ d, v.variableBound G j d = u.variableBound G j d) : Proper G v := by
  refine ⟨fun j hj l hl' r hr' => ?_, fun i hi hir r hr' => ?_⟩
  · rw [hb j hj] at hl' hr'
    exact h.bounds j (hl j hj) l hl' r hr'
  · obtain ⟨h1, h2⟩ := hr i hi hir
    rw [h2] at hr'
    exact h.ranges i hi h1 r hr'

/-- A row of which `j` is the last variable. -/
theorem varsOf_singleton (hs : Index.Counts G s) {i j : ℕ} (hj : j < G.vars.length)
    (hj0 : s.counters.columns j ≠ 0) (hi : i ∈ rowsOf G s.counters j)
    (h1 : s.counters.constraint i = 1) : varsOf G s.counters i = {j} := by
  have hi' := mem_rowsOf.1 hi
  have hc := hs.rowCount i hi'.1 hi'.2.2
  rw [h1] at hc
  obtain ⟨k, hk⟩ := Finset.card_eq_one.1 hc.symm
  have : j ∈ varsOf G s.counters i := mem_varsOf.2 ⟨hj, hi'.2.1, hj0⟩
  rw [hk, Finset.mem_singleton] at this
  rw [hk, this]

theorem fixed_equivalent (hG : G.Consistent) {s : Index} (hs : s.WF G) {j : ℕ} {value : ℚ}
    (hf : s.updates.isVariableFixed G j = some value) (hj : j < G.vars.length)
    (hj0 : s.counters.columns j ≠ 0) :
    let v := { substituted G s j value with
      removedVariables := s.updates.removedVariables ++ [(j, .solved value)] }
    Equivalent G s.updates v ∧
      ∀ i ∈ rowsOf G s.counters j, s.counters.constraint i = 1 → i ∉ v.constraintsRemoved ∧
        ∀ x, (v.constraintType G i).Holds (v.rhs G i) (v.value G i x) ↔
          (s.updates.constraintType G i).Holds (s.updates.rhs G i - coef G i j * value) 0 := by
  intro v
  have hb := isVariableFixed_iff.1 hf
  have hlive : j ∈ s.updates.live G := hs.mem_live.2 ⟨hj, hj0⟩
  have hv : v.removedVariables = s.updates.removedVariables ++ [(j, .solved value)] := rfl
  constructor
  · refine equivalent_fixed hv hlive hb.1 hb.2 rfl (fun _ _ _ => rfl) (fun i hi hir => ?_)
      (fun _ _ _ => rfl) rfl
    show Option.getD (if _ then _ else _) _ = _
    split
    · rfl
    · rename_i hm
      have : coef G i j = 0 := by
        by_contra hc
        exact hm (mem_rowsOf.2 ⟨hi, hc, (hs.row_active hi).1 hir⟩)
      rw [this, zero_mul, sub_zero]
      rfl
  · intro i hi h1
    have hi' := mem_rowsOf.1 hi
    refine ⟨(hs.row_active hi'.1).2 hi'.2.2, fun x => ?_⟩
    have e1 : v.rhs G i = s.updates.rhs G i - coef G i j * value := by
      show Option.getD (if _ then _ else _) _ = _
      rw [if_pos hi]
      rfl
    have e2 : v.value G i x = 0 := by
      unfold Updates.value
      apply Finset.sum_eq_zero
      intro k hk
      rw [Updates.live_cons hv, Finset.mem_erase, hs.mem_live] at hk
      have : k ∉ varsOf G s.counters i := by
        rw [varsOf_singleton hs.toCounts hj hj0 hi h1, Finset.mem_singleton]
        exact hk.1
      have : coef G i k = 0 := by
        by_contra hc
        exact this (mem_varsOf.2 ⟨hk.2.1, hc, hk.2.2⟩)
      rw [this, zero_mul]
    rw [e1, e2]
    exact Iff.rfl

/-- Substituting a fixed variable leaves an equivalent problem, or shows that there is no solution. -/
theorem presolveFixedVariable_correct (hG : G.Consistent) {s : Index} (hs : s.Fit G) {j : ℕ}
    (hf : (s.updates.isVariableFixed G j).isSome) (hj : j < G.vars.length)
    (hj0 : s.counters.columns j ≠ 0) :
    (∀ t, presolveFixedVariable G s j = .ok t →
      t.Fit G ∧ Refines G s.updates t.updates ∧ Equivalent G s.updates t.updates) ∧
      ∀ e, presolveFixedVariable G s j = .error e →
        e = .verdict .infeasible ∧ ∀ x, ¬s.updates.Sat G x := by
  obtain ⟨value, hf⟩ := Option.isSome_iff_exists.1 hf
  have ht := activeColumn_tuples hG s.counters j
  obtain ⟨he, hrow⟩ := fixed_equivalent hG hs.toWF hf hj hj0
  rw [presolveFixedVariable_eq hG hs.toCounts hf hj hj0]
  refine ⟨fun t h => ?_, fun e h => ?_⟩
  · split at h
    · rename_i hall
      cases h
      have hwf := fixedState_wf hG hs.toWF hf hj hj0
      have hgone := fixedState_columnGone hG hs.toCounts hf hj hj0
      have hequiv : Equivalent G s.updates (fixedState G s j value).updates := by
        refine he.trans (equivalent_removeRows
          (((activeColumn G s.counters j).map (·.1)).filter fun i => s.counters.constraint i = 1) rfl
          fun i hi _ _ x _ => ?_)
        rw [List.mem_filter, ht.mem_keys] at hi
        have h1 : s.counters.constraint i = 1 := by simpa using hi.2
        exact ((hrow i hi.1 h1).2 x).2 (hall i hi.1 h1)
      refine ⟨⟨hwf, ?_, fun k hk hk0 => ?_⟩, hequiv.refines fun k hk => ?_, hequiv⟩
      · refine proper_of hs.proper (fun k hk => ?_) (fun i hi hir => ⟨?_, rfl⟩) fun k _ d => rfl
        · rw [hwf.mem_live] at hk
          exact hs.mem_live.2 ⟨hk.1, (hgone.columns_ne.1 hk.2).2⟩
        · rw [hwf.row_active hi] at hir
          exact (hs.row_active hi).2 (hgone.constraint_ne hir)
      · exact hs.fixed k hk (hgone.columns_ne.1 hk0).2
      · rw [hwf.mem_live] at hk
        exact hs.mem_live.2 ⟨hk.1, (hgone.columns_ne.1 hk.2).2⟩
    · cases h
  · split at h
    · cases h
    · rename_i hall
      cases h
      refine ⟨rfl, fun x hx => hall fun i hi h1 => ?_⟩
      exact ((hrow i hi h1).2 x).1 ((((he x).1.1 hx).rows i (mem_rowsOf.1 hi).1 (hrow i hi h1).1))

end Presolve

end Relp
