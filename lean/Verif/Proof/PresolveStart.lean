import Verif.Proof.PresolveFixed
import Verif.Proof.PresolveBounds

/-!
# The state with which presolving starts
-/

namespace Relp

open Finset

namespace Presolve

variable {G : GeneralForm}

theorem initial_variableBound (j : ℕ) (d : BoundDirection) :
    Updates.initial.variableBound G j d = originalBound G j d := rfl

theorem initial_live : Updates.initial.live G = range G.vars.length := by
  ext j
  simp [Updates.live, Updates.initial]

theorem initial_constraintType (i : ℕ) :
    Updates.initial.constraintType G i = G.constraintTypes.getD i .equal := rfl

theorem initial_rhs (i : ℕ) : Updates.initial.rhs G i = G.b.getD i 0 := rfl

theorem initial_value (i : ℕ) (x : ℕ → ℚ) :
    Updates.initial.value G i x = ∑ j : Fin G.vars.length, coef G i j * x j := by
  unfold Updates.value
  rw [initial_live, Finset.sum_range]

theorem respects_bounds {lower upper : Option ℚ} {x : ℚ} :
    ((∀ l, lower = some l → l ≤ x) ∧ ∀ u, upper = some u → x ≤ u) ↔
      BoundDirection.lower.Respects lower x ∧ BoundDirection.upper.Respects upper x := by
  cases lower <;> cases upper <;> simp [BoundDirection.Respects]

/-- At the start, the solutions are the feasible points of the problem. -/
theorem initial_sat {x : ℕ → ℚ} :
    Updates.initial.Sat G x ↔ G.toProgram.Feasible fun j => x j := by
  have hrow : ∀ i : Fin G.constraintTypes.length,
      Updates.initial.value G i x = (G.toProgram.A.mulVec fun j => x j) i := by
    intro i
    rw [initial_value]
    rfl
  have hbound : ∀ j : Fin G.vars.length, ∀ d, Updates.initial.variableBound G j d =
      match d with
      | .lower => G.toProgram.lower j
      | .upper => G.toProgram.upper j := by
    intro j d
    have e : G.vars[j.val]? = some G.vars[j.val] := List.getElem?_eq_getElem j.isLt
    cases d <;> simp [initial_variableBound, originalBound, e, GeneralForm.toProgram]
  have htype : ∀ i : Fin G.constraintTypes.length,
      Updates.initial.constraintType G i = G.toProgram.relation i := by
    intro i
    rw [initial_constraintType, List.getD_eq_getElem _ _ i.isLt]
    rfl
  constructor
  · intro h
    refine ⟨fun i => ?_, fun j => respects_bounds.2 ⟨?_, ?_⟩⟩
    · rw [← hrow, ← htype]
      exact h.rows i i.isLt (by simp [Updates.initial])
    · have := h.bounds j (by rw [initial_live]; simp) .lower
      rw [hbound] at this
      exact this
    · have := h.bounds j (by rw [initial_live]; simp) .upper
      rw [hbound] at this
      exact this
  · intro h
    refine ⟨fun i hi _ => ?_, fun j hj d => ?_, by simp [Updates.initial]⟩
    · have := h.1 ⟨i, hi⟩
      rw [← hrow, ← htype] at this
      exact this
    · rw [initial_live, Finset.mem_range] at hj
      have h1 := respects_bounds.1 (h.2 ⟨j, hj⟩)
      have h2 := hbound ⟨j, hj⟩ d
      simp only at h2
      rw [h2]
      cases d
      · exact h1.1
      · exact h1.2

theorem initial_cost (x : ℕ → ℚ) :
    Updates.initial.cost G x = G.toProgram.objective fun j => x j := by
  unfold Updates.cost Spec.Program.objective
  rw [initial_live, Finset.sum_range]
  simp only [Updates.initial, add_zero, dotProduct]
  congr 1
  refine Finset.sum_congr rfl fun j _ => ?_
  have e : G.vars[j.val]? = some G.vars[j.val] := List.getElem?_eq_getElem j.isLt
  simp [costOf, e, GeneralForm.toProgram]

theorem initial_proper (h : G.Proper) : Proper G Updates.initial := by
  refine ⟨fun j hj l hl r hr => ?_, fun i hi _ r hr => ?_⟩
  · rw [initial_live, Finset.mem_range] at hj
    have e : G.vars[j]? = some G.vars[j] := List.getElem?_eq_getElem hj
    refine h.bounds G.vars[j] (List.getElem_mem hj) l ?_ r ?_
    · simpa [initial_variableBound, originalBound, e] using hl
    · simpa [initial_variableBound, originalBound, e] using hr
  · refine h.ranges r ?_
    rw [initial_constraintType, List.getD_eq_getElem _ _ hi] at hr
    rw [← hr]
    exact List.getElem_mem hi

/-! ### Empty columns and rows -/

theorem columnsLoop (L : List ℕ) : ∀ s : ℚ × List (ℕ × RemovedVariable),
    L.foldlM (removeEmptyColumn G) s = (do
      let solved ← emptyValues G Updates.initial L
      pure (s.1 + (solved.map fun p => costOf G p.1 * p.2).sum,
        s.2 ++ solved.map fun p => (p.1, .solved p.2))) := by
  induction L with
  | nil =>
    intro s
    simp [emptyValues, pure, Except.pure, bind, Except.bind]
  | cons j L ih =>
    intro s
    have h : removeEmptyColumn G s j = (do
        let v ← emptyValue G Updates.initial j
        pure (s.1 + costOf G j * v, s.2 ++ [(j, .solved v)])) := by
      unfold removeEmptyColumn emptyValue
      simp only [initial_variableBound]
      split
      · rename_i h
        simp [h]
      · rfl
    rw [List.foldlM_cons, h]
    unfold emptyValues
    rw [List.mapM_cons]
    cases hv : emptyValue G Updates.initial j with
    | error e => rfl
    | ok v =>
      simp only [bind, Except.bind, pure, Except.pure]
      rw [ih]
      unfold emptyValues
      simp only [bind, Except.bind, pure, Except.pure]
      generalize List.mapM (m := Except Halt) _ L = r
      cases r with
      | error e => rfl
      | ok l => simp [add_assoc]

theorem rowsLoop (L : List ℕ) (hL : ∀ i ∈ L, i < G.constraintTypes.length) : ∀ acc : List ℕ,
    L.foldlM (removeEmptyRow G) acc =
      if ∀ i ∈ L, isEmptyConstraintFeasible (Updates.initial.rhs G i)
          (Updates.initial.constraintType G i) = true then .ok (acc ++ L)
      else .error (.verdict .infeasible) := by
  induction L with
  | nil => intro acc; simp [pure, Except.pure]
  | cons i L ih =>
    intro acc
    have hi := hL i (by simp)
    have ht : Updates.initial.constraintType G i = G.constraintTypes[i] := by
      rw [initial_constraintType, List.getD_eq_getElem _ _ hi]
    have hb : removeEmptyRow G acc i = if isEmptyConstraintFeasible (Updates.initial.rhs G i)
        (Updates.initial.constraintType G i) = true then .ok (acc ++ [i])
      else .error (.verdict .infeasible) := by
      unfold removeEmptyRow
      rw [List.getElem?_eq_getElem hi, ht, initial_rhs]
      rfl
    rw [List.foldlM_cons, hb]
    simp only [List.forall_mem_cons]
    by_cases h : isEmptyConstraintFeasible (Updates.initial.rhs G i)
        (Updates.initial.constraintType G i) = true
    · simp only [h, if_true, true_and, bind, Except.bind]
      rw [ih fun k hk => hL k (by simp [hk])]
      simp only [List.append_assoc, List.singleton_append]
    · simp only [h, false_and, if_false, bind, Except.bind, Bool.false_eq_true]

/-- The updates at the start. -/
def startUpdates (G : GeneralForm) (solved : List (ℕ × ℚ)) (rows : List ℕ) : Updates :=
  { solveVars G Updates.initial solved with constraintsRemoved := rows }

/-- Variables that are in no row. -/
def emptyColumns (G : GeneralForm) : List ℕ :=
  (List.range G.vars.length).filter fun j => (Counters.new G).columns j = 0

/-- Rows without variables. -/
def emptyRows (G : GeneralForm) : List ℕ :=
  (List.range G.constraintTypes.length).filter fun i => (Counters.new G).constraint i = 0

theorem updatesNew_eq (G : GeneralForm) : Updates.new G (Counters.new G) = (do
    let solved ← emptyValues G Updates.initial (emptyColumns G)
    if ∀ i ∈ emptyRows G, isEmptyConstraintFeasible (Updates.initial.rhs G i)
        (Updates.initial.constraintType G i) = true then
      .ok (startUpdates G solved (emptyRows G))
    else .error (.verdict .infeasible)) := by
  unfold Updates.new
  rw [columnsLoop]
  show Except.bind (Except.bind (emptyValues G Updates.initial (emptyColumns G)) _) _ =
    Except.bind (emptyValues G Updates.initial (emptyColumns G)) _
  cases emptyValues G Updates.initial (emptyColumns G) with
  | error e => rfl
  | ok solved =>
    simp only [Except.bind, pure, Except.pure]
    show Except.bind (List.foldlM (m := Run) (removeEmptyRow G) [] (emptyRows G)) _ = _
    rw [rowsLoop _ (fun i hi => by
      have := (List.mem_filter.1 hi).1
      simpa using this)]
    split
    · rfl
    · rfl

theorem start_rows (hG : G.Consistent) {i : ℕ} (hi : i < G.constraintTypes.length) :
    (Counters.new G).constraint i = #((range G.vars.length).filter fun j => coef G i j ≠ 0) :=
  (row_tuples hG hi).length

theorem start_columns (hG : G.Consistent) (j : ℕ) :
    (Counters.new G).columns j = #((range G.constraintTypes.length).filter fun i => coef G i j ≠ 0) :=
  (column_tuples hG j).length

theorem start_rows_ne (hG : G.Consistent) {i j : ℕ} (h : coef G i j ≠ 0) :
    (Counters.new G).constraint i ≠ 0 := by
  rw [start_rows hG (coef_row_lt hG h), Finset.card_ne_zero]
  exact ⟨j, by simp [h, coef_var_lt hG h]⟩

theorem start_columns_ne (hG : G.Consistent) {i j : ℕ} (h : coef G i j ≠ 0) :
    (Counters.new G).columns j ≠ 0 := by
  rw [start_columns hG, Finset.card_ne_zero]
  exact ⟨i, by simp [h, coef_row_lt hG h]⟩

theorem start_varsOf (hG : G.Consistent) (i : ℕ) :
    varsOf G (Counters.new G) i = (range G.vars.length).filter fun j => coef G i j ≠ 0 := by
  ext j
  simp only [varsOf, mem_filter]
  exact ⟨fun h => ⟨h.1, h.2.1⟩, fun h => ⟨h.1, h.2, start_columns_ne hG h.2⟩⟩

theorem start_rowsOf (hG : G.Consistent) (j : ℕ) :
    rowsOf G (Counters.new G) j = (range G.constraintTypes.length).filter fun i => coef G i j ≠ 0 := by
  ext i
  simp only [rowsOf, mem_filter]
  exact ⟨fun h => ⟨h.1, h.2.1⟩, fun h => ⟨h.1, h.2, start_rows_ne hG h.2⟩⟩

theorem startUpdates_variableBound (solved : List (ℕ × ℚ)) (rows : List ℕ) (j : ℕ) (d : BoundDirection) :
    (startUpdates G solved rows).variableBound G j d = originalBound G j d := rfl

/-- The state at the start. -/
def startIndex (G : GeneralForm) (solved : List (ℕ × ℚ)) : Index where
  counters := Counters.new G
  updates := startUpdates G solved (emptyRows G)
  queues := Queues.new G (Counters.new G)
  activityBounds := fun _ _ => none

theorem start_fit (hG : G.Consistent) (hp : G.Proper) {solved : List (ℕ × ℚ)}
    (hs : solved.map (·.1) = emptyColumns G) : (startIndex G solved).Fit G := by
  have hrem : (startIndex G solved).updates.removedVariables.map (·.1) = emptyColumns G := by
    simp only [startIndex, startUpdates, solveVars, Updates.initial, List.nil_append, List.map_map]
    exact hs
  have hec : ∀ j, j ∈ emptyColumns G ↔ j < G.vars.length ∧ (Counters.new G).columns j = 0 := by
    intro j; simp [emptyColumns]
  have her : ∀ i, i ∈ emptyRows G ↔ i < G.constraintTypes.length ∧ (Counters.new G).constraint i = 0 := by
    intro i; simp [emptyRows]
  have hproper := initial_proper hp
  refine ⟨⟨⟨?_, ?_, ?_, ?_, ?_, ?_, ?_, ?_, ?_, ?_⟩, ⟨?_, ?_, ?_, ?_, ?_, ?_, ?_, ?_⟩⟩, ⟨?_, ?_⟩, ?_⟩
  · intro i hi _
    show (Counters.new G).constraint i = #(varsOf G (Counters.new G) i)
    rw [start_varsOf hG, start_rows hG hi]
  · intro j hj _
    show (Counters.new G).columns j = #(rowsOf G (Counters.new G) j)
    rw [start_rowsOf hG, start_columns hG]
  · intro i hi _ d
    show (row G i).countP _ = _
    rw [List.countP_eq_length_filter, ((row_tuples hG hi).filter _).length]
    congr 1
    ext j
    simp only [missing, mem_filter]
    rw [show (startIndex G solved).counters = Counters.new G from rfl, start_varsOf hG]
    simp only [mem_filter, Option.isNone_iff_eq_none]
    rfl
  · intro i _ _ d h
    exact absurd rfl h
  · intro j d
    exact .of_none rfl
  · intro j hj
    simp only [startIndex, Queues.new, List.mem_reverse, List.mem_filter, List.mem_range] at hj
    exact hj.1
  · intro i hi
    simp only [startIndex, Queues.new, List.mem_reverse, List.mem_filter, List.mem_range,
      decide_eq_true_eq] at hi
    exact ⟨hi.1, hi.2.le⟩
  · intro i hi h
    simp only [startIndex, Queues.new, List.mem_reverse, List.mem_filter, List.mem_range,
      decide_eq_true_eq]
    exact ⟨hi, h⟩
  · intro j hj
    simp only [startIndex, Queues.new, List.mem_reverse, List.mem_filter, List.mem_range,
      decide_eq_true_eq] at hj
    exact ⟨hj.1, hj.2.1.le, hj.2.2⟩
  · intro p hp
    simp only [startIndex, Queues.new, List.mem_flatMap, List.mem_range] at hp
    obtain ⟨i, hi, hp⟩ := hp
    split at hp
    · rw [List.mem_append] at hp
      rcases hp with hp | hp
      · split at hp
        · rename_i h
          rw [List.mem_singleton] at hp
          rw [hp]
          exact ⟨hi, fun _ => h⟩
        · cases hp
      · split at hp
        · rename_i h
          rw [List.mem_singleton] at hp
          rw [hp]
          exact ⟨hi, fun _ => h⟩
        · cases hp
    · cases hp
  · intro i hi
    show i ∈ emptyRows G ↔ _
    rw [her]
    exact ⟨fun h => h.2, fun h => ⟨hi, h⟩⟩
  · intro j hj
    rw [hrem, hec]
    exact ⟨fun h => h.2, fun h => ⟨hj, h⟩⟩
  · intro i hi
    exact ((her i).1 hi).1
  · intro j hj
    rw [hrem] at hj
    exact ((hec j).1 hj).1
  · exact List.nodup_range.filter _
  · rw [hrem]
    exact List.nodup_range.filter _
  · exact Ordered.append_solved (l := []) ⟨by simp, List.Pairwise.nil⟩ solved
  · intro p hp k hk
    simp only [startIndex, startUpdates, solveVars, Updates.initial, List.nil_append, List.mem_map] at hp
    obtain ⟨q, _, rfl⟩ := hp
    exact hk.elim
  · intro j hj l hl r hr
    refine hproper.bounds j ?_ l hl r hr
    rw [initial_live, Finset.mem_range]
    exact (Updates.mem_live.1 hj).1
  · intro i hi _ r hr
    exact hproper.ranges i hi (by simp [Updates.initial]) r hr
  · intro j hj _
    simp only [startIndex, Queues.new, List.mem_reverse, List.mem_filter, List.mem_range,
      decide_eq_true_eq] at hj
    obtain ⟨l, hl⟩ := Option.isSome_iff_exists.1 hj.2.2.1
    show (match originalBound G j .lower, originalBound G j .upper with
      | some l, some r => if l = r then some l else none
      | _, _ => none).isSome
    rw [← hj.2.2.2, hl]
    simp

/-- The index at the start: the empty rows and columns have been removed. -/
theorem indexNew_correct (hG : G.Consistent) (hp : G.Proper) :
    (∀ s, Index.new G = .ok s → s.Fit G ∧ Refines G Updates.initial s.updates) ∧
      ∀ e, Index.new G = .error e → ∃ r, e = .verdict r ∧ VerdictCorrect G Updates.initial r := by
  have hproper := initial_proper hp
  have hec : ∀ j, j ∈ emptyColumns G ↔ j < G.vars.length ∧ (Counters.new G).columns j = 0 := by
    intro j; simp [emptyColumns]
  have her : ∀ i, i ∈ emptyRows G ↔ i < G.constraintTypes.length ∧ (Counters.new G).constraint i = 0 := by
    intro i; simp [emptyRows]
  have hcoef : ∀ i ∈ emptyRows G, ∀ j, coef G i j = 0 := by
    intro i hi j
    by_contra h
    exact start_rows_ne hG h ((her i).1 hi).2
  have href := emptyValues_refines (G := G) (u := Updates.initial) (E := emptyColumns G)
    ⟨by simp [Updates.initial], List.Pairwise.nil⟩ (by simp [Updates.initial])
    (List.nodup_range.filter _)
    (fun j hj => by rw [initial_live, Finset.mem_range]; exact ((hec j).1 hj).1)
    (fun j hj i _ _ => by
      by_contra h
      exact start_columns_ne hG h ((hec j).1 hj).2)
    (fun j hj => hproper.bounds j (by rw [initial_live, Finset.mem_range]; exact ((hec j).1 hj).1))
  have e1 : Index.new G = (do
      let solved ← emptyValues G Updates.initial (emptyColumns G)
      if ∀ i ∈ emptyRows G, isEmptyConstraintFeasible (Updates.initial.rhs G i)
          (Updates.initial.constraintType G i) = true then
        .ok (startIndex G solved)
      else .error (.verdict .infeasible)) := by
    unfold Index.new
    simp only []
    rw [updatesNew_eq]
    cases emptyValues G Updates.initial (emptyColumns G) with
    | error e => rfl
    | ok solved =>
      simp only [bind, Except.bind]
      by_cases h : ∀ i ∈ emptyRows G, isEmptyConstraintFeasible (Updates.initial.rhs G i)
          (Updates.initial.constraintType G i) = true
      · rw [if_pos h, if_pos h]
        rfl
      · rw [if_neg h, if_neg h]
  rw [e1]
  cases hv : emptyValues G Updates.initial (emptyColumns G) with
  | error e =>
    refine ⟨fun s h => (by cases h), fun e' h => ?_⟩
    cases h
    obtain ⟨rfl, h⟩ := href.2 e hv
    exact ⟨_, rfl, h⟩
  | ok solved =>
    simp only [bind, Except.bind]
    have hzero : ∀ i ∈ emptyRows G, ∀ (u : Updates) x, u.value G i x = 0 := by
      intro i hi u x
      exact Finset.sum_eq_zero fun j _ => by rw [hcoef i hi j, zero_mul]
    by_cases hall : ∀ i ∈ emptyRows G, isEmptyConstraintFeasible (Updates.initial.rhs G i)
        (Updates.initial.constraintType G i) = true
    · rw [if_pos hall]
      refine ⟨fun s h => ?_, fun e h => by cases h⟩
      cases h
      refine ⟨start_fit hG hp (emptyValues_ok hv).1, (href.1 solved hv).trans
        (Equivalent.refines (equivalent_removeRows (emptyRows G) rfl fun i hi _ _ x _ => ?_)
          fun _ h => h)⟩
      rw [hzero i hi]
      exact (isEmptyConstraintFeasible_iff _ _).1 (hall i hi)
    · rw [if_neg hall]
      refine ⟨fun s h => (by cases h), fun e h => ?_⟩
      cases h
      refine ⟨_, rfl, fun x hx => hall fun i hi => ?_⟩
      have := hx.rows i ((her i).1 hi).1 (by simp [Updates.initial])
      rw [hzero i hi] at this
      exact (isEmptyConstraintFeasible_iff _ _).2 this

end Presolve

end Relp
