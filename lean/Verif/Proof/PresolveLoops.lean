import Verif.Proof.PresolveBasics

/-!
# Closed forms of the loops in presolving
-/

namespace Relp

open Finset

namespace Presolve

variable {G : GeneralForm}

theorem decrement_eq {x : ℕ} (h : x ≠ 0) : decrement x = .ok (x - 1) := if_neg h

theorem insertAt_self {α β : Type} [DecidableEq α] (f : α → β) (a : α) : insertAt f a (f a) = f := by
  funext k
  unfold insertAt
  split <;> rename_i h
  · rw [h]
  · rfl

theorem insertAt_insertAt {α β : Type} [DecidableEq α] (f : α → β) (a : α) (b c : β) :
    insertAt (insertAt f a b) a c = insertAt f a c := by
  funext k
  unfold insertAt
  split <;> rfl

theorem insertAt_same {α β : Type} [DecidableEq α] (f : α → β) (a : α) (b : β) :
    insertAt f a b a = b := if_pos rfl

theorem insertAt_ne {α β : Type} [DecidableEq α] (f : α → β) {a k : α} (b : β) (h : k ≠ a) :
    insertAt f a b k = f k := if_neg h

theorem insertAt2_same {α β γ : Type} [DecidableEq α] [DecidableEq β] (f : α → β → γ) (a : α) (b : β)
    (c : γ) : insertAt2 f a b c a b = c := if_pos ⟨rfl, rfl⟩

theorem insertAt2_ne {α β γ : Type} [DecidableEq α] [DecidableEq β] (f : α → β → γ) {a a' : α} {b b' : β}
    (c : γ) (h : ¬(a' = a ∧ b' = b)) : insertAt2 f a b c a' b' = f a' b' := if_neg h

/-! ### Substituting a variable in all its rows -/

/-- The state after the loop over the rows of a fixed variable. -/
def fixedResult (s : Index) (j : ℕ) (rows : List ℕ) : Index :=
  { s with
    counters := { s.counters with
      columns := insertAt s.counters.columns j (s.counters.columns j - rows.length)
      constraint := fun i =>
        if i ∈ rows then s.counters.constraint i - 1 else s.counters.constraint i }
    updates := { s.updates with constraintsRemoved :=
      s.updates.constraintsRemoved ++ rows.filter fun i => s.counters.constraint i = 1 }
    queues := { s.queues with
      bound := (rows.filter fun i => s.counters.constraint i = 2).reverse ++ s.queues.bound } }

/-- Infeasibility of a constraint whose last variable is substituted. -/
def EmptyOk (G : GeneralForm) (s : Index) (i : ℕ) : Prop :=
  s.counters.constraint i = 1 →
    isEmptyConstraintFeasible (s.updates.rhs G i) (s.updates.constraintType G i) = true

instance (s : Index) (i : ℕ) : Decidable (EmptyOk G s i) := by unfold EmptyOk; infer_instance

theorem fixedResult_nil (s : Index) (j : ℕ) : fixedResult s j [] = s := by
  unfold fixedResult
  simp only [List.length_nil, Nat.sub_zero, insertAt_self, List.not_mem_nil, if_false,
    List.filter_nil, List.append_nil, List.reverse_nil, List.nil_append]

theorem fixedResult_cons (s : Index) (j i : ℕ) (rows : List ℕ) (hi : i ∉ rows) :
    fixedResult (fixedResult s j [i]) j rows = fixedResult s j (i :: rows) := by
  have hc : ∀ k ∈ rows, (fixedResult s j [i]).counters.constraint k = s.counters.constraint k := by
    intro k hk
    show (if k ∈ [i] then _ else _) = _
    rw [if_neg]
    rw [List.mem_singleton]
    rintro rfl
    exact hi hk
  have hcon : (fun k => if k ∈ rows then (fixedResult s j [i]).counters.constraint k - 1
      else (fixedResult s j [i]).counters.constraint k) =
      fun k => if k ∈ i :: rows then s.counters.constraint k - 1 else s.counters.constraint k := by
    funext k
    by_cases hk : k ∈ rows
    · rw [if_pos hk, if_pos (List.mem_cons_of_mem _ hk), hc k hk]
    · rw [if_neg hk]
      show (if k ∈ [i] then _ else _) = _
      by_cases hki : k = i
      · rw [if_pos (by simp [hki]), if_pos (by simp [hki])]
      · rw [if_neg (by simp [hki]), if_neg (by simp [hki, hk])]
  have hcol : insertAt (fixedResult s j [i]).counters.columns j
      ((fixedResult s j [i]).counters.columns j - rows.length) =
      insertAt s.counters.columns j (s.counters.columns j - (i :: rows).length) := by
    show insertAt (insertAt _ _ _) _ (insertAt _ _ _ _ - _) = _
    rw [insertAt_insertAt, insertAt_same]
    congr 1
    simp only [List.length_cons, List.length_nil]
    omega
  have h1 : (rows.filter fun k => (fixedResult s j [i]).counters.constraint k = 1) =
      rows.filter fun k => s.counters.constraint k = 1 :=
    List.filter_congr fun k hk => by rw [hc k hk]
  have h2 : (rows.filter fun k => (fixedResult s j [i]).counters.constraint k = 2) =
      rows.filter fun k => s.counters.constraint k = 2 :=
    List.filter_congr fun k hk => by rw [hc k hk]
  rw [fixedResult, hcon, hcol, h1, h2]
  have e1 : (fixedResult s j [i]).updates.constraintsRemoved ++
      (rows.filter fun k => s.counters.constraint k = 1) =
      s.updates.constraintsRemoved ++ (i :: rows).filter fun k => s.counters.constraint k = 1 := by
    show (_ ++ [i].filter _) ++ _ = _
    rw [List.append_assoc, ← List.filter_append, List.singleton_append]
  have e2 : (rows.filter fun k => s.counters.constraint k = 2).reverse ++
      (fixedResult s j [i]).queues.bound =
      ((i :: rows).filter fun k => s.counters.constraint k = 2).reverse ++ s.queues.bound := by
    show _ ++ (([i].filter _).reverse ++ _) = _
    rw [← List.append_assoc, ← List.reverse_append, ← List.filter_append, List.singleton_append]
  rw [e1, e2]
  rfl

theorem queueConstraint_eq (s : Index) (i : ℕ) :
    queueConstraintByCounter G s i =
      if s.counters.constraint i = 0 ∧
          ¬isEmptyConstraintFeasible (s.updates.rhs G i) (s.updates.constraintType G i) = true then
        .error (.verdict .infeasible)
      else .ok { s with
        updates := { s.updates with constraintsRemoved := s.updates.constraintsRemoved ++
          (if s.counters.constraint i = 0 then [i] else []) }
        queues := { s.queues with bound :=
          (if s.counters.constraint i = 1 then [i] else []) ++ s.queues.bound } } := by
  unfold queueConstraintByCounter
  match h : s.counters.constraint i with
  | 0 =>
    by_cases hf : isEmptyConstraintFeasible (s.updates.rhs G i) (s.updates.constraintType G i) = true
    · simp [hf, removeConstraint, pure, Except.pure]
    · simp [hf]
  | 1 => simp [pure, Except.pure]
  | c + 2 => simp [pure, Except.pure]

theorem fixedBody (s : Index) (j i : ℕ) (hj : s.counters.columns j ≠ 0)
    (hi : s.counters.constraint i ≠ 0) :
    (do let s ← decrementColumn s j
        let s ← decrementConstraint s i
        queueConstraintByCounter G s i) =
    if EmptyOk G s i then .ok (fixedResult s j [i]) else .error (.verdict .infeasible) := by
  have e1 : decrementColumn s j = .ok { s with counters := { s.counters with
      columns := insertAt s.counters.columns j (s.counters.columns j - 1) } } := by
    unfold decrementColumn
    rw [decrement_eq hj]
    rfl
  have e2 : ∀ c : ℕ → ℕ, decrementConstraint { s with counters := { s.counters with columns := c } } i
      = .ok { s with counters := { s.counters with
          columns := c
          constraint := insertAt s.counters.constraint i (s.counters.constraint i - 1) } } := by
    intro c
    unfold decrementConstraint
    rw [decrement_eq hi]
    rfl
  rw [e1]
  simp only [bind, Except.bind]
  rw [e2]
  simp only
  rw [queueConstraint_eq]
  simp only [insertAt_same]
  have h1 : s.counters.constraint i - 1 = 0 ↔ s.counters.constraint i = 1 := by omega
  have h2 : s.counters.constraint i - 1 = 1 ↔ s.counters.constraint i = 2 := by omega
  have hP : (s.counters.constraint i - 1 = 0 ∧
      ¬isEmptyConstraintFeasible (s.updates.rhs G i) (s.updates.constraintType G i) = true) ↔
      ¬EmptyOk G s i := by
    unfold EmptyOk
    rw [h1, Classical.not_imp]
  by_cases hE : EmptyOk G s i
  · rw [if_neg (fun h => (hP.1 h) hE), if_pos hE]
    unfold fixedResult
    simp only [List.length_cons, List.length_nil, h1, h2]
    have hcon : insertAt s.counters.constraint i (s.counters.constraint i - 1) =
        fun k => if k ∈ [i] then s.counters.constraint k - 1 else s.counters.constraint k := by
      funext k
      by_cases hk : k = i
      · subst hk; simp [insertAt_same]
      · rw [insertAt_ne _ _ hk]; simp [hk]
    rw [hcon]
    by_cases a1 : s.counters.constraint i = 1 <;> by_cases a2 : s.counters.constraint i = 2 <;>
      simp [a1, a2]
  · rw [if_pos (hP.2 hE), if_neg hE]

theorem fixedLoop (j : ℕ) (rows : List ℕ) : ∀ (s : Index), rows.Nodup →
    rows.length ≤ s.counters.columns j → (∀ i ∈ rows, s.counters.constraint i ≠ 0) →
    rows.foldlM (fun s i => do
      let s ← decrementColumn s j
      let s ← decrementConstraint s i
      queueConstraintByCounter G s i) s =
    if ∀ i ∈ rows, EmptyOk G s i then .ok (fixedResult s j rows)
    else .error (.verdict .infeasible) := by
  induction rows with
  | nil =>
    intro s _ _ _
    rw [if_pos (by simp), fixedResult_nil]
    rfl
  | cons i rows ih =>
    intro s hn hl hc
    rw [List.nodup_cons] at hn
    rw [List.length_cons] at hl
    rw [List.foldlM_cons, fixedBody s j i (by omega) (hc i List.mem_cons_self)]
    by_cases hE : EmptyOk G s i
    · rw [if_pos hE]
      simp only [bind, Except.bind] at ih ⊢
      have hc' : ∀ k ∈ rows, (fixedResult s j [i]).counters.constraint k = s.counters.constraint k := by
        intro k hk
        show (if k ∈ [i] then _ else _) = _
        rw [if_neg]
        rw [List.mem_singleton]
        rintro rfl
        exact hn.1 hk
      rw [ih _ hn.2, fixedResult_cons _ _ _ _ hn.1]
      · have : (∀ k ∈ rows, EmptyOk G (fixedResult s j [i]) k) ↔ ∀ k ∈ i :: rows, EmptyOk G s k := by
          have key : ∀ k ∈ rows, EmptyOk G (fixedResult s j [i]) k ↔ EmptyOk G s k := by
            intro k hk
            unfold EmptyOk
            rw [hc' k hk]
            rfl
          constructor
          · intro h k hk
            rcases List.mem_cons.1 hk with rfl | hk
            · exact hE
            · exact (key k hk).1 (h k hk)
          · intro h k hk
            exact (key k hk).2 (h k (List.mem_cons_of_mem _ hk))
        by_cases hall : ∀ k ∈ i :: rows, EmptyOk G s k
        · rw [if_pos hall, if_pos (this.2 hall)]
        · rw [if_neg hall, if_neg fun h => hall (this.1 h)]
      · show _ ≤ insertAt _ _ _ _
        rw [insertAt_same]
        simp only [List.length_cons, List.length_nil]
        omega
      · intro k hk
        rw [hc' k hk]
        exact hc k (List.mem_cons_of_mem _ hk)
    · rw [if_neg hE, if_neg (fun h => hE (h i List.mem_cons_self))]
      rfl

/-! ### Removing a row from all its variables -/

/-- The value of a variable that is in no row any more. -/
def emptyValue (G : GeneralForm) (u : Updates) (j : ℕ) : Run ℚ :=
  if costOf G j = 0 then
    unwrap (feasibleValue (u.variableBound G j .lower) (u.variableBound G j .upper))
  else optimizeIndependentColumn G.objective (costOf G j)
    (u.variableBound G j .lower) (u.variableBound G j .upper)

/-- The values of variables that are in no row any more. -/
def emptyValues (G : GeneralForm) (u : Updates) (E : List ℕ) : Run (List (ℕ × ℚ)) :=
  E.mapM fun j => do
    let v ← emptyValue G u j
    pure (j, v)

/-- Variables are removed, with a value. -/
def solveVars (G : GeneralForm) (u : Updates) (solved : List (ℕ × ℚ)) : Updates :=
  { u with
    removedVariables := u.removedVariables ++ solved.map fun p => (p.1, .solved p.2)
    fixedCost := u.fixedCost + (solved.map fun p => costOf G p.1 * p.2).sum }

theorem queueVariable_eq (s : Index) (j : ℕ) :
    queueVariableByCounter G s j =
      if s.counters.columns j = 0 then do
        let v ← emptyValue G s.updates j
        pure { s with updates := solveVars G s.updates [(j, v)] }
      else .ok { s with queues := { s.queues with slack :=
        (if s.counters.columns j = 1 ∧ costOf G j = 0 then [j] else []) ++ s.queues.slack } } := by
  unfold queueVariableByCounter emptyValue
  match h : s.counters.columns j with
  | 0 =>
    by_cases hc : costOf G j = 0
    · simp [hc, removeVariable, solveVars]
    · simp [hc, removeVariable, solveVars]
  | 1 =>
    by_cases hc : costOf G j = 0
    · simp [hc, pure, Except.pure]
    · simp [hc, pure, Except.pure]
  | c + 2 => simp [pure, Except.pure]

/-- The state after the loop over the variables of a row; variables for which `P` is false are not
looked at any more. -/
def emptyResult (G : GeneralForm) (s : Index) (i : ℕ) (P : ℕ → Prop) [DecidablePred P] (L : List ℕ)
    (solved : List (ℕ × ℚ)) : Index :=
  { s with
    counters := { s.counters with
      constraint := insertAt s.counters.constraint i (s.counters.constraint i - L.length)
      columns := fun k => if k ∈ L then s.counters.columns k - 1 else s.counters.columns k }
    updates := solveVars G s.updates solved
    queues := { s.queues with slack :=
      (L.filter fun k => P k ∧ s.counters.columns k = 2 ∧ costOf G k = 0).reverse ++
        s.queues.slack } }

variable (P : ℕ → Prop) [DecidablePred P]

theorem emptyResult_nil (s : Index) (i : ℕ) : emptyResult G s i P [] [] = s := by
  unfold emptyResult solveVars
  simp only [List.length_nil, Nat.sub_zero, insertAt_self, List.not_mem_nil, if_false,
    List.filter_nil, List.append_nil, List.reverse_nil, List.nil_append, List.map_nil, List.sum_nil,
    add_zero]

theorem emptyResult_cons (s : Index) (i k : ℕ) (L : List ℕ) (a b : List (ℕ × ℚ)) (hk : k ∉ L) :
    emptyResult G (emptyResult G s i P [k] a) i P L b = emptyResult G s i P (k :: L) (a ++ b) := by
  have hc : ∀ j ∈ L, (emptyResult G s i P [k] a).counters.columns j = s.counters.columns j := by
    intro j hj
    show (if j ∈ [k] then _ else _) = _
    rw [if_neg]
    rw [List.mem_singleton]
    rintro rfl
    exact hk hj
  have hcol : (fun j => if j ∈ L then (emptyResult G s i P [k] a).counters.columns j - 1
      else (emptyResult G s i P [k] a).counters.columns j) =
      fun j => if j ∈ k :: L then s.counters.columns j - 1 else s.counters.columns j := by
    funext j
    by_cases hj : j ∈ L
    · rw [if_pos hj, if_pos (List.mem_cons_of_mem _ hj), hc j hj]
    · rw [if_neg hj]
      show (if j ∈ [k] then _ else _) = _
      by_cases hjk : j = k
      · rw [if_pos (by simp [hjk]), if_pos (by simp [hjk])]
      · rw [if_neg (by simp [hjk]), if_neg (by simp [hjk, hj])]
  have hcon : insertAt (emptyResult G s i P [k] a).counters.constraint i
      ((emptyResult G s i P [k] a).counters.constraint i - L.length) =
      insertAt s.counters.constraint i (s.counters.constraint i - (k :: L).length) := by
    show insertAt (insertAt _ _ _) _ (insertAt _ _ _ _ - _) = _
    rw [insertAt_insertAt, insertAt_same]
    congr 1
    simp only [List.length_cons, List.length_nil]
    omega
  have h2 : (L.filter fun j => P j ∧ (emptyResult G s i P [k] a).counters.columns j = 2 ∧
      costOf G j = 0) = L.filter fun j => P j ∧ s.counters.columns j = 2 ∧ costOf G j = 0 :=
    List.filter_congr fun j hj => by rw [hc j hj]
  have e2 : (L.filter fun j => P j ∧ s.counters.columns j = 2 ∧ costOf G j = 0).reverse ++
      (emptyResult G s i P [k] a).queues.slack =
      ((k :: L).filter fun j => P j ∧ s.counters.columns j = 2 ∧ costOf G j = 0).reverse ++
        s.queues.slack := by
    show _ ++ (([k].filter _).reverse ++ _) = _
    rw [← List.append_assoc, ← List.reverse_append, ← List.filter_append, List.singleton_append]
  have e3 : solveVars G (emptyResult G s i P [k] a).updates b = solveVars G s.updates (a ++ b) := by
    show solveVars G (solveVars G s.updates a) b = _
    unfold solveVars
    simp only [List.map_append, List.append_assoc, List.sum_append, add_assoc]
  rw [emptyResult, hcol, hcon, h2, e2, e3]
  rfl

theorem emptyValues_append (u : Updates) (a b : List ℕ) :
    emptyValues G u (a ++ b) = (do
      let x ← emptyValues G u a
      let y ← emptyValues G u b
      pure (x ++ y)) := by
  unfold emptyValues
  rw [List.mapM_append]

theorem emptyBody (s : Index) (i k : ℕ) (hk : s.counters.columns k ≠ 0)
    (hi : s.counters.constraint i ≠ 0) :
    (do let s ← decrementConstraint s i
        let s ← decrementColumn s k
        if P k then queueVariableByCounter G s k else pure s) =
    (do let solved ← emptyValues G s.updates ([k].filter fun k => P k ∧ s.counters.columns k = 1)
        pure (emptyResult G s i P [k] solved)) := by
  have e1 : decrementConstraint s i = .ok { s with counters := { s.counters with
      constraint := insertAt s.counters.constraint i (s.counters.constraint i - 1) } } := by
    unfold decrementConstraint
    rw [decrement_eq hi]
    rfl
  have e2 : ∀ c : ℕ → ℕ, decrementColumn { s with counters := { s.counters with constraint := c } } k
      = .ok { s with counters := { s.counters with
          constraint := c
          columns := insertAt s.counters.columns k (s.counters.columns k - 1) } } := by
    intro c
    unfold decrementColumn
    rw [decrement_eq hk]
    rfl
  have hcol : insertAt s.counters.columns k (s.counters.columns k - 1) =
      fun j => if j ∈ [k] then s.counters.columns j - 1 else s.counters.columns j := by
    funext j
    by_cases hj : j = k
    · subst hj; simp [insertAt_same]
    · rw [insertAt_ne _ _ hj]; simp [hj]
  have h1 : s.counters.columns k - 1 = 0 ↔ s.counters.columns k = 1 := by omega
  have h2 : s.counters.columns k - 1 = 1 ↔ s.counters.columns k = 2 := by omega
  rw [e1]
  simp only [bind, Except.bind]
  rw [e2]
  simp only
  rw [queueVariable_eq]
  simp only [insertAt_same, h1, h2]
  by_cases hP : P k
  · by_cases a1 : s.counters.columns k = 1
    · simp only [hP, a1, if_true, List.filter_cons, and_self, decide_true, List.filter_nil]
      unfold emptyValues
      simp only [List.mapM_cons, List.mapM_nil, bind, Except.bind, pure, Except.pure]
      cases emptyValue G s.updates k with
      | error e => rfl
      | ok v =>
        simp only [emptyResult, List.length_cons, List.length_nil, List.filter_cons, a1]
        rw [← hcol, a1]
        simp
    · have : ([k].filter fun k => P k ∧ s.counters.columns k = 1) = [] := by simp [a1]
      rw [if_pos hP, if_neg a1, this]
      simp only [emptyValues, List.mapM_nil, pure, Except.pure, emptyResult, solveVars, ← hcol,
        List.map_nil, List.append_nil, List.sum_nil, add_zero, List.length_cons, List.length_nil,
        zero_add, List.filter_cons, List.filter_nil, hP, true_and]
      by_cases a2 : s.counters.columns k = 2 ∧ costOf G k = 0 <;> simp [a2]
  · have : ([k].filter fun k => P k ∧ s.counters.columns k = 1) = [] := by simp [hP]
    rw [if_neg hP, this]
    simp only [emptyValues, List.mapM_nil, pure, Except.pure, emptyResult, solveVars, ← hcol,
      List.map_nil, List.append_nil, List.sum_nil, add_zero, List.length_cons, List.length_nil,
      zero_add, List.filter_cons, List.filter_nil, hP, false_and]
    simp

theorem emptyLoop (i : ℕ) (L : List ℕ) : ∀ (s : Index), L.Nodup →
    L.length ≤ s.counters.constraint i → (∀ k ∈ L, s.counters.columns k ≠ 0) →
    L.foldlM (fun s k => do
      let s ← decrementConstraint s i
      let s ← decrementColumn s k
      if P k then queueVariableByCounter G s k else pure s) s =
    (do let solved ← emptyValues G s.updates (L.filter fun k => P k ∧ s.counters.columns k = 1)
        pure (emptyResult G s i P L solved)) := by
  induction L with
  | nil =>
    intro s _ _ _
    simp only [List.foldlM_nil, List.filter_nil, emptyValues, List.mapM_nil, pure, Except.pure, bind,
      Except.bind, emptyResult_nil]
  | cons k L ih =>
    intro s hn hl hc
    rw [List.nodup_cons] at hn
    rw [List.length_cons] at hl
    have hf : ((k :: L).filter fun k => P k ∧ s.counters.columns k = 1) =
        ([k].filter fun k => P k ∧ s.counters.columns k = 1) ++
          L.filter fun k => P k ∧ s.counters.columns k = 1 := by
      rw [← List.filter_append, List.singleton_append]
    rw [List.foldlM_cons, emptyBody P s i k (hc k List.mem_cons_self) (by omega), hf,
      emptyValues_append]
    cases h1 : emptyValues G s.updates ([k].filter fun k => P k ∧ s.counters.columns k = 1) with
    | error e => rfl
    | ok a =>
      simp only [bind, Except.bind, pure, Except.pure] at ih ⊢
      have hc' : ∀ j ∈ L, (emptyResult G s i P [k] a).counters.columns j = s.counters.columns j := by
        intro j hj
        show (if j ∈ [k] then _ else _) = _
        rw [if_neg]
        rw [List.mem_singleton]
        rintro rfl
        exact hn.1 hj
      rw [ih _ hn.2]
      · have e1 : (L.filter fun k_1 => P k_1 ∧ (emptyResult G s i P [k] a).counters.columns k_1 = 1) =
            L.filter fun k_1 => P k_1 ∧ s.counters.columns k_1 = 1 :=
          List.filter_congr fun j hj => by rw [hc' j hj]
        have e2 : ∀ E, emptyValues G (emptyResult G s i P [k] a).updates E =
            emptyValues G s.updates E := fun E => rfl
        rw [e1, e2]
        cases emptyValues G s.updates (L.filter fun k_1 => P k_1 ∧ s.counters.columns k_1 = 1) with
        | error e => rfl
        | ok b =>
          simp only
          rw [emptyResult_cons P s i k L a b hn.1]
      · show _ ≤ insertAt _ _ _ _
        rw [insertAt_same]
        simp only [List.length_cons, List.length_nil]
        omega
      · intro j hj
        rw [hc' j hj]
        exact hc j (List.mem_cons_of_mem _ hj)

end Presolve

end Relp
