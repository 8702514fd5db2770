import Verif.Proof.PresolveHash

/-!
# The maps of changes have no keys out of range
-/

namespace Relp

namespace Presolve

/-- The keys of the maps are rows and variables of the problem. -/
structure Keyed (G : GeneralForm) (u : Updates) : Prop where
  b : ∀ i, u.b i ≠ none → i < G.constraintTypes.length
  constraints : ∀ i, u.constraints i ≠ none → i < G.constraintTypes.length
  bounds : ∀ j d, u.bounds j d ≠ none → j < G.vars.length
  activityBounds : ∀ j d, u.activityBounds j d ≠ none → j < G.vars.length

variable {G : GeneralForm}

/-- What holds of the result of a computation, if there is one. -/
def Ends {α : Type} (P : α → Prop) (r : Run α) : Prop := ∀ a, r = .ok a → P a

theorem Ends.pure {α : Type} {P : α → Prop} {a : α} (h : P a) : Ends P (.ok a) := by
  intro b hb
  cases hb
  exact h

theorem Ends.error {α : Type} {P : α → Prop} {e : Halt} : Ends P (.error e) := by
  intro b hb
  cases hb

theorem Ends.bind {α β : Type} {P : α → Prop} {Q : β → Prop} {r : Run α} {f : α → Run β} (h : Ends P r)
    (hf : ∀ a, P a → Ends Q (f a)) : Ends Q (r >>= f) := by
  cases r with
  | error e => exact .error
  | ok a => exact hf a (h a rfl)

theorem Ends.any {α : Type} {r : Run α} : Ends (fun _ => True) r := fun _ _ => trivial

theorem Ends.foldlM {α β : Type} {P : β → Prop} {f : β → α → Run β} : ∀ {l : List α} {b : β}, P b →
    (∀ a ∈ l, ∀ b, P b → Ends P (f b a)) → Ends P (l.foldlM f b)
  | [], b, hb, _ => .pure hb
  | a :: l, b, hb, h => by
    rw [List.foldlM_cons]
    exact Ends.bind (h a (by simp) b hb) fun c hc => Ends.foldlM hc fun x hx => h x (by simp [hx])

theorem keyed_b {u v : Updates} (h : Keyed G u) (h1 : v.b = u.b) (h2 : v.constraints = u.constraints)
    (h3 : v.bounds = u.bounds) (h4 : v.activityBounds = u.activityBounds) : Keyed G v :=
  ⟨h1 ▸ h.b, h2 ▸ h.constraints, h3 ▸ h.bounds, h4 ▸ h.activityBounds⟩

theorem column_range (hG : G.Consistent) {c : Counters} {j : ℕ} {p : ℕ × ℚ} (h : p ∈ activeColumn G c j) :
    p.1 < G.constraintTypes.length :=
  coef_row_lt hG ((mem_column hG).1 (List.mem_of_mem_filter h)).2

theorem row_range (hG : G.Consistent) {c : Counters} {i : ℕ} (hi : i < G.constraintTypes.length) {p : ℕ × ℚ}
    (h : p ∈ activeRow G c i) : p.1 < G.vars.length := by
  have := (mem_row hG hi).1 (List.mem_of_mem_filter h)
  by_contra hc
  apply this.2
  unfold coef column
  rw [List.getD_eq_getElem?_getD, List.getElem?_eq_none (by rw [hG.dataLength]; omega)]
  rfl

theorem keyed_changeB {u : Updates} (h : Keyed G u) {i : ℕ} (hi : i < G.constraintTypes.length) (x : ℚ) :
    Keyed G (u.changeB G i x) := by
  refine ⟨fun k hk => ?_, h.constraints, h.bounds, h.activityBounds⟩
  by_cases he : k = i
  · rw [he]; exact hi
  · exact h.b k (by
      simp only [Updates.changeB] at hk
      rwa [insertAt_ne _ _ he] at hk)

theorem keyed_constraints {u : Updates} (h : Keyed G u) {i : ℕ} (hi : i < G.constraintTypes.length)
    (t : Option ConstraintType) : Keyed G { u with constraints := insertAt u.constraints i t } := by
  refine ⟨h.b, fun k hk => ?_, h.bounds, h.activityBounds⟩
  by_cases he : k = i
  · rw [he]; exact hi
  · exact h.constraints k (by
      simp only [] at hk
      rwa [insertAt_ne _ _ he] at hk)

theorem insertAt2_keyed {f : ℕ → BoundDirection → Option ℚ} {n : ℕ} (h : ∀ j d, f j d ≠ none → j < n) {j : ℕ}
    (hj : j < n) (d : BoundDirection) (x : Option ℚ) :
    ∀ k e, insertAt2 f j d x k e ≠ none → k < n := by
  intro k e hk
  by_cases he : k = j
  · rw [he]; exact hj
  · unfold insertAt2 at hk
    rw [if_neg (fun h' => he h'.1)] at hk
    exact h k e hk

theorem keyed_updateBound {u : Updates} (h : Keyed G u) {j : ℕ} (hj : j < G.vars.length) (d : BoundDirection)
    (x : ℚ) : Keyed G (u.updateBound G j d x).1 := by
  have hin : ∀ (v : Updates) (y : Option ℚ), Keyed G v →
      Keyed G { v with bounds := insertAt2 v.bounds j d y } :=
    fun v y hv => ⟨hv.b, hv.constraints, insertAt2_keyed hv.bounds hj d y, hv.activityBounds⟩
  have hcmp : ∀ (v : Updates) (y : ℚ), Keyed G v → Keyed G (if tighter d x y then
      ({ v with bounds := insertAt2 v.bounds j d (some x) }, BoundChange.boundShift (x - y)) else (v, .none)).1 := by
    intro v y hv
    split
    · exact hin v _ hv
    · exact hv
  unfold Updates.updateBound
  simp only []
  cases u.bounds j d with
  | some y => exact hcmp u y h
  | none =>
    simp only []
    cases u.activityBounds j d with
    | some y =>
      refine hcmp _ y ⟨h.b, h.constraints, insertAt2_keyed h.bounds hj d _, insertAt2_keyed h.activityBounds hj d _⟩
    | none =>
      simp only []
      cases originalBound G j d with
      | some y => exact hcmp u y h
      | none => exact hin u _ h

theorem keyed_updateActivity {u : Updates} (h : Keyed G u) {j : ℕ} (hj : j < G.vars.length) (d : BoundDirection)
    (x : ℚ) : Keyed G (u.updateActivityVariableBound G j d x).1 := by
  have hin : ∀ (y : Option ℚ), Keyed G { u with bounds := insertAt2 u.bounds j d y } :=
    fun y => ⟨h.b, h.constraints, insertAt2_keyed h.bounds hj d y, h.activityBounds⟩
  have hac : ∀ (y : Option ℚ), Keyed G { u with activityBounds := insertAt2 u.activityBounds j d y } :=
    fun y => ⟨h.b, h.constraints, h.bounds, insertAt2_keyed h.activityBounds hj d y⟩
  unfold Updates.updateActivityVariableBound
  split
  · split
    · exact hac _
    · exact h
  · split
    · split
      · exact hin _
      · exact h
    · split
      · split
        · exact hac _
        · exact h
      · exact hac _

/-! ### The steps that do not touch the maps -/

theorem decrementColumn_keyed {s : Index} (h : Keyed G s.updates) (j : ℕ) :
    Ends (fun t => Keyed G t.updates) (decrementColumn s j) :=
  Ends.bind .any fun _ _ => .pure h

theorem decrementConstraint_keyed {s : Index} (h : Keyed G s.updates) (i : ℕ) :
    Ends (fun t => Keyed G t.updates) (decrementConstraint s i) :=
  Ends.bind .any fun _ _ => .pure h

theorem queueVariable_keyed {s : Index} (h : Keyed G s.updates) (j : ℕ) :
    Ends (fun t => Keyed G t.updates) (queueVariableByCounter G s j) := by
  unfold queueVariableByCounter
  split
  · split
    · exact Ends.bind .any fun _ _ => .pure (keyed_b h rfl rfl rfl rfl)
    · exact Ends.bind .any fun _ _ => .pure (keyed_b h rfl rfl rfl rfl)
  · split
    · exact .pure h
    · exact .pure h
  · exact .pure h

theorem queueConstraint_keyed {s : Index} (h : Keyed G s.updates) (i : ℕ) :
    Ends (fun t => Keyed G t.updates) (queueConstraintByCounter G s i) := by
  unfold queueConstraintByCounter
  split
  · split
    · exact .pure (keyed_b h rfl rfl rfl rfl)
    · exact .error
  · exact .pure h
  · exact .pure h

theorem removeValues_keyed {s : Index} (h : Keyed G s.updates) (i : ℕ) :
    Ends (fun t => Keyed G t.updates) (removeConstraintValues G s i) :=
  Ends.foldlM h fun j _ _ hb => Ends.bind (decrementConstraint_keyed hb i) fun _ hc =>
    Ends.bind (decrementColumn_keyed hc j) fun _ hd => queueVariable_keyed hd j

theorem updateActivityBounds_keyed {s : Index} (h : Keyed G s.updates) (j : ℕ) (d : BoundDirection) (x : ℚ) :
    Keyed G (updateActivityBounds G s j d x).updates := by
  unfold updateActivityBounds
  generalize activeColumn G s.counters j = l
  induction l generalizing s with
  | nil => exact h
  | cons p l ih =>
    rw [List.foldl_cons]
    apply ih
    unfold updateActivityBound
    split
    · simp only []
      split
      · exact h
      · exact h
    · exact h

theorem updateActivityCounters_keyed {s : Index} (h : Keyed G s.updates) (j : ℕ) (d : BoundDirection) :
    Ends (fun t => Keyed G t.updates) (updateActivityCounters G s j d) := by
  refine Ends.foldlM h fun p _ b hb => ?_
  unfold updateActivityCounter
  refine Ends.bind .any fun n _ => ?_
  simp only []
  split
  · exact .pure hb
  · exact .pure hb

theorem afterBoundChange_keyed {s : Index} (h : Keyed G s.updates) (j : ℕ) (d : BoundDirection)
    (change : BoundChange) : Ends (fun t => Keyed G t.updates) (afterBoundChange G s j d change) := by
  have hq : Keyed G (if (s.updates.isVariableFixed G j).isSome ∧ 0 < s.counters.columns j then
      { s with queues := { s.queues with substitution := j :: s.queues.substitution } } else s).updates := by
    split <;> exact h
  unfold afterBoundChange
  simp only []
  cases change with
  | none => exact .pure h
  | newBound => exact updateActivityCounters_keyed hq j d
  | boundShift x => exact .pure (updateActivityBounds_keyed hq j d x)

/-! ### The rules -/

theorem fixedVariable_keyed (hG : G.Consistent) {s : Index} (h : Keyed G s.updates) (j : ℕ) :
    Ends (fun t => Keyed G t.updates) (presolveFixedVariable G s j) := by
  unfold presolveFixedVariable
  refine Ends.bind .any fun value _ => ?_
  have hu : ∀ (l : List (ℕ × ℚ)) (u : Updates), (∀ p ∈ l, p.1 < G.constraintTypes.length) → Keyed G u →
      Keyed G (l.foldl (fun u p => u.changeB G p.1 (-p.2 * value)) u) := by
    intro l
    induction l with
    | nil => exact fun u _ hu => hu
    | cons p l ih =>
      intro u hl hu
      exact ih _ (fun q hq => hl q (by simp [hq])) (keyed_changeB hu (hl p (by simp)) _)
  have h1 := hu (activeColumn G s.counters j) _ (fun p hp => column_range hG hp) h
  simp only []
  refine Ends.bind (P := fun t => Keyed G t.updates)
    (Ends.foldlM (keyed_b h1 rfl rfl rfl rfl) fun i _ b hb => ?_) fun t ht => .pure (keyed_b ht rfl rfl rfl rfl)
  exact Ends.bind (decrementColumn_keyed hb j) fun _ hc => Ends.bind (decrementConstraint_keyed hc i)
    fun _ hd => queueConstraint_keyed hd i

theorem boundConstraint_keyed (hG : G.Consistent) {s : Index} (h : Keyed G s.updates) {i : ℕ}
    (hi : i < G.constraintTypes.length) : Ends (fun t => Keyed G t.updates) (presolveBoundConstraint G s i) := by
  unfold presolveBoundConstraint
  cases hh : (activeRow G s.counters i).head? with
  | none => exact .error
  | some p =>
    obtain ⟨j, coefficient⟩ := p
    have hj : j < G.vars.length := row_range hG hi (List.mem_of_mem_head? hh)
    refine Ends.bind (P := fun q => q = (j, coefficient)) (.pure rfl) ?_
    rintro _ rfl
    simp only []
    refine Ends.bind (decrementColumn_keyed h j) fun s hs => Ends.bind (decrementConstraint_keyed hs i) fun s hs => ?_
    refine Ends.bind (P := fun t => Keyed G t.updates) (Ends.foldlM (keyed_b hs rfl rfl rfl rfl) fun p _ b hb => ?_)
      fun t ht => ?_
    · exact afterBoundChange_keyed (keyed_updateBound hb hj _ _) _ _ _
    · split
      · exact .error
      · exact queueVariable_keyed ht j

theorem activityQueue_keyed {s : Index} (h : Keyed G s.updates) (i : ℕ) (d : BoundDirection) (m : Bool) :
    Ends (fun t => Keyed G t.updates) (activityQueueIfNeeded s i d m) := by
  unfold activityQueueIfNeeded
  split
  · refine Ends.bind .any fun n _ => ?_
    simp only []
    split
    · exact .pure h
    · exact .pure h
  · exact .pure h

theorem slack_keyed (hG : G.Consistent) {s : Index} (h : Keyed G s.updates) (j : ℕ) :
    Ends (fun t => Keyed G t.updates) (presolveSlack G s j) := by
  unfold presolveSlack
  cases hh : (activeColumn G s.counters j).head? with
  | none => exact .error
  | some p =>
    obtain ⟨i, coefficient⟩ := p
    have hi : i < G.constraintTypes.length := column_range hG (List.mem_of_mem_head? hh)
    refine Ends.bind (P := fun q => q = (i, coefficient)) (.pure rfl) ?_
    rintro _ rfl
    simp only []
    split
    · refine Ends.bind (P := fun t => Keyed G t.updates) (Ends.foldlM h fun k _ b hb => ?_)
        fun t ht => .pure (keyed_b ht rfl rfl rfl rfl)
      refine Ends.bind (decrementConstraint_keyed hb i) fun _ hc => Ends.bind (decrementColumn_keyed hc k)
        fun _ hd => ?_
      split
      · exact queueVariable_keyed hd k
      · exact .pure hd
    · refine Ends.bind (decrementColumn_keyed h j) fun s hs => ?_
      refine Ends.bind (activityQueue_keyed (by exact keyed_b hs rfl rfl rfl rfl) _ _ _) fun s hs => ?_
      refine Ends.bind (activityQueue_keyed hs _ _ _) fun s hs => ?_
      refine Ends.bind (decrementConstraint_keyed hs i) fun s hs => ?_
      refine Ends.bind (queueConstraint_keyed hs i) fun s hs => ?_
      exact .pure (keyed_constraints (keyed_changeB hs hi _) hi _)

theorem constraintPart_keyed (hG : G.Consistent) {s : Index} (h : Keyed G s.updates) {i : ℕ}
    (hi : i < G.constraintTypes.length) (bound : ℚ) (d : BoundDirection) :
    Ends (fun t => Keyed G t.1.updates) (constraintPart G s i bound d) := by
  unfold constraintPart
  refine Ends.bind .any fun r _ => ?_
  split
  · exact .pure h
  · exact .pure h
  · exact .pure (keyed_changeB (keyed_constraints h hi _) hi _)
  · refine Ends.bind (P := fun t => Keyed G t.1.updates) (Ends.foldlM h fun p hp b hb => ?_) fun t ht => ?_
    · have hj := row_range hG hi hp
      unfold setVariableToBound
      refine Ends.bind .any fun x _ => .pure ?_
      refine keyed_updateBound ?_ hj _ _
      split
      · exact ⟨hb.b, hb.constraints, insertAt2_keyed hb.bounds hj _ _, insertAt2_keyed hb.activityBounds hj _ _⟩
      · exact hb
    · exact Ends.bind (P := fun t => Keyed G t.updates)
        (Ends.foldlM ht fun p _ b hb => updateActivityCounters_keyed hb _ _) fun q hq => .pure hq

theorem propagation_keyed (hG : G.Consistent) {s : Index} (h : Keyed G s.updates) {i : ℕ}
    (hi : i < G.constraintTypes.length) (d : BoundDirection) :
    Ends (fun t => Keyed G t.1.updates) (presolveDomainPropagation G s i d) := by
  unfold presolveDomainPropagation
  split
  · unfold forEntireConstraint
    refine Ends.bind (P := fun t : Index × ℚ => Keyed G t.1.updates) ?_ fun t ht => ?_
    · unfold activityBoundIfNeeded
      split
      · exact .pure h
      · exact Ends.bind .any fun _ _ => .pure h
    simp only []
    refine Ends.bind (constraintPart_keyed hG ht hi _ d) fun q hq => ?_
    obtain ⟨q, remove, apply, change⟩ := q
    simp only []
    have hend : ∀ r : Index × Change, Keyed G r.1.updates → Ends (fun t => Keyed G t.1.updates)
        (if remove = true then do
            let s ← removeConstraintValues G r.1 i
            pure (removeConstraint s i, r.2)
          else pure (r.1, r.2)) := by
      intro r hr
      split
      · exact Ends.bind (removeValues_keyed hr i) fun t ht => .pure (keyed_b ht rfl rfl rfl rfl)
      · exact .pure hr
    split
    · split
      · refine Ends.bind (P := fun t => Keyed G t.1.updates) (Ends.foldlM hq fun p hp b hb => ?_) hend
        have hj := row_range hG hi hp
        unfold variableStep
        refine Ends.bind .any fun x _ => ?_
        simp only []
        exact Ends.bind (P := fun t => Keyed G t.updates)
          (afterBoundChange_keyed (by exact keyed_updateActivity hb hj _ _) _ _ _) fun t ht => .pure ht
      · exact Ends.bind (.pure (by exact hq)) hend
    · exact Ends.bind (.pure (by exact hq)) hend
  · unfold createVariableBound
    split
    · exact .pure h
    · simp only []
      rename_i rhs _
      cases hf : (activeRow G s.counters i).find? fun p =>
        (s.updates.variableBound G p.1 (d.times p.2)).isNone with
      | none => exact .error
      | some p =>
        obtain ⟨j, coefficient⟩ := p
        have hj : j < G.vars.length := row_range hG hi (List.mem_of_find?_eq_some hf)
        refine Ends.bind (P := fun q => q = (j, coefficient)) (.pure rfl) ?_
        rintro _ rfl
        simp only []
        exact Ends.bind (P := fun t => Keyed G t.updates)
          (afterBoundChange_keyed (keyed_updateActivity h hj _ _) _ _ _) fun t ht => .pure ht
  · exact .error

theorem step_keyed (hG : G.Consistent) {s : Index} (hs : s.WF G) (h : Keyed G s.updates) :
    Ends (fun t => Keyed G t.1.updates) (presolveStep G s) := by
  unfold presolveStep
  simp only []
  split
  · exact Ends.bind (P := fun t => Keyed G t.updates) (fixedVariable_keyed hG (by exact h) _) fun t ht => .pure ht
  · split
    · rename_i i rest hb
      have hsuf : i :: rest <:+ s.queues.bound := hb ▸ List.dropWhile_suffix _
      have hi : i < G.constraintTypes.length := (hs.boundQueue i (hsuf.subset (by simp))).1
      exact Ends.bind (P := fun t => Keyed G t.updates) (boundConstraint_keyed hG (by exact h) hi) fun t ht => .pure ht
    · split
      · exact Ends.bind (P := fun t => Keyed G t.updates) (slack_keyed hG (by exact h) _) fun t ht => .pure ht
      · split
        · rename_i i d rest ha
          have hsuf : (i, d) :: rest <:+ s.queues.activity := ha ▸ List.dropWhile_suffix _
          have hi : i < G.constraintTypes.length := (hs.activityQueue (i, d) (hsuf.subset (by simp))).1
          exact propagation_keyed hG (by exact h) hi d
        · exact .pure h

theorem loop_keyed (hG : G.Fresh) (fuel : ℕ) : ∀ (s : Index) (iterations : ℕ), s.WF G → Keyed G s.updates →
    Ends (fun t => t.WF G ∧ Keyed G t.updates) (presolveLoop G fuel s iterations) := by
  induction fuel with
  | zero =>
    intro s k hs h
    unfold presolveLoop
    split
    · exact .error
    · exact .pure ⟨hs, h⟩
  | succ fuel ih =>
    intro s k hs h
    unfold presolveLoop
    split
    · have hw := presolveStep_shape hG hs
      have hk := step_keyed hG.toConsistent hs h
      cases hr : presolveStep G s with
      | error e => exact .error
      | ok p =>
        rw [hr] at hw
        refine Ends.bind (P := fun q => q = p) (.pure rfl) ?_
        rintro _ rfl
        exact ih _ _ hw (hk _ hr)
    · exact .pure ⟨hs, h⟩

/-- The state at the end of the loop. -/
theorem end_keyed (hG : G.Fresh) {fuel : ℕ} {s t : Index} (h : Index.new G = .ok s)
    (h' : presolveLoop G fuel s 0 = .ok t) : t.WF G ∧ Keyed G t.updates := by
  have hnew := indexNew_shape hG.toConsistent
  rw [h] at hnew
  refine loop_keyed hG fuel s 0 hnew ?_ t h'
  have hu : Ends (fun u => Keyed G u) (Updates.new G (Counters.new G)) := by
    unfold Updates.new
    refine Ends.bind .any fun _ _ => Ends.bind .any fun _ _ => .pure ?_
    exact ⟨fun _ h => absurd rfl h, fun _ h => absurd rfl h, fun _ _ h => absurd rfl h, fun _ _ h => absurd rfl h⟩
  have hi : Ends (fun t => Keyed G t.updates) (Index.new G) :=
    Ends.bind (P := fun u => Keyed G u) hu fun u hu => .pure hu
  exact hi s h

end Presolve

end Relp
