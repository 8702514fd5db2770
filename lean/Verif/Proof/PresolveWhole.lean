import Verif.Proof.PresolveFinish

/-!
# Presolving as a whole
-/

namespace Relp

open Finset

namespace Presolve

variable {G H : GeneralForm} {u : Updates}

/-- The values of the original variables, as a point. -/
def pointOf (values : List (String × ℚ)) (o : ℕ) : ℚ := ((values[o]?).map (·.2)).getD 0

theorem names_length {values : List (String × ℚ)} (h : values.map (·.1) = H.original.map (·.1)) :
    values.length = H.original.length := by
  have := congrArg List.length h
  simpa using this

/-- What it means that the values extend those of the variables that are left. -/
theorem Result.extends_iff (h : Result G u H) {y : Fin H.vars.length → ℚ} {values : List (String × ℚ)} :
    H.Extends y values ↔ values.map (·.1) = H.original.map (·.1) ∧
      (∀ k : Fin H.vars.length, pointOf values ((leftVars G u).getD k 0) = y k) ∧
      ∀ p ∈ u.removedVariables, pointOf values p.1 = p.2.valueAt (pointOf values) := by
  rw [← h.equations]
  have hsome : values.map (·.1) = H.original.map (·.1) → ∀ o < H.original.length,
      (values[o]?).map (·.2) = some (pointOf values o) := by
    intro hn o ho
    rw [← names_length hn] at ho
    unfold pointOf
    rw [List.getElem?_eq_getElem ho]
    rfl
  have hlt : ∀ o q, H.original[o]? = some q → o < H.original.length := fun o q e =>
    (List.getElem?_eq_some_iff.1 e).1
  have hfrom : ∀ k < H.vars.length, H.fromActive[k]? = some ((leftVars G u).getD k 0) := by
    intro k hk
    rw [h.fromActive]
    exact left_getElem (h.varsLength ▸ hk)
  have hact : ∀ k < H.vars.length, (leftVars G u).getD k 0 < H.original.length := by
    intro k hk
    obtain ⟨name, e⟩ := (h.consistent.active _ k).1 (hfrom k hk)
    exact hlt _ _ e
  constructor
  · intro he
    have hs := hsome he.names
    refine ⟨he.names, fun k => ?_, fun o name r ho => ?_⟩
    · have := he.active k _ (hfrom k k.isLt)
      rw [hs _ (hact k k.isLt)] at this
      exact Option.some.inj this
    · have hs' := hs o (hlt _ _ ho)
      cases r with
      | solved v =>
        have := he.solved o name v ho
        rw [hs'] at this
        exact Option.some.inj this
      | functionOfOthers c cs =>
        have := he.functionOfOthers o name c cs ho
        rw [hs'] at this
        exact Option.some.inj this
  · rintro ⟨hn, h1, h2⟩
    have hs := hsome hn
    refine ⟨hn, fun k o ho => ?_, fun o name v ho => ?_, fun o name c cs ho => ?_⟩
    · have := hfrom k k.isLt
      rw [this] at ho
      cases ho
      rw [hs _ (hact k k.isLt), h1 k]
    · rw [hs o (hlt _ _ ho), h2 o name _ ho]
      rfl
    · rw [hs o (hlt _ _ ho), h2 o name _ ho]
      rfl

theorem Result.acyclic (h : Result G u H) (hn : (u.removedVariables.map (·.1)).Nodup)
    (hr : ∀ j ∈ u.removedVariables.map (·.1), j < G.vars.length) (ho : Ordered u.removedVariables)
    (hm : ∀ p ∈ u.removedVariables, ∀ k, p.2.Mentions k → k < G.vars.length) : H.Acyclic := by
  classical
  have hlen : u.removedVariables.length ≤ G.vars.length := by
    have h1 : (u.removedVariables.map (·.1)).toFinset ⊆ range G.vars.length := by
      intro j hj
      rw [List.mem_toFinset] at hj
      exact Finset.mem_range.2 (hr j hj)
    have h2 := Finset.card_le_card h1
    rw [List.toFinset_card_of_nodup hn, Finset.card_range, List.length_map] at h2
    exact h2
  let position : ℕ → ℕ := fun o => (u.removedVariables.map (·.1)).idxOf o
  refine ⟨fun o => if ∃ v, (o, RemovedVariable.solved v) ∈ u.removedVariables then 0
    else u.removedVariables.length - position o, fun o => ?_, fun o name c cs hoe p hp => ?_⟩
  · rw [h.originalLength]
    simp only []
    split
    · omega
    · omega
  · have hmem : (o, RemovedVariable.functionOfOthers c cs) ∈ u.removedVariables := by
      rcases h.entries o name _ hoe with ⟨k, e⟩ | ⟨v, e⟩ | ⟨r, hr, e⟩
      · cases e
      · cases e
      · cases e; exact hr
    have hment : RemovedVariable.Mentions (.functionOfOthers c cs) p.1 := List.mem_map_of_mem hp
    have huniq : ∀ r r', (o, r) ∈ u.removedVariables → (o, r') ∈ u.removedVariables → r = r' := by
      intro r r' h1 h2
      have := List.inj_on_of_nodup_map hn h1 h2 rfl
      exact congrArg Prod.snd this
    rw [h.originalLength]
    refine ⟨hm _ hmem p.1 hment, ?_⟩
    have hns : ¬∃ v, (o, RemovedVariable.solved v) ∈ u.removedVariables := by
      rintro ⟨v, hv⟩
      have := huniq _ _ hmem hv
      cases this
    obtain ⟨i, hi, hie⟩ := List.mem_iff_getElem.1 hmem
    have hpos : position o = i := by
      show (u.removedVariables.map (·.1)).idxOf o = i
      have h1 : (u.removedVariables.map (·.1))[i]'(by simpa using hi) = o := by
        rw [List.getElem_map, hie]
      rw [← h1]
      exact hn.idxOf_getElem i _
    simp only [if_neg hns]
    split
    · rw [hpos]; omega
    · rename_i hnp
      rw [hpos]
      by_cases hpr : p.1 ∈ u.removedVariables.map (·.1)
      · obtain ⟨q, hq, hqe⟩ := List.mem_map.1 hpr
        obtain ⟨i', hi', hie'⟩ := List.mem_iff_getElem.1 hq
        have hpos' : position p.1 = i' := by
          show (u.removedVariables.map (·.1)).idxOf p.1 = i'
          have h1 : (u.removedVariables.map (·.1))[i']'(by simpa using hi') = p.1 := by
            rw [List.getElem_map, hie', hqe]
          rw [← h1]
          exact hn.idxOf_getElem i' _
        rw [hpos']
        have hlt : i < i' := by
          rcases lt_trichotomy i' i with hl | he | hg
          · exfalso
            have := List.pairwise_iff_getElem.1 ho.2 i' i hi' hi hl
            rw [hie, hie'] at this
            obtain ⟨v, hv⟩ := this (by rw [hqe]; exact hment)
            apply hnp
            refine ⟨v, ?_⟩
            rw [← hqe, ← hv]
            exact hq
          · exfalso
            subst he
            rw [hie] at hie'
            subst hie'
            exact ho.1 _ hmem (by rw [hqe]; exact hment)
          · exact hg
        omega
      · have : position p.1 = (u.removedVariables.map (·.1)).length := List.idxOf_eq_length hpr
        rw [this, List.length_map]
        omega

/-- Values for all original variables that extend a point. -/
theorem Result.exists_values (h : Result G u H) (hn : (u.removedVariables.map (·.1)).Nodup)
    (ho : Ordered u.removedVariables) (hr : ∀ j ∈ u.removedVariables.map (·.1), j < G.vars.length)
    (hm : ∀ p ∈ u.removedVariables, ∀ k, p.2.Mentions k → k < G.vars.length)
    (y : Fin H.vars.length → ℚ) : ∃ values, H.Extends y values := by
  classical
  have hL : H.vars.length = (leftVars G u).length := h.varsLength
  let x₀ : ℕ → ℚ := fun o => if hk : (leftVars G u).idxOf o < H.vars.length
    then y ⟨(leftVars G u).idxOf o, hk⟩ else 0
  obtain ⟨x, hx1, hx2⟩ := exists_extension u.removedVariables ho hn x₀
  let values : List (String × ℚ) :=
    H.original.zipIdx.map fun p => (p.1.1, x p.2)
  have hpoint : ∀ o < H.original.length, pointOf values o = x o := by
    intro o ho
    unfold pointOf
    rw [show values[o]? = _ from zipIdx_getElem _ _ _, List.getElem?_eq_getElem ho]
    rfl
  have hnames : values.map (·.1) = H.original.map (·.1) := by
    apply List.ext_getElem?
    intro o
    rw [List.getElem?_map, show values[o]? = _ from zipIdx_getElem _ _ _, List.getElem?_map]
    cases H.original[o]? <;> rfl
  refine ⟨values, h.extends_iff.2 ⟨hnames, fun k => ?_, fun p hp => ?_⟩⟩
  · have hk : (k : ℕ) < (leftVars G u).length := hL ▸ k.isLt
    have hmem : (leftVars G u).getD k 0 < G.vars.length ∧
        (leftVars G u).getD k 0 ∉ u.removedVariables.map (·.1) :=
      mem_keptIndices.1 (List.mem_of_getElem? (left_getElem hk))
    rw [hpoint _ (h.originalLength ▸ hmem.1), hx1 _ hmem.2]
    have hidx : (leftVars G u).idxOf ((leftVars G u).getD k 0) = k := by
      rw [List.getD_eq_getElem _ _ hk]
      exact leftVars_nodup.idxOf_getElem k hk
    show (if hk : (leftVars G u).idxOf ((leftVars G u).getD k 0) < H.vars.length
      then y ⟨(leftVars G u).idxOf ((leftVars G u).getD k 0), hk⟩ else 0) = y k
    rw [dif_pos (by rw [hidx]; exact k.isLt)]
    congr 1
    exact Fin.ext hidx
  · rw [hpoint _ (h.originalLength ▸ hr _ (List.mem_map_of_mem hp)), hx2 p hp]
    exact RemovedVariable.valueAt_congr fun k hk =>
      (hpoint k (h.originalLength ▸ hm p hp k hk)).symm

/-- A point of the problem before presolving, as a function of all indices. -/
def pad {n : ℕ} (x : Fin n → ℚ) (j : ℕ) : ℚ := if h : j < n then x ⟨j, h⟩ else 0

theorem pad_val {n : ℕ} (x : Fin n → ℚ) : (fun j : Fin n => pad x j) = x := by
  funext j
  simp [pad]

theorem initial_sat_pad {x : Fin G.vars.length → ℚ} :
    Updates.initial.Sat G (pad x) ↔ G.toProgram.Feasible x := by
  rw [initial_sat, pad_val]

theorem initial_cost_pad (x : Fin G.vars.length → ℚ) :
    Updates.initial.cost G (pad x) = G.toProgram.objective x := by
  rw [initial_cost, pad_val]

/-- Each extension of a feasible point of the result is feasible for the problem after the changes. -/
theorem Result.sat (h : Result G u H) {y : Fin H.vars.length → ℚ} {values : List (String × ℚ)}
    (hy : H.toProgram.Feasible y) (he : H.Extends y values) :
    (u.kept G).Sat G (pointOf values) ∧ u.cost G (pointOf values) = H.toProgram.objective y := by
  obtain ⟨_, h1, h2⟩ := h.extends_iff.1 he
  have e : (fun k : Fin H.vars.length => pointOf values ((leftVars G u).getD k 0)) = y := funext h1
  refine ⟨(h.toFinished.sat _).2 ⟨?_, h2⟩, ?_⟩
  · rw [e]; exact hy
  · rw [← h.toFinished.value, e]

theorem Result.extends_original (h : Result G u H) (hG : G.Fresh) {y : Fin H.vars.length → ℚ}
    {values : List (String × ℚ)} (he : H.Extends y values) :
    G.Extends (fun j => pointOf values j) values := by
  have hl : values.length = G.vars.length := by rw [names_length he.names, h.originalLength]
  have hnot : ∀ (o : ℕ) name r, G.original[o]? ≠ some (name, .removed r) := by
    intro o name r ho
    obtain ⟨j, hj⟩ := hG.allActive _ (List.mem_of_getElem? ho)
    cases hj
  refine ⟨he.names.trans h.names, fun j o ho => ?_, fun o name v ho => (hnot _ _ _ ho).elim,
    fun o name c cs ho => (hnot _ _ _ ho).elim⟩
  rw [hG.identity, List.getElem?_range j.isLt] at ho
  cases ho
  unfold pointOf
  rw [List.getElem?_eq_getElem (by rw [hl]; exact j.isLt)]
  rfl

/-- For each feasible point of the problem before presolving there is one of the result that is as good. -/
theorem Result.complete (h : Result G u H)
    (hs : ∀ j d, Separated G j d (u.bounds j d) (u.activityBounds j d))
    (href : Refines G Updates.initial u) {x : Fin G.vars.length → ℚ} (hx : G.toProgram.Feasible x) :
    ∃ y, H.toProgram.Feasible y ∧
      G.objective.AsGood (H.toProgram.objective y) (G.toProgram.objective x) ∧
      ∀ (k : Fin H.vars.length) (j : Fin G.vars.length),
        H.fromActive[k.val]? = some j.val → y k = x j := by
  obtain ⟨y, hy, hc, hagree⟩ := href.complete _ (initial_sat_pad.2 hx)
  refine ⟨fun k => y ((leftVars G u).getD k 0), ((h.toFinished.sat y).1 (hy.kept hs)).1, ?_, fun k j hkj => ?_⟩
  · rw [h.toFinished.value, ← initial_cost_pad]
    exact hc
  · rw [h.fromActive] at hkj
    have hl : (leftVars G u).getD k 0 = j := by rw [List.getD_eq_getElem?_getD, hkj]; rfl
    have hm : j.val ∈ u.live G := by
      rw [← leftVars_toFinset, List.mem_toFinset]
      exact List.mem_of_getElem? hkj
    show y ((leftVars G u).getD k 0) = x j
    rw [hl, hagree j hm]
    simp [pad]

theorem Result.sound (h : Result G u H) (hG : G.Fresh) (href : Refines G Updates.initial u)
    (hd : DiscardedFollow G u) {y : Fin H.vars.length → ℚ} {values : List (String × ℚ)}
    (hy : H.toProgram.Feasible y) (he : H.Extends y values) :
    ∃ x, G.toProgram.Feasible x ∧ G.Extends x values ∧
      G.toProgram.objective x = H.toProgram.objective y := by
  obtain ⟨h1, h2⟩ := h.sat hy he
  obtain ⟨h3, h4⟩ := href.sound _ (hd _ h1)
  refine ⟨fun j => pointOf values j, initial_sat.1 h3, h.extends_original hG he, ?_⟩
  rw [← initial_cost, h4, h2]

theorem getSolution_some {solution : GeneralForm.Solution} (h : getSolution H = some solution) :
    solution.objectiveValue = H.fixedCost ∧ solution.values.map (·.1) = H.original.map (·.1) ∧
      ∀ (o : ℕ) q, H.original[o]? = some q → ∃ v, q.2 = .removed (.solved v) ∧
        pointOf solution.values o = v := by
  unfold getSolution at h
  obtain ⟨values, hm, e⟩ := Option.bind_eq_some_iff.1 h
  cases e
  have hm' := mapM_some.1 hm
  have hentry : ∀ (o : ℕ) q, H.original[o]? = some q → ∃ v, q.2 = .removed (.solved v) ∧
      values[o]? = some (q.1, v) := by
    intro o q hq
    have e := congrArg (fun l => l[o]?) hm'
    simp only [List.getElem?_map, hq, Option.map_some] at e
    cases hv : values[o]? with
    | none => rw [hv] at e; cases e
    | some w =>
      rw [hv] at e
      simp only [Option.map_some, Option.some.injEq] at e
      split at e
      · rename_i name v
        cases e
        exact ⟨v, rfl, rfl⟩
      · cases e
  refine ⟨rfl, ?_, fun o q hq => ?_⟩
  · apply List.ext_getElem?
    intro o
    rw [List.getElem?_map, List.getElem?_map]
    cases hq : H.original[o]? with
    | none =>
      have hl := congrArg List.length hm'
      simp only [List.length_map] at hl
      have := List.getElem?_eq_none_iff.1 hq
      rw [List.getElem?_eq_none (by show values.length ≤ o; omega)]
      rfl
    | some q =>
      obtain ⟨v, _, hv⟩ := hentry o q hq
      rw [hv]
      rfl
  · obtain ⟨v, h1, hv⟩ := hentry o q hq
    refine ⟨v, h1, ?_⟩
    unfold pointOf
    rw [hv]
    rfl

/-- If all variables have been solved, the solution is optimal. -/
theorem Result.solved (h : Result G u H) (hG : G.Fresh) {s : Index} (hs : s.Fit G) (hu : s.updates = u)
    (href : Refines G Updates.initial u) {solution : GeneralForm.Solution}
    (hsol : getSolution H = some solution) :
    ∃ x, G.Best x ∧ G.Extends x solution.values ∧
      G.toProgram.objective x = solution.objectiveValue := by
  subst hu
  obtain ⟨h1, h2, h3⟩ := getSolution_some hsol
  -- no variable is left
  have hnone : leftVars G s.updates = [] := by
    by_contra hne
    obtain ⟨o, ho⟩ := List.exists_mem_of_ne_nil _ hne
    obtain ⟨k, hk, he⟩ := List.mem_iff_getElem.1 ho
    obtain ⟨name, e⟩ := (h.consistent.active o k).1 (by
      rw [h.fromActive, List.getElem?_eq_getElem hk, he])
    obtain ⟨v, hv, _⟩ := h3 o _ e
    cases hv
  have hlive : s.updates.live G = ∅ := by
    rw [← leftVars_toFinset, hnone]
    rfl
  have hsat : s.updates.Sat G (pointOf solution.values) := by
    refine ⟨fun i hi hi' => ?_, fun j hj => ?_, ?_⟩
    · exfalso
      have hc : s.counters.constraint i ≠ 0 := fun h => hi' ((hs.rowsRemoved i hi).2 h)
      have hcard := hs.rowCount i hi hc
      have hpos : 0 < #(varsOf G s.counters i) := by omega
      obtain ⟨j, hj⟩ := Finset.card_pos.1 hpos
      simp only [varsOf, mem_filter, Finset.mem_range] at hj
      have : j ∈ s.updates.live G := by
        simp only [Updates.live, mem_filter, Finset.mem_range]
        exact ⟨hj.1, fun h => hj.2.2 ((hs.varsRemoved j hj.1).1 h)⟩
      rw [hlive] at this
      cases this
    · rw [hlive] at hj
      cases hj
    · refine (h.equations _).1 fun o name r ho => ?_
      obtain ⟨v, hv, hp⟩ := h3 o _ ho
      cases hv
      exact hp
  have hcost : ∀ x, s.updates.cost G x = solution.objectiveValue := by
    intro x
    unfold Updates.cost
    rw [hlive, h1, h.fixedCost, Finset.sum_empty, add_zero]
  obtain ⟨h4, h5⟩ := href.sound _ hsat
  have hext : H.Extends (fun k => pointOf solution.values ((leftVars G s.updates).getD k 0))
      solution.values := h.extends_iff.2 ⟨h2, fun _ => rfl, hsat.removed⟩
  have hobj : G.toProgram.objective (fun j => pointOf solution.values j) = solution.objectiveValue := by
    rw [← initial_cost, h5, hcost]
  refine ⟨fun j => pointOf solution.values j, ⟨initial_sat.1 h4, fun x' hx' => ?_⟩,
    h.extends_original hG hext, hobj⟩
  obtain ⟨y, _, hy, _⟩ := href.complete _ (initial_sat_pad.2 hx')
  rw [hcost, initial_cost_pad] at hy
  rw [hobj]
  cases ho : G.objective with
  | minimize => rw [ho] at hy; exact hy
  | maximize => rw [ho] at hy; exact hy

/-- A verdict on the problem at the start. -/
theorem verdict_initial {r : LinearProgramType} (h : VerdictCorrect G Updates.initial r)
    (allowed : Abort → Prop) : ResultCorrect G allowed (.error (.verdict r)) := by
  cases r with
  | finiteOptimum _ => exact h.elim
  | infeasible => exact fun x hx => h _ (initial_sat_pad.2 hx)
  | unbounded =>
    rintro ⟨x, hx⟩ M
    have hu := h ⟨_, initial_sat_pad.2 hx⟩
    cases ho : G.objective with
    | minimize =>
      obtain ⟨z, hz, hc⟩ := hu (M - 1)
      rw [ho, initial_cost] at hc
      refine ⟨fun j => z j, initial_sat.1 hz, ?_⟩
      have : G.toProgram.objective (fun j => z j) ≤ M - 1 := hc
      show _ < M
      linarith
    | maximize =>
      obtain ⟨z, hz, hc⟩ := hu (M + 1)
      rw [ho, initial_cost] at hc
      refine ⟨fun j => z j, initial_sat.1 hz, ?_⟩
      have : M + 1 ≤ G.toProgram.objective (fun j => z j) := hc
      show M < _
      linarith

/-- The end of presolving, after the loop. -/
theorem finish_result (hG : G.Fresh) {s : Index} (hs : s.Fit G) :
    ∃ H, Result G s.updates H ∧ H.Proper ∧ H.Acyclic ∧ ∀ fuel t, Index.new G = .ok t →
      presolveLoop G fuel t 0 = .ok s → presolve fuel G = match getSolution H with
        | some solution => .error (.verdict (.finiteOptimum solution))
        | none => .ok H := by
  obtain ⟨H, h1, h2, h3⟩ := removeRowsAndColumns_finished hG hs.varsNodup hs.varsRange hs.rowsNodup
    hs.rowsRange
  have hres := computed_result h2 h3
  refine ⟨_, hres, hres.toFinished.proper (kept_proper hs.disjoint hs.proper) hs.proper.ranges,
    hres.acyclic hs.varsNodup hs.varsRange hs.ordered hs.mentioned, fun fuel t ht hl => ?_⟩
  unfold presolve
  rw [ht]
  simp only [bind, Except.bind]
  rw [hl]
  simp only []
  rw [h1]
  simp only []
  cases getSolution (computeSolutionWherePossible H) <;> rfl

/-- Presolving is correct if its steps are safe and the derived bounds that are discarded follow from what
is kept. -/
theorem presolve_correct (hG : G.Fresh) (hp : G.Proper) (fuel : ℕ)
    (hsafe : ∀ s, Index.new G = .ok s → SafeRun G fuel s 0)
    (hd : ∀ s t, Index.new G = .ok s → presolveLoop G fuel s 0 = .ok t →
      (∃ H, presolve fuel G = .ok H) → DiscardedFollow G t.updates) :
    ResultCorrect G (· = .unreachable) (presolve fuel G) := by
  obtain ⟨hnew, hnew'⟩ := indexNew_correct hG.toConsistent hp
  cases hs : Index.new G with
  | error e =>
    obtain ⟨r, rfl, hr⟩ := hnew' e hs
    have : presolve fuel G = .error (.verdict r) := by
      unfold presolve
      rw [hs]
      rfl
    rw [this]
    exact verdict_initial hr _
  | ok s =>
    obtain ⟨hfit, href⟩ := hnew s hs
    have hloop := presolveLoop_correct hG fuel s 0 hfit (hsafe s hs)
    cases hl : presolveLoop G fuel s 0 with
    | error e =>
      have : presolve fuel G = .error e := by
        unfold presolve
        rw [hs]
        simp only [bind, Except.bind]
        rw [hl]
      rw [this]
      rw [hl] at hloop
      cases e with
      | verdict r => exact verdict_initial (href.verdict hloop) _
      | abort a => exact hloop
      | outOfFuel => trivial
    | ok t =>
      rw [hl] at hloop
      obtain ⟨ht, href'⟩ := hloop
      have href := href.trans href'
      obtain ⟨H, hres, hprop, hac, he⟩ := finish_result hG ht
      have he := he fuel s hs hl
      cases hsol : getSolution H with
      | some solution =>
        rw [he, hsol]
        exact hres.solved hG ht rfl href hsol
      | none =>
        rw [hsol] at he
        rw [he]
        exact ⟨⟨hres.consistent, hprop, hac, hres.objective⟩,
          fun y => hres.exists_values ht.varsNodup ht.ordered ht.varsRange ht.mentioned y,
          fun y values hy hv => hres.sound hG href (hd s t hs hl ⟨H, he⟩) hy hv,
          fun x hx => hres.complete ht.disjoint href hx⟩

end Presolve

end Relp
