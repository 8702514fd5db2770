import Verif.Proof.DebugBelow

/-!
# What the solver of a debug build answers, the solver of a release build answers
-/

namespace Relp

open BasisInverse

variable {D BI : ℕ → Type} [BasisInverse D] [BasisInverse BI] [E : Erases D BI] {m n N : ℕ}

/-! ### `Carry` -/

namespace Carry

/-- The same state with the basis inverse of a release build. -/
def erase (c : Carry D m N) : Carry BI m N where
  minusObjective := c.minusObjective
  minusPi := c.minusPi
  b := c.b
  basisIndices := c.basisIndices
  basisInverse := E.erase c.basisInverse

theorem createMinusPi_below (bi : D m) (cost : Fin n → ℚ) (basis : Fin m → Fin n) :
    Below Eq (createMinusPi bi cost basis) (createMinusPi (E.erase bi) cost basis) := by
  unfold createMinusPi
  refine (Below.tabulateM fun j => E.leftMultiply bi (SVec.standardBasis j)).bind fun a b h => ?_
  have : (fun j => infoColumn (b j)) = fun j => infoColumn (a j) := funext fun j => by
    rw [← h j]; exact E.infoColumn _
  rw [this]
  exact .refl _

theorem createForFullyArtificial_below (n : ℕ) (rhs : Fin m → ℚ) :
    Below (fun a b => a.erase = b) (createForFullyArtificial n rhs : Res (Carry D m (m + n)))
      (createForFullyArtificial n rhs) :=
  (E.identity m).bind fun _ _ h => .ok (by subst h; rfl)

theorem createForPartiallyArtificial_below (artificialRows : List (Fin m)) (rhs : Fin m → ℚ)
    (basisIndices : Fin m → Fin N) :
    Below (fun a b => a.erase = b) (createForPartiallyArtificial artificialRows rhs basisIndices : Res (Carry D m N))
      (createForPartiallyArtificial artificialRows rhs basisIndices) :=
  (E.identity m).bind fun _ _ h => .ok (by subst h; rfl)

theorem fromBasis_below (P : Provider m n) (basis : Fin m → Fin n) :
    Below (fun a b => a.erase = b) (fromBasis P basis : Res (Carry D m n)) (fromBasis P basis) := by
  unfold fromBasis
  refine (E.invert _).bind fun bi _ h => ?_
  subst h
  refine (E.leftMultiply bi _).bind fun info _ h => ?_
  subst h
  rw [E.infoColumn]
  refine .bindEq (createMinusPi_below bi _ _) fun minusPi => .ok rfl

theorem fromArtificial_below {nrArtificial : ℕ} (c : Carry D m (nrArtificial + n)) (P : Provider m n) :
    Below (fun a b => a.erase = b) (c.fromArtificial P) ((c.erase : Carry BI _ _).fromArtificial P) := by
  unfold fromArtificial
  exact .bindEq (.refl _) fun _ => .bindEq (createMinusPi_below _ _ _) fun _ => .ok rfl

theorem fromArtificialRemoveRows_below {nrArtificial : ℕ} (c : Carry D m (nrArtificial + n)) (P : Provider m n)
    (rows : List (Fin m)) :
    Below (fun a b => a.erase = b) (c.fromArtificialRemoveRows P rows)
      ((c.erase : Carry BI _ _).fromArtificialRemoveRows P rows) := by
  unfold fromArtificialRemoveRows
  refine .bindEq (.refl _) fun _ => ?_
  refine (E.removeBasis rows c.basisInverse _).bind fun bi _ h => ?_
  subst h
  exact .bindEq (createMinusPi_below _ _ _) fun _ => .ok rfl

theorem changeBasis_below (c : Carry D m N) (kind : Kind m N) (pivotRow : Fin m) (pivotColumn : Fin N)
    (info : Info D m) (relativeCost : ℚ) :
    Below (fun a b => a.1.erase = b.1 ∧ a.2 = b.2) (c.changeBasis kind pivotRow pivotColumn info relativeCost)
      ((c.erase : Carry BI _ _).changeBasis kind pivotRow pivotColumn (E.info info) relativeCost) := by
  unfold changeBasis
  rw [E.infoColumn]
  refine .bindEq (E.rightMultiply _ _) fun workVector => .bindEq (.refl _) fun b => ?_
  refine Below.bind (S := fun a b => E.erase a.1 = b.1 ∧ a.2 = b.2) ?_ fun x y h => ?_
  · change Below _ (if shouldRefactor c.basisInverse = true then _ else _)
      (if shouldRefactor (E.erase c.basisInverse) = true then _ else _)
    rw [← E.shouldRefactor]
    split
    · refine (E.invert _).bind fun _ _ h => .ok ⟨h, rfl⟩
    · exact E.changeBasis _ _ _
  · obtain ⟨x1, x2⟩ := x
    obtain ⟨y1, y2⟩ := y
    obtain ⟨h1, h2⟩ := h
    simp only at h1 h2
    subst h1 h2
    exact .bindEq (E.basisInverseRow _ _) fun _ => .ok ⟨rfl, rfl⟩

end Carry

/-! ### `Tableau` -/

namespace Tableau

/-- The same state with the basis inverse of a release build. -/
def erase (t : Tableau D m N) : Tableau BI m N where
  carry := t.carry.erase
  basisColumns := t.basisColumns
  kind := t.kind

theorem generateColumn_below (t : Tableau D m N) (j : Fin N) :
    Below (fun a b => E.info a = b) (t.generateColumn j) ((t.erase : Tableau BI m N).generateColumn j) :=
  E.leftMultiply _ _

theorem generateElement_below (t : Tableau D m N) (i : Fin m) (j : Fin N) :
    Below Eq (t.generateElement i j) ((t.erase : Tableau BI m N).generateElement i j) :=
  E.generateElement _ _ _

theorem bringIntoBasisDebug_below (t : Tableau D m N) (pivotColumn : Fin N) (pivotRow : Fin m)
    (info : Info D m) (cost : ℚ) :
    Below (fun a b => a.1.erase = b.1 ∧ a.2 = b.2) (t.bringIntoBasisDebug pivotColumn pivotRow info cost)
      ((t.erase : Tableau BI m N).bringIntoBasis pivotColumn pivotRow (E.info info) cost) := by
  unfold bringIntoBasisDebug bringIntoBasis
  refine (Carry.changeBasis_below t.carry t.kind pivotRow pivotColumn info cost).bind fun x y h => ?_
  obtain ⟨x1, x2⟩ := x
  obtain ⟨y1, y2⟩ := y
  obtain ⟨h1, h2⟩ := h
  simp only at h1 h2
  subst h1 h2
  exact .skip fun _ => .skip fun _ => .ok ⟨rfl, rfl⟩

theorem newFullyDebug_below (P : Provider m n) :
    Below (fun a b => a.erase = b) (newFullyDebug P : Res (Tableau D m (m + n))) (newFully P) :=
  .skip fun _ => (Carry.createForFullyArtificial_below n P.rhs).bind fun _ _ h => .ok (by subst h; rfl)

theorem newPartially_below (P : Provider m n) (real : List (Fin m × Fin n)) :
    Below (fun a b => a.erase = b) (newPartially P real : Res (Tableau D m _)) (newPartially P real) := by
  unfold newPartially
  split
  · exact .panicked _ _
  · simp only []
    split
    · split
      · exact (Carry.createForPartiallyArtificial_below _ _ _).bind fun _ _ h => .ok (by subst h; rfl)
      · exact .panicked _ _
    · exact .panicked _ _

theorem newPartiallyDebug_below (P : Provider m n) (real : List (Fin m × Fin n)) :
    Below (fun a b => a.erase = b) (newPartiallyDebug P real : Res (Tableau D m _)) (newPartially P real) := by
  unfold newPartiallyDebug
  refine .skip fun _ => ?_
  split
  · exact .panicked _ _
  · exact .skip fun _ => .skip fun _ => .skip fun _ => .skip fun _ => .skip fun _ => .skip fun _ =>
      newPartially_below P real

theorem fromArtificial_below {nrArtificial : ℕ} (carry : Carry D m (nrArtificial + n))
    (basis : Finset (Fin (nrArtificial + n))) (P : Provider m n) :
    Below (fun a b => a.erase = b) (fromArtificial carry basis P) (fromArtificial carry.erase basis P) :=
  (Carry.fromArtificial_below carry P).bind fun _ _ h => .bindEq (.refl _) fun _ => .ok (by subst h; rfl)

theorem removeBasisColumns_below (indices : Fin m → Fin N) (rows : List (Fin m)) (basis : Finset (Fin N)) :
    Below Eq (removeBasisColumns indices rows basis)
      (.ok (rows.foldl (fun basis row => basis.erase (indices row)) basis)) := by
  induction rows generalizing basis with
  | nil => exact .refl _
  | cons row rows ih =>
    rw [removeBasisColumns, List.foldl_cons]
    split
    · exact .error _ _
    · exact ih _

theorem fromArtificialRemovingRowsDebug_below {nrArtificial : ℕ} (carry : Carry D m (nrArtificial + n))
    (basis : Finset (Fin (nrArtificial + n))) (P : Provider m n) (rows : List (Fin m)) :
    Below (fun a b => a.erase = b) (fromArtificialRemovingRowsDebug carry basis P rows)
      (fromArtificialRemovingRows carry.erase basis P rows) := by
  unfold fromArtificialRemovingRowsDebug fromArtificialRemovingRows
  refine .skip fun _ => .skip fun _ => .skip fun _ => ?_
  refine .bindOk (removeBasisColumns_below _ _ _) fun _ h => ?_
  subst h
  refine .bindEq (.refl _) fun _ => .skip fun _ => ?_
  exact (Carry.fromArtificialRemoveRows_below carry P rows).bind fun _ _ h => .ok (by subst h; rfl)

end Tableau

/-! ### Pivot rules -/

/-- A pivot rule that makes the same choices in a debug build. -/
class BelowRule (R : ℕ → Type) [PivotRule R] [DebugRule R] : Prop where
  new : ∀ {D BI : ℕ → Type} [BasisInverse D] [BasisInverse BI] [Erases D BI] {m N : ℕ} (t : Tableau D m N),
    Below Eq (PivotRule.new t : Res (R N)) (PivotRule.new t.erase)
  select : ∀ {D BI : ℕ → Type} [BasisInverse D] [BasisInverse BI] [Erases D BI] {m N : ℕ} (r : R N)
    (t : Tableau D m N), Below Eq (PivotRule.select r t) (PivotRule.select r t.erase)
  afterUpdate : ∀ {D BI : ℕ → Type} [BasisInverse D] [BasisInverse BI] [Erases D BI] {m N : ℕ} (r : R N)
    (change : BasisChangeInfo m N) (t : Tableau D m N),
    Below Eq (DebugRule.afterUpdateDebug r change t) (PivotRule.afterUpdate r change t.erase)

instance : BelowRule FirstProfitable where
  new _ := .refl _
  select _ _ := .refl _
  afterUpdate _ _ _ := .refl _

instance : BelowRule FirstProfitableWithMemory where
  new _ := .refl _
  select _ _ := .refl _
  afterUpdate _ _ _ := .refl _

instance : BelowRule SteepestDescentAlongVariable where
  new _ := .refl _
  select _ _ := .refl _
  afterUpdate _ _ _ := .refl _

namespace SteepestDescentAlongObjective

theorem initialGamma_below (j : Fin N) (t : Tableau D m N) :
    Below Eq (initialGamma j t) (initialGamma j (t.erase : Tableau BI m N)) := by
  unfold initialGamma
  refine (t.generateColumn_below j).bind fun info _ h => ?_
  subst h
  rw [E.infoColumn]
  exact .refl _

theorem new_below (t : Tableau D m N) : Below Eq (new t) (new (t.erase : Tableau BI m N)) := by
  unfold new
  refine .bindEq (.tabulateMEq fun j => ?_) fun _ => .refl _
  change Below Eq (if _ then _ else _) (if t.kind.start ≤ (j : ℕ) ∧ (!t.isInBasis j) = true then _ else _)
  split
  · exact .bindEq (initialGamma_below j t) fun _ => .refl _
  · exact .refl _

end SteepestDescentAlongObjective

instance : BelowRule SteepestDescentAlongObjective where
  new t := SteepestDescentAlongObjective.new_below t
  select _ _ := .refl _
  afterUpdate _ _ _ := .skip fun _ => .refl _

instance RuleName.instBelowRule : (rule : RuleName) → BelowRule rule.type
  | .firstProfitable => inferInstanceAs (BelowRule FirstProfitable)
  | .firstProfitableWithMemory => inferInstanceAs (BelowRule FirstProfitableWithMemory)
  | .steepestDescentAlongVariable => inferInstanceAs (BelowRule SteepestDescentAlongVariable)
  | .steepestDescentAlongObjective => inferInstanceAs (BelowRule SteepestDescentAlongObjective)

/-! ### The phases -/

theorem Below.findM {α : Type} {p q : α → Res Bool} (h : ∀ a, Below Eq (p a) (q a)) (l : List α) :
    Below Eq (Relp.findM p l) (Relp.findM q l) := by
  induction l with
  | nil => exact .refl _
  | cons a l ih =>
    rw [Relp.findM]
    cases hp : p a with
    | error e => exact .error _ _
    | ok b =>
      rw [Relp.findM, (h a).elim hp]
      cases b
      · exact ih
      · exact .refl _

theorem removeArtificialStepDebug_below (t : Tableau D m N) (pivotRow : Fin m) (artificial : Fin N) :
    Below (fun a b => a.1.erase = b.1 ∧ a.2 = b.2) (removeArtificialStepDebug t pivotRow artificial)
      (removeArtificialStep (t.erase : Tableau BI m N) pivotRow artificial) := by
  unfold removeArtificialStepDebug removeArtificialStep
  refine .skip fun _ => .bindEq (.refl _) fun value => ?_
  simp only []
  split
  all_goals
    refine .bindEq (.findM (fun p => .bindEq (t.generateElement_below _ _) fun _ => .refl _) _) fun found => ?_
    cases found with
    | none => exact .skip fun _ => .ok ⟨rfl, rfl⟩
    | some p =>
      refine (t.generateColumn_below p.1).bind fun info _ h => ?_
      subst h
      refine (t.bringIntoBasisDebug_below p.1 pivotRow info p.2).bind fun x y h => ?_
      exact .skip fun _ => .skip fun _ => .ok ⟨h.1, rfl⟩

theorem removeArtificialLoopDebug_below (l : List (Fin m × Fin N)) (t : Tableau D m N) (rows : List (Fin m)) :
    Below (fun a b => a.1.erase = b.1 ∧ a.2 = b.2) (removeArtificialLoopDebug l t rows)
      (removeArtificialLoop l (t.erase : Tableau BI m N) rows) := by
  induction l generalizing t rows with
  | nil => exact .ok ⟨rfl, rfl⟩
  | cons p l ih =>
    obtain ⟨pivotRow, artificial⟩ := p
    rw [removeArtificialLoopDebug]
    cases hs : removeArtificialStepDebug t pivotRow artificial with
    | error e => exact .error _ _
    | ok x =>
      obtain ⟨⟨t', o'⟩, hr, h1, h2⟩ := removeArtificialStepDebug_below t pivotRow artificial x hs
      obtain ⟨t1, o1⟩ := x
      simp only at h1 h2
      subst h1 h2
      rw [removeArtificialLoop, hr]
      cases o1
      · exact ih _ _
      · exact ih _ _

theorem removeArtificialBasisVariablesDebug_below (t : Tableau D m N) :
    Below (fun a b => a.1.erase = b.1 ∧ a.2 = b.2) (removeArtificialBasisVariablesDebug t)
      (removeArtificialBasisVariables (t.erase : Tableau BI m N)) := by
  unfold removeArtificialBasisVariablesDebug removeArtificialBasisVariables
  refine .skip fun _ => ?_
  intro a ha
  cases h : removeArtificialLoopDebug t.artificialBasisColumns t [] with
  | error e => rw [h] at ha; cases ha
  | ok b =>
    obtain ⟨c, hc, hs⟩ := removeArtificialLoopDebug_below (BI := BI) t.artificialBasisColumns t [] b h
    rw [h] at ha
    refine ⟨c, hc, ?_⟩
    have := (Below.skip fun _ => Below.refl (pure b)).elim ha
    cases this
    exact hs

/-- The same result of phase one with the basis inverse of a release build. -/
def Feasibility.erase : Feasibility D m N → Feasibility BI m N
  | .feasible rank carry basis => .feasible rank carry.erase basis
  | .infeasible => .infeasible

theorem phaseOneExitDebug_below (t : Tableau D m N) :
    Below (fun a b => a.erase = b) (phaseOneExitDebug t) (phaseOneExit (t.erase : Tableau BI m N)) := by
  unfold phaseOneExitDebug phaseOneExit
  change Below _ _ (if t.objectiveFunctionValue = 0 then
    if t.hasArtificialInBasis = true then _ else _ else _)
  split
  · split
    · refine (removeArtificialBasisVariablesDebug_below t).bind fun x y h => ?_
      obtain ⟨x1, x2⟩ := x
      obtain ⟨y1, y2⟩ := y
      obtain ⟨h1, h2⟩ := h
      simp only at h1 h2
      subst h1 h2
      simp only []
      split
      · exact .ok rfl
      · exact .ok rfl
    · exact .ok rfl
  · exact .ok rfl

section

variable {R : ℕ → Type} [PivotRule R] [DebugRule R] [BelowRule R]

theorem phaseOneLoopDebug_below (fuel : ℕ) (rule : R N) (t : Tableau D m N) :
    Below (fun a b => a.erase = b) (phaseOneLoopDebug fuel rule t)
      (phaseOneLoop fuel rule (t.erase : Tableau BI m N)) := by
  induction fuel generalizing rule t with
  | zero => exact .error _ _
  | succ fuel ih =>
    rw [phaseOneLoopDebug, phaseOneLoop]
    refine .skip fun _ => .bindEq (BelowRule.select rule t) fun x => ?_
    obtain ⟨selected, rule⟩ := x
    cases selected with
    | none => exact phaseOneExitDebug_below t
    | some p =>
      refine (t.generateColumn_below p.1).bind fun info _ h => ?_
      subst h
      rw [E.infoColumn]
      change Below _ _ (match t.selectPrimalPivotRow (infoColumn info) with
        | some pivotRow => _
        | none => _)
      cases t.selectPrimalPivotRow (infoColumn info) with
      | none => exact .panicked _ _
      | some pivotRow =>
        refine (t.bringIntoBasisDebug_below p.1 pivotRow info p.2).bind fun x y h => ?_
        obtain ⟨x1, x2⟩ := x
        obtain ⟨y1, y2⟩ := y
        obtain ⟨h1, h2⟩ := h
        simp only at h1 h2
        subst h1 h2
        exact .bindEq (BelowRule.afterUpdate rule x2 x1) fun rule => ih rule x1

theorem phaseOneDebug_below (fuel : ℕ) (t : Tableau D m N) :
    Below (fun a b => a.erase = b) (phaseOneDebug R fuel t) (phaseOne R fuel (t.erase : Tableau BI m N)) :=
  .bindEq (BelowRule.new t) fun rule => phaseOneLoopDebug_below fuel rule t

theorem phaseTwoLoopDebug_below (fuel : ℕ) (rule : R N) (t : Tableau D m N) :
    Below Eq (phaseTwoLoopDebug fuel rule t) (phaseTwoLoop fuel rule (t.erase : Tableau BI m N)) := by
  induction fuel generalizing rule t with
  | zero => exact .error _ _
  | succ fuel ih =>
    rw [phaseTwoLoopDebug, phaseTwoLoop]
    refine .skip fun _ => .bindEq (BelowRule.select rule t) fun x => ?_
    obtain ⟨selected, rule⟩ := x
    cases selected with
    | none =>
      refine .bindOk (S := Eq) (b := t.currentBfs) (.skip fun _ => .refl _) fun _ h => ?_
      subst h
      exact .refl _
    | some p =>
      refine (t.generateColumn_below p.1).bind fun info _ h => ?_
      subst h
      rw [E.infoColumn]
      change Below _ _ (match t.selectPrimalPivotRow (infoColumn info) with
        | some pivotRow => _
        | none => _)
      cases t.selectPrimalPivotRow (infoColumn info) with
      | none => exact .refl _
      | some pivotRow =>
        refine (t.bringIntoBasisDebug_below p.1 pivotRow info p.2).bind fun x y h => ?_
        obtain ⟨x1, x2⟩ := x
        obtain ⟨y1, y2⟩ := y
        obtain ⟨h1, h2⟩ := h
        simp only at h1 h2
        subst h1 h2
        exact .bindEq (BelowRule.afterUpdate rule x2 x1) fun rule => ih rule x1

theorem phaseTwoDebug_below (fuel : ℕ) (t : Tableau D m N) :
    Below Eq (phaseTwoDebug R fuel t) (phaseTwo R fuel (t.erase : Tableau BI m N)) :=
  .bindEq (BelowRule.new t) fun rule => phaseTwoLoopDebug_below fuel rule t

theorem solveAfterPhaseOneDebug_below (fuel : ℕ) {nrArtificial : ℕ} (P : Provider m n)
    (f : Feasibility D m (nrArtificial + n)) :
    Below Eq (solveAfterPhaseOneDebug R fuel P f) (solveAfterPhaseOne R fuel P (f.erase : Feasibility BI _ _)) := by
  have full : ∀ carry basis, Below Eq
      ((Tableau.fromArtificial carry basis P : Res (Tableau D m n)) >>= fun t => phaseTwoDebug R fuel t)
      ((Tableau.fromArtificial (nrArtificial := nrArtificial) (carry.erase : Carry BI _ _) basis P) >>=
        fun t => phaseTwo R fuel t) := fun carry basis =>
    (Tableau.fromArtificial_below carry basis P).bind fun t _ h => by subst h; exact phaseTwoDebug_below fuel t
  match f with
  | .infeasible => exact .refl _
  | .feasible .full carry basis => exact full carry basis
  | .feasible (.deficient []) carry basis => exact full carry basis
  | .feasible (.deficient (row :: rows)) carry basis =>
    exact (Tableau.fromArtificialRemovingRowsDebug_below carry basis P (row :: rows)).bind fun t _ h => by
      subst h; exact phaseTwoDebug_below fuel t

theorem primalFromBasisDebug_below (fuel : ℕ) (P : Provider m n) (basis : Fin m → Fin n) :
    Below Eq (primalFromBasisDebug D R fuel P basis) (primalFromBasis BI R fuel P basis) :=
  (Carry.fromBasis_below P basis).bind fun _ _ h => by subst h; exact phaseTwoDebug_below fuel _

theorem solveWithDebug_below (fuel : ℕ) (P : Provider m n) (start : InitialBasis m n) :
    Below Eq (solveWithDebug D R fuel P start) (solveWith BI R fuel P start) := by
  cases start with
  | none =>
    refine (Tableau.newFullyDebug_below P).bind fun t _ h => ?_
    subst h
    refine (phaseOneDebug_below fuel t).bind fun f _ h => ?_
    subst h
    exact solveAfterPhaseOneDebug_below fuel P f
  | partially pivots =>
    refine (Tableau.newPartiallyDebug_below P pivots).bind fun t _ h => ?_
    subst h
    refine (phaseOneDebug_below fuel t).bind fun f _ h => ?_
    subst h
    exact solveAfterPhaseOneDebug_below fuel P f
  | fully pivots =>
    change Below Eq (dite _ _ _) (dite _ _ _)
    split
    · exact (Carry.fromBasis_below P _).bind fun _ _ h => by subst h; exact phaseTwoDebug_below fuel _
    · exact .panicked _ _

end

theorem solveRelaxationDebug_below (inv : InverseName) (rule : RuleName) (fuel : ℕ) (P : Provider m n)
    (start : InitialBasis m n) :
    Below Eq (solveRelaxationDebug inv rule fuel P start) (solveRelaxation inv rule fuel P start) := by
  have := RuleName.instBelowRule rule
  cases inv
  · exact solveWithDebug_below (D := DebugRows) (BI := BasisInverseRows) (R := rule.type) fuel P start
  · exact solveWithDebug_below (D := DebugLU) (BI := LU) (R := rule.type) fuel P start

end Relp
