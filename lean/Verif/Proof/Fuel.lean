import Verif.Proof.Relaxation

/-! # More fuel does not change a result -/

namespace Relp

open BasisInverse

/-- Unless the first computation is out of fuel, the second one is the same. -/
def Sticky {α : Type} (x y : Res α) : Prop := x = .error .outOfFuel ∨ x = y

namespace Sticky

variable {α β : Type}

theorem refl (x : Res α) : Sticky x x := Or.inr rfl

theorem bind {x y : Res α} {f g : α → Res β} (h : Sticky x y) (hf : ∀ a, Sticky (f a) (g a)) :
    Sticky (x >>= f) (y >>= g) := by
  rcases h with rfl | rfl
  · exact Or.inl rfl
  · match x with
    | .ok a => exact hf a
    | .error _ => exact Or.inr rfl

end Sticky

variable {BI : ℕ → Type} [BasisInverse BI] {R : ℕ → Type} [PivotRule R] {m n N : ℕ}

theorem phaseTwoLoop_sticky {k k' : ℕ} (h : k ≤ k') (r : R N) (t : Tableau BI m N) :
    Sticky (phaseTwoLoop k r t) (phaseTwoLoop k' r t) := by
  induction k generalizing k' r t with
  | zero => exact Or.inl rfl
  | succ k ih =>
    obtain ⟨k', rfl⟩ : ∃ l, k' = l + 1 := ⟨k' - 1, by omega⟩
    rw [phaseTwoLoop, phaseTwoLoop]
    refine Sticky.bind (Sticky.refl _) fun a => ?_
    match a with
    | (none, _) => exact Sticky.refl _
    | (some (j, c), r') =>
      refine Sticky.bind (Sticky.refl _) fun info => ?_
      cases t.selectPrimalPivotRow (infoColumn info) with
      | none => exact Sticky.refl _
      | some p =>
        refine Sticky.bind (Sticky.refl _) fun b => ?_
        refine Sticky.bind (Sticky.refl _) fun r'' => ?_
        exact ih (by omega) _ _

theorem phaseOneLoop_sticky {k k' : ℕ} (h : k ≤ k') (r : R N) (t : Tableau BI m N) :
    Sticky (phaseOneLoop k r t) (phaseOneLoop k' r t) := by
  induction k generalizing k' r t with
  | zero => exact Or.inl rfl
  | succ k ih =>
    obtain ⟨k', rfl⟩ : ∃ l, k' = l + 1 := ⟨k' - 1, by omega⟩
    rw [phaseOneLoop, phaseOneLoop]
    refine Sticky.bind (Sticky.refl _) fun a => ?_
    match a with
    | (none, _) => exact Sticky.refl _
    | (some (j, c), r') =>
      refine Sticky.bind (Sticky.refl _) fun info => ?_
      cases t.selectPrimalPivotRow (infoColumn info) with
      | none => exact Sticky.refl _
      | some p =>
        refine Sticky.bind (Sticky.refl _) fun b => ?_
        refine Sticky.bind (Sticky.refl _) fun r'' => ?_
        exact ih (by omega) _ _

theorem phaseTwo_sticky {k k' : ℕ} (h : k ≤ k') (t : Tableau BI m N) :
    Sticky (phaseTwo R k t) (phaseTwo R k' t) :=
  Sticky.bind (Sticky.refl _) fun r => phaseTwoLoop_sticky h r t

theorem phaseOne_sticky {k k' : ℕ} (h : k ≤ k') (t : Tableau BI m N) :
    Sticky (phaseOne R k t) (phaseOne R k' t) :=
  Sticky.bind (Sticky.refl _) fun r => phaseOneLoop_sticky h r t

theorem solveAfterPhaseOne_sticky {k k' : ℕ} (h : k ≤ k') {nrArtificial : ℕ} (P : Provider m n)
    (f : Feasibility BI m (nrArtificial + n)) :
    Sticky (solveAfterPhaseOne R k P f) (solveAfterPhaseOne R k' P f) := by
  match f with
  | .infeasible => exact Sticky.refl _
  | .feasible .full carry basis =>
    exact Sticky.bind (Sticky.refl _) fun t => phaseTwo_sticky h t
  | .feasible (.deficient []) carry basis =>
    exact Sticky.bind (Sticky.refl _) fun t => phaseTwo_sticky h t
  | .feasible (.deficient (row :: rows)) carry basis =>
    exact Sticky.bind (Sticky.refl _) fun t => phaseTwo_sticky h t

theorem solveWith_sticky {k k' : ℕ} (h : k ≤ k') (P : Provider m n) (start : InitialBasis m n) :
    Sticky (solveWith BI R k P start) (solveWith BI R k' P start) := by
  cases start with
  | none =>
    exact Sticky.bind (Sticky.refl _) fun t =>
      Sticky.bind (phaseOne_sticky h t) fun f => solveAfterPhaseOne_sticky h P f
  | partially pivots =>
    exact Sticky.bind (Sticky.refl _) fun t =>
      Sticky.bind (phaseOne_sticky h t) fun f => solveAfterPhaseOne_sticky h P f
  | fully pivots =>
    change Sticky (solveFull BI R k P pivots) (solveFull BI R k' P pivots)
    unfold solveFull
    dsimp only
    split_ifs
    · exact Sticky.bind (Sticky.refl _) fun c => phaseTwo_sticky h _
    · exact Sticky.refl _

/-- A run that has ended gives the same result with any other amount of fuel that suffices. -/
theorem solveRelaxation_unique {inv : InverseName} {rule : RuleName} {P : Provider m n}
    {start : InitialBasis m n} {k k' : ℕ}
    (h : solveRelaxation inv rule k P start ≠ .error .outOfFuel)
    (h' : solveRelaxation inv rule k' P start ≠ .error .outOfFuel) :
    solveRelaxation inv rule k P start = solveRelaxation inv rule k' P start := by
  rcases le_total k k' with hk | hk
  · exact (solveWith_sticky hk P start).resolve_left h
  · exact ((solveWith_sticky hk P start).resolve_left h').symm

end Relp
