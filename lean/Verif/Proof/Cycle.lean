import Verif.Proof.Termination

/-! # Runs that return to a state -/

namespace Relp

open BasisInverse

section Decidable

instance {m : ℕ} : DecidableEq (BasisInverseRows m) := fun a b =>
  decidable_of_iff (a.rows = b.rows) (by cases a; cases b; simp)

instance {m N : ℕ} : DecidableEq (Carry BasisInverseRows m N) := fun a b =>
  decidable_of_iff (a.minusObjective = b.minusObjective ∧ a.minusPi = b.minusPi ∧ a.b = b.b ∧
    a.basisIndices = b.basisIndices ∧ a.basisInverse = b.basisInverse) (by cases a; cases b; simp)

instance {N : ℕ} : DecidableEq (SteepestDescentAlongObjective N) := fun a b =>
  decidable_of_iff (a.gamma = b.gamma) (by cases a; cases b; simp)

deriving instance DecidableEq for SteepestDescentAlongVariable

instance {N : ℕ} : DecidableEq (FirstProfitableWithMemory N) := fun a b =>
  decidable_of_iff (a.lastSelected = b.lastSelected) (by cases a; cases b; simp)

instance {α : Type} [DecidableEq α] : DecidableEq (Res α) := fun a b =>
  match a, b with
  | .ok a, .ok b => decidable_of_iff (a = b) (by simp)
  | .error a, .error b => decidable_of_iff (a = b) (by simp)
  | .ok _, .error _ => isFalse (by simp)
  | .error _, .ok _ => isFalse (by simp)

end Decidable

/-- What changes in the course of phase two. -/
abbrev LoopState (R : ℕ → Type) (m N : ℕ) := R N × Carry BasisInverseRows m N × Finset (Fin N)

variable {R : ℕ → Type} [PivotRule R] {m n N : ℕ}

/-- The tableau of a state. -/
def LoopState.tableau (kind : Kind m N) (s : LoopState R m N) : Tableau BasisInverseRows m N :=
  ⟨s.2.1, s.2.2, kind⟩

/-- One iteration of the loop of phase two, if there is one. -/
def LoopState.next (kind : Kind m N) (s : LoopState R m N) : Res (Option (LoopState R m N)) := do
  let (selected, rule) ← PivotRule.select s.1 (LoopState.tableau kind s)
  match selected with
  | some (pivotColumn, cost) =>
    let info ← (LoopState.tableau kind s).generateColumn pivotColumn
    match (LoopState.tableau kind s).selectPrimalPivotRow (infoColumn info) with
    | some pivotRow =>
      let (t, change) ← (LoopState.tableau kind s).bringIntoBasis pivotColumn pivotRow info cost
      let rule ← PivotRule.afterUpdate rule change t
      pure (some (rule, t.carry, t.basisColumns))
    | none => pure none
  | none => pure none

theorem bringIntoBasis_kind {BI : ℕ → Type} [BasisInverse BI] {t t' : Tableau BI m N} {j : Fin N}
    {p : Fin m} {info : Info BI m} {cost : ℚ} {change}
    (h : t.bringIntoBasis j p info cost = .ok (t', change)) : t'.kind = t.kind := by
  unfold Tableau.bringIntoBasis at h
  obtain ⟨⟨c, ch⟩, h1, h2⟩ := bind_eq_ok h
  cases h2
  rfl

theorem LoopState.loop {kind : Kind m N} {s s' : LoopState R m N}
    (h : LoopState.next kind s = .ok (some s')) (fuel : ℕ) :
    phaseTwoLoop (fuel + 1) s.1 (LoopState.tableau kind s)
      = phaseTwoLoop fuel s'.1 (LoopState.tableau kind s') := by
  unfold LoopState.next at h
  obtain ⟨⟨sel, r⟩, h1, h2⟩ := bind_eq_ok h
  rw [phaseTwoLoop]
  simp only [h1, bind, Except.bind]
  cases sel with
  | none => cases h2
  | some jc =>
    obtain ⟨j, c⟩ := jc
    obtain ⟨info, h3, h4⟩ := bind_eq_ok h2
    simp only [h3]
    cases hp : (LoopState.tableau kind s).selectPrimalPivotRow (infoColumn info) with
    | none => rw [hp] at h4; cases h4
    | some p =>
      rw [hp] at h4
      obtain ⟨⟨t, change⟩, h5, h6⟩ := bind_eq_ok h4
      obtain ⟨r', h7, h8⟩ := bind_eq_ok h6
      cases h8
      have hk := bringIntoBasis_kind h5
      simp only [h5, h7]
      congr 1
      cases t
      cases hk
      rfl

/-- If every state of a sequence leads to the next one and the last one was met before, then the loop
does not end. -/
theorem LoopState.cycle {kind : Kind m N} {K L : ℕ} (states : ℕ → LoopState R m N)
    (hnext : ∀ k < K, LoopState.next kind (states k) = .ok (some (states (k + 1))))
    (hL : L < K) (hcycle : states K = states L) (fuel : ℕ) :
    phaseTwoLoop fuel (states 0).1 (LoopState.tableau kind (states 0)) = .error .outOfFuel := by
  have key : ∀ fuel, ∀ k < K,
      phaseTwoLoop fuel (states k).1 (LoopState.tableau kind (states k)) = .error .outOfFuel := by
    intro fuel
    induction fuel with
    | zero => intros; rfl
    | succ fuel ih =>
      intro k hk
      rw [LoopState.loop (hnext k hk)]
      rcases Nat.lt_or_ge (k + 1) K with h | h
      · exact ih _ h
      · rw [show k + 1 = K by omega, hcycle]
        exact ih L hL
  exact key fuel 0 (by omega)

/-- The state at the start of phase two for a provider with a full set of initial basis columns, if
phase one ends immediately. -/
def LoopState.begin (R : ℕ → Type) [PivotRule R] (P : Provider m n) (pivots : List (Fin m × Fin n)) :
    Res (Option (LoopState R m n)) := do
  let t ← (Tableau.newPartially P pivots :
    Res (Tableau BasisInverseRows m ((m - pivots.length) + n)))
  let f ← phaseOne R 1 t
  match f with
  | .feasible .full carry basis =>
    let t ← Tableau.fromArtificial carry basis P
    let r ← (PivotRule.new t : Res (R n))
    pure (some (r, t.carry, t.basisColumns))
  | _ => pure none

theorem fromArtificial_kind {nrArtificial : ℕ} {BI : ℕ → Type} [BasisInverse BI]
    {carry : Carry BI m (nrArtificial + n)} {basis : Finset (Fin (nrArtificial + n))}
    {P : Provider m n} {t : Tableau BI m n} (h : Tableau.fromArtificial carry basis P = .ok t) :
    t.kind = Tableau.nonArtificialKind P := by
  unfold Tableau.fromArtificial at h
  obtain ⟨c, h1, h2⟩ := bind_eq_ok h
  obtain ⟨b, h3, h4⟩ := bind_eq_ok h2
  cases h4
  rfl

theorem LoopState.solve {P : Provider m n} {pivots : List (Fin m × Fin n)} {s : LoopState R m n}
    (h : LoopState.begin R P pivots = .ok (some s)) (fuel : ℕ) :
    solvePartially BasisInverseRows R (fuel + 1) P pivots
      = phaseTwoLoop (fuel + 1) s.1 (LoopState.tableau (Tableau.nonArtificialKind P) s) := by
  unfold LoopState.begin at h
  obtain ⟨t, h1, h2⟩ := bind_eq_ok h
  obtain ⟨f, h3, h4⟩ := bind_eq_ok h2
  have h3' : phaseOne R (fuel + 1) t = .ok f := by
    rcases phaseOne_sticky (R := R) (Nat.le_add_left 1 fuel) t with h5 | h5
    · rw [h3] at h5; cases h5
    · rw [← h5, h3]
  unfold solvePartially
  simp only [h1, h3', bind, Except.bind]
  match f with
  | .infeasible => cases h4
  | .feasible (.deficient _) _ _ => cases h4
  | .feasible .full carry basis =>
    obtain ⟨t', h5, h6⟩ := bind_eq_ok h4
    obtain ⟨r, h7, h8⟩ := bind_eq_ok h6
    cases h8
    have hk := fromArtificial_kind h5
    simp only [solveAfterPhaseOne, h5, phaseTwo, h7, bind, Except.bind]
    congr 1
    cases t'
    cases hk
    rfl

end Relp
