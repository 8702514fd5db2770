import Verif.Spec.Presolve

/-!
# Problems for which presolving only substitutes fixed variables and uses constraints as bounds
-/

namespace Relp.Presolve

/-- The constraint has more than one variable. -/
def Several (G : GeneralForm) (i : ℕ) : Prop :=
  ∃ j < G.vars.length, ∃ k < G.vars.length, j ≠ k ∧ coef G i j ≠ 0 ∧ coef G i k ≠ 0

/-- Nothing limits the variable by itself in a direction: it has no bound there, and is in no constraint
without other variables. -/
def Loose (G : GeneralForm) (j : ℕ) (d : BoundDirection) : Prop :=
  originalBound G j d = none ∧ ∀ i < G.constraintTypes.length, coef G i j ≠ 0 → Several G i

/-- The left-hand side of a constraint can be made arbitrarily small (`lower`) or large with either of two
variables. -/
def Free (G : GeneralForm) (i : ℕ) (d : BoundDirection) : Prop :=
  ∃ j < G.vars.length, ∃ k < G.vars.length, j ≠ k ∧
    (coef G i j ≠ 0 ∧ Loose G j (d.times (coef G i j))) ∧
    coef G i k ≠ 0 ∧ Loose G k (d.times (coef G i k))

/-- Each constraint with more than one variable is free in both directions, and each variable without cost
that is in a constraint is in two constraints with other variables. -/
structure Roomy (G : GeneralForm) : Prop where
  rows : ∀ i < G.constraintTypes.length, Several G i → Free G i .lower ∧ Free G i .upper
  costs : ∀ j < G.vars.length, costOf G j = 0 → (∀ i < G.constraintTypes.length, coef G i j = 0) ∨
    ∃ i < G.constraintTypes.length, ∃ k < G.constraintTypes.length, i ≠ k ∧
      (coef G i j ≠ 0 ∧ Several G i) ∧ coef G k j ≠ 0 ∧ Several G k

instance (G : GeneralForm) (i : ℕ) : Decidable (Several G i) := by unfold Several; infer_instance

instance (G : GeneralForm) (j : ℕ) (d : BoundDirection) : Decidable (Loose G j d) := by
  unfold Loose; infer_instance

instance (G : GeneralForm) (i : ℕ) (d : BoundDirection) : Decidable (Free G i d) := by
  unfold Free; infer_instance

end Relp.Presolve
