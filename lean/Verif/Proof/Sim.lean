import Verif.Proof.Rows
import Verif.Proof.Full

/-!
# A representation in lock step with the row-wise basis inverse

Unless an operation of the other representation aborts, the solver does with it exactly what it does
with the row-wise representation.
-/

set_option linter.unusedSectionVars false

namespace Relp

open Matrix BasisInverse LawfulBasisInverse Tableau

/-- Unless the first computation aborts, the second one does the same; values are related. -/
def Follows {α β : Type} (S : α → β → Prop) : Res α → Res β → Prop
  | .ok a, y => ∃ b, y = .ok b ∧ S a b
  | .error .outOfFuel, y => y = .error .outOfFuel
  | .error (.panic _), _ => True

namespace Follows

variable {α β γ δ : Type} {S : α → β → Prop} {T : γ → δ → Prop}

theorem ok {a : α} {b : β} (h : S a b) : Follows S (.ok a) (.ok b) := ⟨b, rfl, h⟩

theorem panicked (p : Panic) (y : Res β) : Follows S (panic p) y := trivial

theorem bind {x : Res α} {y : Res β} {f : α → Res γ} {g : β → Res δ} (h : Follows S x y)
    (hf : ∀ a b, S a b → x = .ok a → y = .ok b → Follows T (f a) (g b)) :
    Follows T (x >>= f) (y >>= g) := by
  match x, h with
  | .ok a, ⟨b, hb, hs⟩ => subst hb; exact hf a b hs rfl rfl
  | .error .outOfFuel, h => subst h; exact rfl
  | .error (.panic _), _ => trivial

theorem refl {x : Res α} {S : α → α → Prop} (h : ∀ a, S a a) : Follows S x x := by
  match x with
  | .ok a => exact ⟨a, rfl, h a⟩
  | .error .outOfFuel => exact rfl
  | .error (.panic _) => trivial

theorem of_eq {x y : Res α} {S : α → α → Prop} (h : ∀ a, S a a) (hxy : x = y) : Follows S x y :=
  hxy ▸ refl h

theorem mono {x : Res α} {y : Res β} {S' : α → β → Prop} (h : Follows S x y)
    (hs : ∀ a b, S a b → S' a b) : Follows S' x y := by
  match x, h with
  | .ok a, ⟨b, hb, h⟩ => exact ⟨b, hb, hs a b h⟩
  | .error .outOfFuel, h => exact h
  | .error (.panic _), _ => trivial

end Follows

/-- Representations whose operations are exact or abort. Only inverting a matrix, changing the basis and
removing rows may abort. -/
class FollowingInverse (BI : ℕ → Type) [BasisInverse BI] where
  Dim : ℕ → Prop
  Rep : {m : ℕ} → BI m → Matrix (Fin m) (Fin m) ℚ → Prop
  ne_zero : ∀ {m : ℕ}, Dim m → m ≠ 0
  identity_ok : ∀ {m : ℕ}, Dim m → ∃ bi : BI m, identity m = .ok bi ∧ Rep bi 1
  invert_ok : ∀ {m : ℕ}, Dim m → ∀ {columns : Fin m → Sparse m}, (∀ i, SVec.WF (columns i)) →
    ∀ {M : Matrix (Fin m) (Fin m) ℚ}, M * columnsMatrix columns = 1 →
    (∃ e, (invert columns : Res (BI m)) = panic e) ∨ ∃ bi : BI m, invert columns = .ok bi ∧ Rep bi M
  left_ok : ∀ {m : ℕ}, Dim m → ∀ {bi : BI m} {M}, Rep bi M → ∀ {column : Sparse m},
    SVec.WF column → ∃ info, leftMultiply bi column = .ok info ∧ SVec.WF (infoColumn info) ∧
      SVec.val (infoColumn info) = M *ᵥ SVec.val column
  change_ok : ∀ {m : ℕ}, Dim m → ∀ {bi : BI m} {M}, Rep bi M → ∀ {column : Sparse m},
    SVec.WF column → ∀ {info}, leftMultiply bi column = .ok info → shouldRefactor bi = false →
      ∀ {p}, (M *ᵥ SVec.val column) p ≠ 0 →
      (∃ e, changeBasis bi p info = panic e) ∨
      ∃ bi', changeBasis bi p info = .ok (bi', infoColumn info) ∧
        Rep bi' (pivotUpdate M (M *ᵥ SVec.val column) p)
  right_ok : ∀ {m : ℕ}, Dim m → ∀ {bi : BI m} {M}, Rep bi M → ∀ {row : Sparse m},
    SVec.WF row → row ≠ [] → ∃ r, rightMultiply bi row = .ok r ∧ SVec.WF r ∧
      SVec.val r = SVec.val row ᵥ* M
  element_ok : ∀ {m : ℕ}, Dim m → ∀ {bi : BI m} {M}, Rep bi M → ∀ {column : Sparse m},
    SVec.WF column → ∀ i, generateElement bi i column = .ok (
      if (M *ᵥ SVec.val column) i = 0 then none else some ((M *ᵥ SVec.val column) i))
  row_ok : ∀ {m : ℕ}, Dim m → ∀ {bi : BI m} {M}, Rep bi M → ∀ i,
    ∃ r, basisInverseRow bi i = .ok r ∧ SVec.WF r ∧ SVec.val r = M i
  remove_ok : ∀ {m : ℕ}, Dim m → ∀ {bi : BI m} {M}, Rep bi M → ∀ (rows : List (Fin m)),
    rows.Pairwise (· < ·) → ∀ {columns : Fin (keptLen rows) → Sparse (keptLen rows)},
    (∀ i, SVec.WF (columns i)) →
    M.submatrix (kept rows).get (kept rows).get * columnsMatrix columns = 1 →
    (∃ e, removeBasis rows bi columns = panic e) ∨
    ∃ bi', removeBasis rows bi columns = .ok bi' ∧ Dim (keptLen rows) ∧
      Rep bi' (M.submatrix (kept rows).get (kept rows).get)

variable {BI : ℕ → Type} [BasisInverse BI] [FollowingInverse BI]
variable {m n N : ℕ}

/-- The two tableaus hold the same numbers, and the inverses represent the same matrix. -/
structure Sim (rhs : Fin m → ℚ) (M : Matrix (Fin m) (Fin m) ℚ) (t : Tableau BI m N)
    (u : Tableau BasisInverseRows m N) : Prop where
  obj : t.carry.minusObjective = u.carry.minusObjective
  pi : t.carry.minusPi = u.carry.minusPi
  b : t.carry.b = u.carry.b
  basis : t.carry.basisIndices = u.carry.basisIndices
  cols : t.basisColumns = u.basisColumns
  kind : t.kind = u.kind
  dim : FollowingInverse.Dim BI m
  rep : FollowingInverse.Rep t.carry.basisInverse M
  exact : u.Exact rhs M

section

variable {rhs : Fin m → ℚ} {M : Matrix (Fin m) (Fin m) ℚ} {t : Tableau BI m N}
  {u : Tableau BasisInverseRows m N}

theorem Sim.relativeCost (h : Sim rhs M t u) (j : Fin N) : t.relativeCost j = u.relativeCost j := by
  unfold Tableau.relativeCost Carry.costDifference
  rw [h.pi, h.kind]

theorem Sim.isInBasis (h : Sim rhs M t u) (j : Fin N) : t.isInBasis j = u.isInBasis j := by
  unfold Tableau.isInBasis
  rw [h.cols]

theorem Sim.candidatesIn (h : Sim rhs M t u) (lower upper : ℕ) :
    t.candidatesIn lower upper = u.candidatesIn lower upper := by
  unfold Tableau.candidatesIn
  simp only [h.isInBasis, h.relativeCost]

theorem Sim.candidates (h : Sim rhs M t u) : t.candidates = u.candidates := by
  unfold Tableau.candidates
  rw [h.candidatesIn, h.kind]

theorem Sim.generateColumn (h : Sim rhs M t u) (j : Fin N) :
    ∃ info : Info BI m, t.generateColumn j = .ok info ∧
      u.generateColumn j = .ok (infoColumn info) := by
  obtain ⟨info, h1, h2, h4⟩ := FollowingInverse.left_ok h.dim h.rep (h.exact.wf j)
  obtain ⟨info', g1, g2, g3⟩ := h.exact.generateColumn_ok (BI := BasisInverseRows) trivial j
  refine ⟨info, ?_, ?_⟩
  · change leftMultiply t.carry.basisInverse _ = _
    rw [h.kind]
    exact h1
  · rw [g1]
    congr 1
    refine SVec.ext_of_wf g2 h2 fun i => ?_
    rw [h4]
    exact congrFun g3 i

theorem Sim.generateElement (h : Sim rhs M t u) (i : Fin m) (j : Fin N) :
    t.generateElement i j = u.generateElement i j := by
  rw [h.exact.generateElement_ok (BI := BasisInverseRows) trivial]
  change BasisInverse.generateElement t.carry.basisInverse i _ = _
  rw [h.kind]
  exact FollowingInverse.element_ok h.dim h.rep (h.exact.wf j) i

theorem Sim.selectPrimalPivotRow (h : Sim rhs M t u) (column : Sparse m) :
    t.selectPrimalPivotRow column = u.selectPrimalPivotRow column := by
  unfold Tableau.selectPrimalPivotRow
  rw [h.b, h.basis]

end

/-- A basis change, with the computations that do not abort filled in. -/
theorem Carry.changeBasis_of {BI : ℕ → Type} [BasisInverse BI] {c : Carry BI m N} {kind : Kind m N}
    {p : Fin m} {j : Fin N} {info : Info BI m} {cost : ℚ} {work : Sparse m} {b : Fin m → ℚ}
    (hw : rightMultiply c.basisInverse (infoColumn info) = .ok work)
    (hb : Carry.updateB c.b p (infoColumn info) = .ok b) {x : Res (BI m × Sparse m)}
    (hx : (if shouldRefactor c.basisInverse then do
        let basisInverse ← invert fun i => kind.column (Function.update c.basisIndices p j i)
        pure (basisInverse, infoColumn info)
      else BasisInverse.changeBasis c.basisInverse p info : Res (BI m × Sparse m)) = x) :
    c.changeBasis kind p j info cost = (do
      let y ← x
      let row ← basisInverseRow y.1 p
      pure ({
          minusObjective := c.minusObjective - cost * b p
          minusPi := Carry.updateMinusPi c.minusPi cost row
          b, basisIndices := Function.update c.basisIndices p j, basisInverse := y.1 },
        { pivotRow := p, pivotColumn := j, leavingColumn := c.basisIndices p,
          columnBeforeChange := y.2, workVector := work, basisInverseRow := row })) := by
  subst hx
  unfold Carry.changeBasis
  rw [hw, hb]
  rfl

section

variable {rhs : Fin m → ℚ} {M : Matrix (Fin m) (Fin m) ℚ} {t : Tableau BI m N}
  {u : Tableau BasisInverseRows m N}

/-- A basis change on both sides. -/
theorem Sim.bringIntoBasis (h : Sim rhs M t u) {j : Fin N} {p : Fin m}
    (hj : u.isInBasis j = false) (hp : u.alpha M j p ≠ 0) {info : Info BI m}
    (hi : t.generateColumn j = .ok info) (hi' : u.generateColumn j = .ok (infoColumn info)) :
    ∃ u' change, u.bringIntoBasis j p (infoColumn info) (u.relativeCost j) = .ok (u', change) ∧
      StepTo u u' M j p change ∧ u'.Exact rhs (pivotUpdate M (u.alpha M j) p) ∧
      Follows (fun a b : _ × _ => a.2 = b.2 ∧ Sim rhs (pivotUpdate M (u.alpha M j) p) a.1 b.1)
        (t.bringIntoBasis j p info (u.relativeCost j)) (.ok (u', change)) := by
  obtain ⟨u', change, e1, e2, e3⟩ := h.exact.step (BI := BasisInverseRows) trivial hj hp hi'
  refine ⟨u', change, e1, e3, e2, ?_⟩
  obtain ⟨info', g1, g2, g4⟩ := FollowingInverse.left_ok h.dim h.rep (h.exact.wf j)
  have hgen : leftMultiply t.carry.basisInverse (u.kind.column j) = .ok info := by
    rw [← h.kind]; exact hi
  have hinfo : info' = info := by
    have := g1.symm.trans hgen
    exact Except.ok.inj this
  subst hinfo
  have hval : SVec.val (infoColumn info') = u.alpha M j := g4
  have hp' : SVec.val (infoColumn info') p ≠ 0 := by rw [hval]; exact hp
  -- the parts of the change that do not depend on the new inverse
  obtain ⟨work, w1, w2, w3⟩ := FollowingInverse.right_ok h.dim h.rep g2
    (nonempty_of_val_ne_zero hp')
  have hb := Carry.updateB_ok (b := t.carry.b) g2 hp'
  -- the new inverse
  have hnew : (∃ e, (if shouldRefactor t.carry.basisInverse then do
        let basisInverse ← invert fun i =>
          t.kind.column (Function.update t.carry.basisIndices p j i)
        pure (basisInverse, (infoColumn info'))
      else BasisInverse.changeBasis t.carry.basisInverse p info' : Res (BI m × Sparse m))
        = panic e) ∨
      ∃ bi' : BI m, (if shouldRefactor t.carry.basisInverse then do
        let basisInverse ← invert fun i =>
          t.kind.column (Function.update t.carry.basisIndices p j i)
        pure (basisInverse, (infoColumn info'))
      else BasisInverse.changeBasis t.carry.basisInverse p info' : Res (BI m × Sparse m))
        = .ok (bi', (infoColumn info')) ∧
        FollowingInverse.Rep bi' (pivotUpdate M (u.alpha M j) p) := by
    cases hr : shouldRefactor t.carry.basisInverse with
    | true =>
      have hcols : (columnsMatrix fun i => t.kind.column (Function.update t.carry.basisIndices p j i))
          = u'.basisMatrix := by
        unfold basisMatrix
        rw [h.kind, h.basis, e3.kind_eq, e3.basis_eq]
      rcases FollowingInverse.invert_ok (BI := BI) h.dim
        (columns := fun i => t.kind.column (Function.update t.carry.basisIndices p j i))
        (fun i => by rw [h.kind]; exact h.exact.wf _) (M := pivotUpdate M (u.alpha M j) p)
        (by rw [hcols]; exact e2.inv) with ⟨e, f1⟩ | ⟨bi', f1, f2⟩
      · left
        refine ⟨e, ?_⟩
        simp only [f1, if_true]
        rfl
      · right
        refine ⟨bi', ?_, f2⟩
        simp only [f1, if_true, bind, Except.bind, pure, Except.pure]
    | false =>
      simp only [Bool.false_eq_true, if_false]
      exact FollowingInverse.change_ok h.dim h.rep (h.exact.wf j) hgen hr hp
  rcases hnew with ⟨e, he⟩ | ⟨bi', hbi, hrep⟩
  · have : t.bringIntoBasis j p info' (u.relativeCost j) = panic e := by
      unfold Tableau.bringIntoBasis
      erw [Carry.changeBasis_of w1 hb he]
      rfl
    rw [this]
    exact Follows.panicked _ _
  · obtain ⟨row, r1, r2, r3⟩ := FollowingInverse.row_ok h.dim hrep p
    have hrow : row = change.basisInverseRow :=
      SVec.ext_of_wf r2 e3.row_wf fun i => by rw [r3, e3.row_eq]
    have hwork : work = change.workVector :=
      SVec.ext_of_wf w2 e3.work_wf fun i => by rw [w3, e3.work_eq, hval]
    have hcol : (infoColumn info') = change.columnBeforeChange :=
      SVec.ext_of_wf g2 e3.column_wf fun i => by rw [e3.column_eq, hval]
    have ht : t.bringIntoBasis j p info' (u.relativeCost j) = .ok
        (⟨{ minusObjective := t.carry.minusObjective - u.relativeCost j *
              (if p = p then t.carry.b p / SVec.val (infoColumn info') p else
                t.carry.b p - SVec.val (infoColumn info') p *
                  (t.carry.b p / SVec.val (infoColumn info') p))
            minusPi := Carry.updateMinusPi t.carry.minusPi (u.relativeCost j) row
            b := fun i => if i = p then t.carry.b p / SVec.val (infoColumn info') p
              else t.carry.b i - SVec.val (infoColumn info') i *
                (t.carry.b p / SVec.val (infoColumn info') p)
            basisIndices := Function.update t.carry.basisIndices p j
            basisInverse := bi' },
          insert j (t.basisColumns.erase (t.carry.basisIndices p)), t.kind⟩,
        ⟨p, j, t.carry.basisIndices p, (infoColumn info'), work, row⟩) := by
      unfold Tableau.bringIntoBasis
      erw [Carry.changeBasis_of w1 hb hbi]
      change (do
        let x ← (do
          let row ← basisInverseRow bi' p
          _)
        _) = _
      rw [r1]
      rfl
    -- the same on the other side
    have hright : ∃ work', rightMultiply u.carry.basisInverse (infoColumn info') = .ok work' := by
      obtain ⟨r, hr, -⟩ := right_ok (BI := BasisInverseRows) trivial h.exact.rep g2
        (nonempty_of_val_ne_zero hp')
      exact ⟨r, hr⟩
    obtain ⟨work', hright⟩ := hright
    have hb' := Carry.updateB_ok (b := u.carry.b) g2 hp'
    obtain ⟨bu, hbu, hrepu⟩ := change_ok (BI := BasisInverseRows) trivial h.exact.rep
      (h.exact.wf j) (info := (infoColumn info')) hi' rfl (p := p) hp
    obtain ⟨row', s1, s2, s3⟩ := row_ok (BI := BasisInverseRows) trivial hrepu p
    have hu : u.bringIntoBasis j p (infoColumn info') (u.relativeCost j) = .ok
        (⟨{ minusObjective := u.carry.minusObjective - u.relativeCost j *
              (if p = p then u.carry.b p / SVec.val (infoColumn info') p else
                u.carry.b p - SVec.val (infoColumn info') p *
                  (u.carry.b p / SVec.val (infoColumn info') p))
            minusPi := Carry.updateMinusPi u.carry.minusPi (u.relativeCost j) row'
            b := fun i => if i = p then u.carry.b p / SVec.val (infoColumn info') p
              else u.carry.b i - SVec.val (infoColumn info') i *
                (u.carry.b p / SVec.val (infoColumn info') p)
            basisIndices := Function.update u.carry.basisIndices p j
            basisInverse := bu },
          insert j (u.basisColumns.erase (u.carry.basisIndices p)), u.kind⟩,
        ⟨p, j, u.carry.basisIndices p, (infoColumn info'), work', row'⟩) := by
      unfold Tableau.bringIntoBasis
      have hx : (if shouldRefactor u.carry.basisInverse then do
          let basisInverse ← invert fun i =>
            u.kind.column (Function.update u.carry.basisIndices p j i)
          pure (basisInverse, (infoColumn info'))
        else BasisInverse.changeBasis u.carry.basisInverse p (infoColumn info') :
          Res (BasisInverseRows m × Sparse m)) = .ok (bu, (infoColumn info')) := by
        rw [if_neg (by simp [show shouldRefactor u.carry.basisInverse = false from rfl])]
        exact hbu
      erw [Carry.changeBasis_of (BI := BasisInverseRows) (c := u.carry) (kind := u.kind) (p := p)
        (j := j) (info := (infoColumn info')) hright hb' hx]
      change (do
        let x ← (do
          let row ← basisInverseRow bu p
          _)
        _) = _
      rw [s1]
      rfl
    rw [hu] at e1
    obtain ⟨rfl, rfl⟩ := Prod.mk.inj (Except.ok.inj e1)
    rw [ht]
    simp only at hrow hwork hcol
    refine ⟨_, rfl, ?_, ?_, ?_, ?_, ?_, ?_, ?_, h.dim, hrep, e2⟩
    · simp only [hrow, hwork, h.basis]
    · simp only [h.obj, h.b]
    · simp only [h.pi, hrow]
    · simp only [h.b]
    · simp only [h.basis]
    · simp only [h.cols, h.basis]
    · exact h.kind

end

/-! ### Pivot rules -/

/-- A pivot rule that does not look at the basis inverse itself. -/
class SimRule (R : ℕ → Type) [PivotRule R] : Prop where
  new : ∀ {BI : ℕ → Type} [BasisInverse BI] [FollowingInverse BI] {m N : ℕ} {rhs : Fin m → ℚ} {M} {t : Tableau BI m N} {u : Tableau BasisInverseRows m N},
    Sim rhs M t u → (PivotRule.new t : Res (R N)) = PivotRule.new u
  select : ∀ {BI : ℕ → Type} [BasisInverse BI] [FollowingInverse BI] {m N : ℕ} {rhs : Fin m → ℚ} {M} {t : Tableau BI m N}
    {u : Tableau BasisInverseRows m N}, Sim rhs M t u → ∀ r : R N,
    PivotRule.select r t = PivotRule.select r u
  after : ∀ {BI : ℕ → Type} [BasisInverse BI] [FollowingInverse BI] {m N : ℕ} {rhs : Fin m → ℚ} {M} {t : Tableau BI m N} {u : Tableau BasisInverseRows m N},
    Sim rhs M t u → ∀ (r : R N) change, PivotRule.afterUpdate r change t
      = PivotRule.afterUpdate r change u

instance : SimRule FirstProfitable where
  new _ := rfl
  select h r := by
    change Except.ok (List.find? _ _, r) = Except.ok (List.find? _ _, r)
    rw [h.candidates]
  after _ _ _ := rfl

instance : SimRule FirstProfitableWithMemory where
  new _ := rfl
  select h r := by
    simp only [PivotRule.select, h.candidatesIn, h.kind]
  after _ _ _ := rfl

instance : SimRule SteepestDescentAlongVariable where
  new _ := rfl
  select h r := by
    simp only [PivotRule.select, h.candidates]
  after _ _ _ := rfl

instance : SimRule SteepestDescentAlongObjective where
  new {BI _ _ m N rhs M t u} h := by
    change SteepestDescentAlongObjective.new t = SteepestDescentAlongObjective.new u
    have : ∀ j, SteepestDescentAlongObjective.initialGamma j t
        = SteepestDescentAlongObjective.initialGamma j u := by
      intro j
      obtain ⟨info, h1, h2⟩ := h.generateColumn j
      unfold SteepestDescentAlongObjective.initialGamma
      rw [h1, h2]
      rfl
    unfold SteepestDescentAlongObjective.new
    simp only [this, h.kind, h.isInBasis]
  select h r := by
    change SteepestDescentAlongObjective.select r _ = SteepestDescentAlongObjective.select r _
    unfold SteepestDescentAlongObjective.select
    rw [h.candidates]
  after h r change := by
    change SteepestDescentAlongObjective.afterUpdate r change _
      = SteepestDescentAlongObjective.afterUpdate r change _
    unfold SteepestDescentAlongObjective.afterUpdate
    rw [h.kind]

/-! ### The loops -/

section

variable {R : ℕ → Type} [PivotRule R] [LawfulRule R] [SimRule R]

theorem phaseTwoLoop_sim (fuel : ℕ) {t : Tableau BI m N} {u : Tableau BasisInverseRows m N}
    {rhs M} (h : Sim rhs M t u) (hb : ∀ i, 0 ≤ u.carry.b i) {r : R N}
    (hr : LawfulRule.RInv r u M) :
    Follows Eq (phaseTwoLoop fuel r t) (phaseTwoLoop fuel r u) := by
  induction fuel generalizing t u M r with
  | zero => exact rfl
  | succ fuel ih =>
    rw [phaseTwoLoop, phaseTwoLoop, SimRule.select h]
    rcases pivot_cases (BI := BasisInverseRows) trivial h.exact hb hr with ⟨r', h1, h2⟩ |
      ⟨j, r', info, h1, h2, h3, h4, h5⟩ |
      ⟨j, r', info, p, u', change, r'', h1, h2, h3, h4, h5, h6, h7, h8⟩
    · simp only [h1, bind, Except.bind, pure, Except.pure]
      have : t.currentBfs = u.currentBfs := by
        unfold Tableau.currentBfs Carry.currentBfs
        rw [h.basis, h.b]
      rw [this]
      exact Follows.refl fun _ => rfl
    · obtain ⟨info', g1, g2⟩ := h.generateColumn j
      rw [h3] at g2
      cases g2
      simp only [h1, h3, g1, bind, Except.bind, pure, Except.pure]
      erw [h.selectPrimalPivotRow, h4]
      exact Follows.refl fun _ => rfl
    · obtain ⟨info', g1, g2⟩ := h.generateColumn j
      rw [h2] at g2
      cases g2
      simp only [h1, h2, g1, bind, Except.bind]
      erw [h.selectPrimalPivotRow, h3]
      have hp : u.alpha M j p ≠ 0 := h7.ratio.1.ne'
      obtain ⟨u'', change', e1, e2, e3, e4⟩ := h.bringIntoBasis h7.nonbasic hp g1 h2
      have heq := e1.symm.trans h4
      obtain ⟨rfl, rfl⟩ := Prod.mk.inj (Except.ok.inj heq)
      dsimp only
      rw [e1]
      cases ht : t.bringIntoBasis j p info' (u.relativeCost j) with
      | error e =>
        rw [ht] at e4
        cases e with
        | panic e => exact trivial
        | outOfFuel => cases e4
      | ok x =>
        obtain ⟨t', ch⟩ := x
        rw [ht] at e4
        obtain ⟨y, hy, hy2, hy3⟩ := e4
        cases hy
        cases hy2
        simp only [SimRule.after hy3, h5]
        exact ih hy3 h7.nonneg' h8

/-- The results of phase one hold the same numbers. -/
inductive SimF (rhs : Fin m → ℚ) (kind : Kind m N) :
    Feasibility BI m N → Feasibility BasisInverseRows m N → Prop
  | infeasible : SimF rhs kind .infeasible .infeasible
  | feasible {M} {t : Tableau BI m N} {u : Tableau BasisInverseRows m N} (rank : Rank m)
    (h : Sim rhs M t u) (hk : u.kind = kind) :
    SimF rhs kind (.feasible rank t.carry t.basisColumns) (.feasible rank u.carry u.basisColumns)

theorem Sim.variableValue {rhs : Fin m → ℚ} {M} {t : Tableau BI m N}
    {u : Tableau BasisInverseRows m N} (h : Sim rhs M t u) (j : Fin N) :
    t.variableValue j = u.variableValue j := by
  unfold Tableau.variableValue
  rw [h.isInBasis, h.basis, h.b]

theorem findM_mem {α : Type} {p : α → Res Bool} {l : List α} {a : α}
    (h : findM p l = .ok (some a)) : a ∈ l ∧ p a = .ok true := by
  induction l with
  | nil => simp [findM] at h
  | cons b l ih =>
    rw [findM] at h
    cases hb : p b with
    | error e => rw [hb] at h; cases h
    | ok x =>
      rw [hb] at h
      cases x with
      | true =>
        simp only [Except.ok.injEq, Option.some.injEq] at h
        subst h
        exact ⟨by simp, hb⟩
      | false =>
        obtain ⟨h1, h2⟩ := ih h
        exact ⟨by simp [h1], h2⟩

theorem removeArtificialStep_sim {rhs : Fin m → ℚ} {M} {t : Tableau BI m N}
    {u : Tableau BasisInverseRows m N} (h : Sim rhs M t u) (p : Fin m) (a : Fin N) :
    Follows (fun x y => x.2 = y.2 ∧ y.1.kind = u.kind ∧ ∃ M', Sim rhs M' x.1 y.1)
      (removeArtificialStep t p a) (removeArtificialStep u p a) := by
  unfold removeArtificialStep
  rw [h.variableValue]
  refine Follows.bind (Follows.refl (S := Eq) fun _ => rfl) fun v _ hv _ _ => ?_
  subst hv
  simp only [h.generateElement, h.candidates]
  have key : ∀ sel : Option (Fin N × ℚ),
      (∀ q ∈ sel, q ∈ u.candidates ∧ u.alpha M q.1 p ≠ 0) →
      Follows (fun x y => x.2 = y.2 ∧ y.1.kind = u.kind ∧ ∃ M', Sim rhs M' x.1 y.1)
        (match sel with
          | some (pivotColumn, cost) => do
            let info ← t.generateColumn pivotColumn
            let (t, _) ← t.bringIntoBasis pivotColumn p info cost
            pure (t, none)
          | none => pure (t, some p))
        (match sel with
          | some (pivotColumn, cost) => do
            let info ← u.generateColumn pivotColumn
            let (u, _) ← u.bringIntoBasis pivotColumn p info cost
            pure (u, none)
          | none => pure (u, some p)) := by
    intro sel hsel
    cases sel with
    | none => exact Follows.ok ⟨rfl, rfl, M, h⟩
    | some jc =>
      obtain ⟨j, c⟩ := jc
      obtain ⟨hmem, hα⟩ := hsel _ rfl
      obtain ⟨-, hj, hc⟩ := mem_candidates.1 hmem
      simp only at hj hc hα
      subst hc
      obtain ⟨info, g1, g2⟩ := h.generateColumn j
      obtain ⟨u', change, e1, e2, e3, e4⟩ := h.bringIntoBasis hj hα g1 g2
      dsimp only
      rw [g1, g2]
      change Follows _ (do
        let (t, _) ← t.bringIntoBasis j p info (u.relativeCost j)
        pure (t, none)) (do
        let (u, _) ← u.bringIntoBasis j p (infoColumn info) (u.relativeCost j)
        pure (u, none))
      rw [e1]
      refine Follows.bind e4 fun x y hxy _ hy => ?_
      cases hy
      exact Follows.ok ⟨rfl, e2.kind_eq, _, hxy.2⟩
  split_ifs with hv
  · refine Follows.bind (Follows.refl (S := Eq) fun _ => rfl) fun sel _ hv hsel _ => ?_
    subst hv
    refine key sel fun q hq => ?_
    cases hq
    obtain ⟨h1, h2⟩ := findM_mem hsel
    refine ⟨(List.mem_filter.1 h1).1, ?_⟩
    intro h0
    rw [h.exact.generateElement_ok (BI := BasisInverseRows) trivial] at h2
    simp [h0, bind, Except.bind, pure, Except.pure] at h2
  · refine Follows.bind (Follows.refl (S := Eq) fun _ => rfl) fun sel _ hv hsel _ => ?_
    subst hv
    refine key sel fun q hq => ?_
    cases hq
    obtain ⟨h1, h2⟩ := findM_mem hsel
    refine ⟨h1, ?_⟩
    intro h0
    rw [h.exact.generateElement_ok (BI := BasisInverseRows) trivial] at h2
    simp [h0, bind, Except.bind, pure, Except.pure] at h2

theorem removeArtificialLoop_sim {rhs : Fin m → ℚ} (l : List (Fin m × Fin N))
    (rows : List (Fin m)) {M} {t : Tableau BI m N} {u : Tableau BasisInverseRows m N}
    (h : Sim rhs M t u) :
    Follows (fun x y => x.2 = y.2 ∧ y.1.kind = u.kind ∧ ∃ M', Sim rhs M' x.1 y.1)
      (removeArtificialLoop l t rows) (removeArtificialLoop l u rows) := by
  induction l generalizing t u M rows with
  | nil => exact Follows.ok ⟨rfl, rfl, M, h⟩
  | cons q l ih =>
    obtain ⟨p, a⟩ := q
    rw [removeArtificialLoop, removeArtificialLoop]
    have hs := removeArtificialStep_sim h p a
    cases ht : removeArtificialStep t p a with
    | error e =>
      rw [ht] at hs
      cases e with
      | panic e => exact trivial
      | outOfFuel => rw [hs]; exact rfl
    | ok x =>
      obtain ⟨t', o⟩ := x
      rw [ht] at hs
      obtain ⟨⟨u', o'⟩, hy, h1, h2, M', h3⟩ := hs
      rw [hy]
      simp only at h1 h2 h3
      subst h1
      cases o with
      | none => exact (ih rows h3).mono fun x y hxy => ⟨hxy.1, hxy.2.1.trans h2, hxy.2.2⟩
      | some row =>
        exact (ih _ h3).mono fun x y hxy => ⟨hxy.1, hxy.2.1.trans h2, hxy.2.2⟩

theorem phaseOneExit_sim {rhs : Fin m → ℚ} {M} {t : Tableau BI m N}
    {u : Tableau BasisInverseRows m N} (h : Sim rhs M t u) :
    Follows (SimF rhs u.kind) (phaseOneExit t) (phaseOneExit u) := by
  have h1 : t.objectiveFunctionValue = u.objectiveFunctionValue := by
    unfold Tableau.objectiveFunctionValue Carry.objectiveFunctionValue
    rw [h.obj]
  have h2 : t.hasArtificialInBasis = u.hasArtificialInBasis := by
    unfold Tableau.hasArtificialInBasis
    rw [h.cols, h.kind]
  have h3 : t.artificialBasisColumns = u.artificialBasisColumns := by
    unfold Tableau.artificialBasisColumns
    rw [h.basis, h.kind]
  unfold phaseOneExit
  rw [h1, h2]
  split_ifs
  · unfold removeArtificialBasisVariables
    rw [h3]
    refine Follows.bind (removeArtificialLoop_sim _ _ h) fun x y hxy _ _ => ?_
    obtain ⟨t', rows⟩ := x
    obtain ⟨u', rows'⟩ := y
    obtain ⟨h4, h5, M', h6⟩ := hxy
    simp only at h4 h5 h6
    subst h4
    dsimp only
    split_ifs
    · exact Follows.ok (.feasible _ h6 h5)
    · exact Follows.ok (.feasible _ h6 h5)
  · exact Follows.ok (.feasible _ h rfl)
  · exact Follows.ok .infeasible

theorem phaseOneLoop_sim (fuel : ℕ) {t : Tableau BI m N} {u : Tableau BasisInverseRows m N}
    {rhs M} (h : Sim rhs M t u) (hb : ∀ i, 0 ≤ u.carry.b i) {r : R N}
    (hr : LawfulRule.RInv r u M) :
    Follows (SimF rhs u.kind) (phaseOneLoop fuel r t) (phaseOneLoop fuel r u) := by
  induction fuel generalizing t u M r with
  | zero => exact rfl
  | succ fuel ih =>
    rw [phaseOneLoop, phaseOneLoop, SimRule.select h]
    rcases pivot_cases (BI := BasisInverseRows) trivial h.exact hb hr with ⟨r', h1, h2⟩ |
      ⟨j, r', info, h1, h2, h3, h4, h5⟩ |
      ⟨j, r', info, p, u', change, r'', h1, h2, h3, h4, h5, h6, h7, h8⟩
    · simp only [h1, bind, Except.bind]
      exact phaseOneExit_sim h
    · obtain ⟨info', g1, g2⟩ := h.generateColumn j
      rw [h3] at g2
      cases g2
      simp only [h1, h3, g1, bind, Except.bind]
      erw [h.selectPrimalPivotRow, h4]
      exact trivial
    · obtain ⟨info', g1, g2⟩ := h.generateColumn j
      rw [h2] at g2
      cases g2
      simp only [h1, h2, g1, bind, Except.bind]
      erw [h.selectPrimalPivotRow, h3]
      have hp : u.alpha M j p ≠ 0 := h7.ratio.1.ne'
      obtain ⟨u'', change', e1, e2, e3, e4⟩ := h.bringIntoBasis h7.nonbasic hp g1 h2
      have heq := e1.symm.trans h4
      obtain ⟨rfl, rfl⟩ := Prod.mk.inj (Except.ok.inj heq)
      dsimp only
      rw [e1]
      cases ht : t.bringIntoBasis j p info' (u.relativeCost j) with
      | error e =>
        rw [ht] at e4
        cases e with
        | panic e => exact trivial
        | outOfFuel => cases e4
      | ok x =>
        obtain ⟨t', ch⟩ := x
        rw [ht] at e4
        obtain ⟨y, hy, hy2, hy3⟩ := e4
        cases hy
        cases hy2
        simp only [SimRule.after hy3, h5]
        have := ih hy3 h7.nonneg' h8
        rw [e2.kind_eq] at this
        exact this

end

/-! ### The LU decomposition -/

/-- In dimension one (and zero) a basis change of the LU decomposition aborts. -/
theorem LU.changeBasis_small {m : ℕ} (hm : m < 2) {lu : LU m} {M : Matrix (Fin m) (Fin m) ℚ}
    (_ : LU.Rep lu M) (p : Fin m) (info : ColumnAndSpike m) :
    lu.changeBasis p info = panic .indexOutOfBounds := by
  have hm1 : m - 1 = 0 := by omega
  have hu : lu.uBar (lu.pivotPosition p) = [] := by
    unfold uBar
    have : List.finRange (m - 1) = [] := by
      rw [← List.length_eq_zero_iff, List.length_finRange, hm1]
    rw [this]; rfl
  unfold changeBasis
  have hr : lu.rightUpper m (lu.uBar (lu.pivotPosition p)) = .ok [] := by
    rw [hu]; cases m <;> rfl
  simp only [hr, bind, Except.bind]
  rw [dif_neg (by omega)]

instance : FollowingInverse LU where
  Dim m := m ≠ 0
  Rep := LU.Rep
  ne_zero h := h
  identity_ok hm := LU.identity_rep hm
  invert_ok hm _ hc _ hM := by
    obtain ⟨lu, h1, h2, -⟩ := LU.invert_rep hm hc hM
    exact .inr ⟨lu, h1, h2⟩
  left_ok _ _ _ h _ hc := by
    obtain ⟨info, h1, h2, -, h4, -⟩ := h.left hc
    exact ⟨info, h1, h2, h4⟩
  change_ok {m} _ _ _ h _ hc info hi _ p hp := by
    by_cases hm : 2 ≤ m
    · obtain ⟨lu', f1, -, f2, -⟩ := h.change hm hc hi (p := p) hp
      exact .inr ⟨lu', f1, f2⟩
    · exact .inl ⟨_, LU.changeBasis_small (by omega) h p info⟩
  right_ok _ _ _ h _ hr _ := h.right hr
  element_ok _ _ _ h _ hc i := h.element hc i
  row_ok _ _ _ h i := h.row i
  remove_ok _ _ _ _ rows _ columns hc hM := by
    by_cases hm : keptLen rows = 0
    · refine .inl ⟨.underflow, ?_⟩
      change LU.ofRows _ = _
      unfold LU.ofRows
      rw [if_pos hm]
    · obtain ⟨lu, f1, f2, -⟩ := LU.invert_rep hm hc hM
      exact .inr ⟨lu, f1, hm, f2⟩

end Relp
