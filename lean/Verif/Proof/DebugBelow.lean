import Verif.Model.Debug

/-!
# What a debug build gives, a release build gives

If a computation of a debug build gives a value, then the computation of a release build gives the same
value, whatever the input is.
-/

namespace Relp

open BasisInverse Permutation

/-- If the first computation gives a value, then the second one gives a related value. -/
def Below {α β : Type} (S : α → β → Prop) (d : Res α) (r : Res β) : Prop :=
  ∀ a, d = .ok a → ∃ b, r = .ok b ∧ S a b

namespace Below

variable {α β γ δ : Type} {S : α → β → Prop} {T : γ → δ → Prop}

theorem ok {a : α} {b : β} (h : S a b) : Below S (.ok a) (.ok b) := by
  rintro _ ⟨⟩
  exact ⟨b, rfl, h⟩

theorem error (e : Fault) (y : Res β) : Below S (.error e) y := nofun

theorem panicked (p : Panic) (y : Res β) : Below S (panic p) y := nofun

theorem refl (x : Res α) : Below Eq x x := fun a h => ⟨a, h, rfl⟩

theorem of_eq {x y : Res α} (h : x = y) : Below Eq x y := h ▸ refl x

theorem elim {x y : Res α} (h : Below Eq x y) {a : α} (hx : x = .ok a) : y = .ok a := by
  obtain ⟨b, hb, rfl⟩ := h a hx
  exact hb

theorem mono {S' : α → β → Prop} {x : Res α} {y : Res β} (h : Below S x y) (hs : ∀ a b, S a b → S' a b) :
    Below S' x y := by
  intro a ha
  obtain ⟨b, hb, h⟩ := h a ha
  exact ⟨b, hb, hs a b h⟩

theorem bind {x : Res α} {y : Res β} {f : α → Res γ} {g : β → Res δ} (h : Below S x y)
    (hf : ∀ a b, S a b → Below T (f a) (g b)) : Below T (x >>= f) (y >>= g) := by
  intro c hc
  cases x with
  | error e => cases hc
  | ok a =>
    obtain ⟨b, rfl, hs⟩ := h a rfl
    exact hf a b hs c hc

/-- A computation that has a known value in a release build. -/
theorem bindOk {x : Res α} {b : β} {f : α → Res γ} {y : Res δ} (h : Below S x (.ok b))
    (hf : ∀ a, S a b → Below T (f a) y) : Below T (x >>= f) y := by
  intro c hc
  cases x with
  | error e => cases hc
  | ok a =>
    obtain ⟨b', hb, hs⟩ := h a rfl
    cases hb
    exact hf a hs c hc

theorem bindEq {x y : Res α} {f : α → Res γ} {g : α → Res δ} (h : Below Eq x y)
    (hf : ∀ a, Below T (f a) (g a)) : Below T (x >>= f) (y >>= g) :=
  h.bind fun a b hab => hab ▸ hf a

/-- A computation of which only the abort matters. -/
theorem skip {x : Res α} {f : α → Res γ} {y : Res δ} (hf : ∀ a, Below T (f a) y) :
    Below T (x >>= f) y := by
  intro c hc
  cases x with
  | error e => cases hc
  | ok a => exact hf a c hc

theorem foldlM {σ τ : Type} {R : σ → τ → Prop} {f : σ → α → Res σ} {g : τ → α → Res τ}
    (h : ∀ s t a, R s t → Below R (f s a) (g t a)) (l : List α) {s : σ} {t : τ} (hs : R s t) :
    Below R (l.foldlM f s) (l.foldlM g t) := by
  induction l generalizing s t with
  | nil => exact ok hs
  | cons a l ih =>
    rw [List.foldlM_cons, List.foldlM_cons]
    exact (h s t a hs).bind fun _ _ hab => ih hab

theorem foldlMEq {σ : Type} {f g : σ → α → Res σ} (h : ∀ s a, Below Eq (f s a) (g s a)) (l : List α) (s : σ) :
    Below Eq (l.foldlM f s) (l.foldlM g s) :=
  foldlM (fun _ t a hst => hst ▸ h t a) l rfl

theorem tabulateM {m : ℕ} {f : Fin m → Res α} {g : Fin m → Res β} (h : ∀ i, Below S (f i) (g i)) :
    Below (fun a b => ∀ i, S (a i) (b i)) (Relp.tabulateM f) (Relp.tabulateM g) := by
  induction m with
  | zero => exact ok fun i => i.elim0
  | succ m ih =>
    intro c hc
    rw [Relp.tabulateM] at hc
    split at hc
    · cases hc
    · rename_i a ha
      split at hc
      · cases hc
      · rename_i v hv
        cases hc
        obtain ⟨b, hb, hs⟩ := h 0 a ha
        obtain ⟨w, hw, hws⟩ := ih (fun i => h i.succ) v hv
        refine ⟨Fin.cons b w, ?_, ?_⟩
        · rw [Relp.tabulateM]
          simp only [hb, hw]
        · intro i
          refine Fin.cases hs (fun i => ?_) i
          simpa using hws i

theorem tabulateMEq {m : ℕ} {f g : Fin m → Res α} (h : ∀ i, Below Eq (f i) (g i)) :
    Below Eq (Relp.tabulateM f) (Relp.tabulateM g) :=
  (tabulateM h).mono fun _ _ h => funext h

theorem tabulateMOk {m : ℕ} {f : Fin m → Res α} {g : Fin m → α} (h : ∀ i, Below Eq (f i) (.ok (g i))) :
    Below Eq (Relp.tabulateM f) (.ok g) := by
  induction m with
  | zero => exact ok (funext fun i => i.elim0)
  | succ m ih =>
    intro c hc
    rw [Relp.tabulateM] at hc
    split at hc
    · cases hc
    · rename_i a ha
      split at hc
      · cases hc
      · rename_i v hv
        cases hc
        have h0 := (h 0).elim ha
        have h1 := (ih fun i => h i.succ).elim hv
        refine ⟨g, rfl, ?_⟩
        funext i
        refine Fin.cases ?_ (fun i => ?_) i
        · simpa using (Except.ok.inj h0).symm
        · simpa using (congrFun (Except.ok.inj h1) i).symm

end Below

variable {m n N : ℕ}

/-! ### The basis inverses -/

theorem forwardSortedDebug_below {P : ℕ → Type} [Permutation P] (p : P m) (items : Sparse m) :
    Below Eq (forwardSortedDebug p items) (.ok (forwardSorted p items)) :=
  .skip fun _ => .skip fun _ => .refl _

theorem backwardSortedDebug_below {P : ℕ → Type} [Permutation P] (p : P m) (items : Sparse m) :
    Below Eq (backwardSortedDebug p items) (.ok (backwardSorted p items)) :=
  .skip fun _ => .skip fun _ => .refl _

namespace LU

theorem applyUpdatesDebug_below (us : List (EtaFile m × RotateToBack m)) (w : Sparse m) :
    Below Eq (applyUpdatesDebug us w)
      (.ok (us.foldl (fun w u => forwardSorted u.2 (u.1.applyRight w)) w)) := by
  induction us generalizing w with
  | nil => exact .refl _
  | cons u us ih =>
    refine .bindOk (b := u.1.applyRight w) (S := Eq) (.skip fun _ => .skip fun _ => .refl _) fun _ h => ?_
    subst h
    refine .bindOk (forwardSortedDebug_below _ _) fun _ h => ?_
    subst h
    exact ih _

theorem unapplyUpdatesDebug_below (us : List (EtaFile m × RotateToBack m)) (lhs : Sparse m) :
    Below Eq (unapplyUpdatesDebug us lhs)
      (.ok (us.foldr (fun u lhs => u.1.applyLeft (backwardSorted u.2 lhs)) lhs)) := by
  induction us with
  | nil => exact .refl _
  | cons u us ih =>
    refine .bindOk ih fun _ h => ?_
    subst h
    refine .bindOk (backwardSortedDebug_below _ _) fun _ h => ?_
    subst h
    exact .skip fun _ => .skip fun _ => .refl _

/-- A computation with a check at its end. -/
theorem checked_below {α : Type} {x : Res α} {check : α → Res Unit} :
    Below Eq (x >>= fun a => check a >>= fun _ => pure a) x := by
  intro a ha
  cases x with
  | error e => cases ha
  | ok b =>
    refine ⟨b, rfl, ?_⟩
    exact (Except.ok.inj ((Below.skip fun _ => Below.refl _ :
      Below Eq (check b >>= fun _ => pure b) (.ok b)).elim ha)).symm

theorem leftUpperDebug_below (lu : LU m) (rhs : Sparse m) :
    Below Eq (lu.leftUpperDebug rhs) (lu.leftUpper m rhs) := checked_below

theorem rightLowerDebug_below (lu : LU m) (rhs : Sparse m) :
    Below Eq (lu.rightLowerDebug rhs) (lu.rightLower m rhs) := checked_below

theorem rightUpperDebug_below (lu : LU m) (rhs : Sparse m) :
    Below Eq (lu.rightUpperDebug rhs) (lu.rightUpper m rhs) := checked_below

theorem leftMultiplyDebug_below (lu : LU m) (column : Sparse m) :
    Below Eq (lu.leftMultiplyDebug column) (lu.leftMultiply column) := by
  unfold leftMultiplyDebug leftMultiply
  refine .bindEq (.refl _) fun w => ?_
  refine .bindOk (applyUpdatesDebug_below _ _) fun _ h => ?_
  subst h
  exact .bindEq (leftUpperDebug_below _ _) fun column => .skip fun _ => .refl _

theorem rightSolveDebug_below (lu : LU m) (lhs : Sparse m) :
    Below Eq (lu.rightSolveDebug lhs) (lu.rightSolve lhs) := by
  unfold rightSolveDebug rightSolve
  refine .bindEq (rightUpperDebug_below _ _) fun lhs => ?_
  refine .bindOk (unapplyUpdatesDebug_below _ _) fun _ h => ?_
  subst h
  refine .bindEq (rightLowerDebug_below _ _) fun lhs => ?_
  refine .bindOk (backwardSortedDebug_below _ _) fun _ h => ?_
  subst h
  exact .skip fun _ => .refl _

theorem generateElementDebug_below (lu : LU m) (i : Fin m) (column : Sparse m) :
    Below Eq (lu.generateElementDebug i column) (lu.generateElement i column) :=
  .bindEq (leftMultiplyDebug_below _ _) fun _ => .refl _

theorem changeBasisDebug_below (lu : LU m) (pivotRow : Fin m) (info : ColumnAndSpike m) :
    Below Eq (lu.changeBasisDebug pivotRow info) (lu.changeBasis pivotRow info) := by
  unfold changeBasisDebug changeBasis
  refine .bindEq (rightUpperDebug_below _ _) fun r => ?_
  refine .bindOk (b := (⟨r, lu.pivotPosition pivotRow⟩ : EtaFile m)) (S := Eq)
    (.skip fun _ => .skip fun _ => .refl _) fun _ h => ?_
  subst h
  refine .skip fun _ => ?_
  refine .bindOk (b := EtaFile.updateSpikePivotValue ⟨r, lu.pivotPosition pivotRow⟩ info.spike) (S := Eq)
    (.skip fun _ => .skip fun _ => .refl _) fun _ h => ?_
  subst h
  refine .skip fun _ => ?_
  simp only []
  by_cases hd : (if (lu.pivotPosition pivotRow : ℕ) = 0 then 0 else (lu.pivotPosition pivotRow : ℕ) - 1) < m - 1
  · rw [dif_pos hd, dif_pos hd]
    refine .bindOk (S := Eq) (b := fun j : Fin (m - 1) =>
      if max (lu.pivotPosition pivotRow : ℕ) 1 ≤ j + 1 then
        forwardSorted (⟨lu.pivotPosition pivotRow⟩ : RotateToBack m) (rotateLeftFrom ⟨_, hd⟩ (Function.update
          (fun j : Fin (m - 1) => if (lu.pivotPosition pivotRow : ℕ) ≤ j then
            SVec.setZero (lu.upperTriangular j) (lu.pivotPosition pivotRow) else lu.upperTriangular j)
          ⟨_, hd⟩ (EtaFile.updateSpikePivotValue ⟨r, lu.pivotPosition pivotRow⟩ info.spike)) j)
      else rotateLeftFrom ⟨_, hd⟩ (Function.update
          (fun j : Fin (m - 1) => if (lu.pivotPosition pivotRow : ℕ) ≤ j then
            SVec.setZero (lu.upperTriangular j) (lu.pivotPosition pivotRow) else lu.upperTriangular j)
          ⟨_, hd⟩ (EtaFile.updateSpikePivotValue ⟨r, lu.pivotPosition pivotRow⟩ info.spike)) j)
      (.tabulateMOk fun j => ?_) fun upper h => ?_
    · split
      · exact forwardSortedDebug_below _ _
      · exact .refl _
    · subst h
      simp only []
      generalize h : List.getLast? _ = l
      cases l with
      | none => exact .refl _
      | some p => exact .skip fun _ => .skip fun _ => .skip fun _ => .refl _
  · rw [dif_neg hd, dif_neg hd]
    exact .refl _

theorem eliminationStepDebug_below (s : Elimination m) (k : Fin m) :
    Below Eq (eliminationStepDebug s k) (eliminationStep s k) := by
  unfold eliminationStepDebug eliminationStep
  refine .skip fun _ => .bindEq (.refl _) fun p => .skip fun _ => .skip fun _ => .bindEq (.refl _) fun s => ?_
  cases s.rows k with
  | nil => exact .refl _
  | cons q rest =>
    refine .skip fun _ => .bindEq (.refl _) fun x => .skip fun _ => ?_
    refine Below.mono (S := Eq) ?_ fun _ _ h => h
    intro a ha
    cases h : x.2.foldlM (eliminateRow k rest) x.1 with
    | error e => simp only [h] at ha; cases ha
    | ok b =>
      refine ⟨b, h, ?_⟩
      simp only [h] at ha
      exact (Except.ok.inj ((Below.skip fun _ => .skip fun _ => .skip fun _ => .refl (pure b)).elim ha)).symm

theorem ofRowsDebug_below (rows : Fin m → Sparse m) : Below Eq (ofRowsDebug rows) (ofRows rows) := by
  unfold ofRowsDebug ofRows
  refine .skip fun _ => ?_
  by_cases hm : m > 1
  · rw [if_neg (by omega)]
    refine .skip fun _ => .skip fun _ => .skip fun _ => ?_
    refine .bindEq (.foldlMEq eliminationStepDebug_below _ _) fun s => ?_
    exact .skip fun _ => .bindEq (.refl _) fun x => .bindEq (.refl _) fun l =>
      .skip fun _ => .skip fun _ => .refl _
  · rw [debugAssert, if_neg (by simpa using hm)]
    exact .error _ _

theorem invertDebug_below (columns : Fin m → Sparse m) : Below Eq (invertDebug columns) (invert columns) :=
  .skip fun _ => ofRowsDebug_below _

end LU

/-- A basis inverse representation in a debug build, and the same in a release build. -/
class Erases (D : ℕ → Type) [BasisInverse D] (BI : outParam (ℕ → Type)) [BasisInverse BI] where
  erase : {m : ℕ} → D m → BI m
  info : {m : ℕ} → Info D m → Info BI m
  infoColumn : ∀ {m : ℕ} (x : Info D m), BasisInverse.infoColumn (info x) = BasisInverse.infoColumn x
  identity : ∀ m, Below (fun a b => erase a = b) (BasisInverse.identity m : Res (D m)) (BasisInverse.identity m)
  invert : ∀ {m : ℕ} (columns : Fin m → Sparse m),
    Below (fun a b => erase a = b) (BasisInverse.invert columns : Res (D m)) (BasisInverse.invert columns)
  changeBasis : ∀ {m : ℕ} (bi : D m) (r : Fin m) (x : Info D m),
    Below (fun a b => erase a.1 = b.1 ∧ a.2 = b.2) (BasisInverse.changeBasis bi r x)
      (BasisInverse.changeBasis (erase bi) r (info x))
  leftMultiply : ∀ {m : ℕ} (bi : D m) (c : Sparse m),
    Below (fun a b => info a = b) (BasisInverse.leftMultiply bi c) (BasisInverse.leftMultiply (erase bi) c)
  rightMultiply : ∀ {m : ℕ} (bi : D m) (c : Sparse m),
    Below Eq (BasisInverse.rightMultiply bi c) (BasisInverse.rightMultiply (erase bi) c)
  generateElement : ∀ {m : ℕ} (bi : D m) (i : Fin m) (c : Sparse m),
    Below Eq (BasisInverse.generateElement bi i c) (BasisInverse.generateElement (erase bi) i c)
  shouldRefactor : ∀ {m : ℕ} (bi : D m), BasisInverse.shouldRefactor bi = BasisInverse.shouldRefactor (erase bi)
  basisInverseRow : ∀ {m : ℕ} (bi : D m) (i : Fin m),
    Below Eq (BasisInverse.basisInverseRow bi i) (BasisInverse.basisInverseRow (erase bi) i)
  removeBasis : ∀ {m : ℕ} (rows : List (Fin m)) (bi : D m) (columns : Fin (keptLen rows) → Sparse (keptLen rows)),
    Below (fun a b => erase a = b) (BasisInverse.removeBasis rows bi columns)
      (BasisInverse.removeBasis rows (erase bi) columns)

/-- A result that is wrapped. -/
theorem Below.wrap {α β γ : Type} {x : Res α} {y : Res β} {f : α → γ} {S : α → β → Prop} {T : γ → β → Prop}
    (h : Below S x y) (hf : ∀ a b, S a b → T (f a) b) : Below T (x >>= fun a => pure (f a)) y := by
  intro c hc
  cases x with
  | error e => cases hc
  | ok a =>
    cases hc
    obtain ⟨b, hb, hs⟩ := h a rfl
    exact ⟨b, hb, hf a b hs⟩

instance : Erases DebugLU LU where
  erase bi := bi.lu
  info x := x
  infoColumn _ := rfl
  identity _ := (Below.refl _).wrap fun _ _ h => h
  invert columns := (LU.invertDebug_below columns).wrap fun _ _ h => h
  changeBasis bi r x := (LU.changeBasisDebug_below bi.lu r x).wrap fun _ _ h => by subst h; exact ⟨rfl, rfl⟩
  leftMultiply bi c := LU.leftMultiplyDebug_below bi.lu c
  rightMultiply bi _ := LU.rightSolveDebug_below bi.lu _
  generateElement bi i c := LU.generateElementDebug_below bi.lu i c
  shouldRefactor _ := rfl
  basisInverseRow bi _ := LU.rightSolveDebug_below bi.lu _
  removeBasis _ _ columns := (LU.invertDebug_below columns).wrap fun _ _ h => h

namespace BasisInverseRows

theorem invertDebug_below (columns : Fin m → Sparse m) : Below Eq (invertDebug columns) (invert columns) :=
  .bindEq (LU.invertDebug_below _) fun _ =>
    .bindEq (.tabulateMEq fun _ => LU.leftMultiplyDebug_below _ _) fun _ => .skip fun _ => .refl _

theorem rightMultiplyDebug_below (bi : BasisInverseRows m) (row : Sparse m) :
    Below Eq (bi.rightMultiplyDebug row) (bi.rightMultiply row) := by
  cases row with
  | nil => exact .refl _
  | cons p row => exact .skip fun _ => .refl _

end BasisInverseRows

instance : Erases DebugRows BasisInverseRows where
  erase bi := bi.inner
  info x := x
  infoColumn _ := rfl
  identity _ := (Below.skip fun _ => Below.refl _).wrap fun _ _ h => h
  invert columns := (BasisInverseRows.invertDebug_below columns).wrap fun _ _ h => h
  changeBasis bi r x := (Below.refl (bi.inner.changeBasis r x)).wrap fun _ _ h => by subst h; exact ⟨rfl, rfl⟩
  leftMultiply bi c := (.skip fun _ => .refl _ : Below Eq (bi.inner.leftMultiplyDebug c) _)
  rightMultiply bi c := bi.inner.rightMultiplyDebug_below c
  generateElement bi i c := .refl _
  shouldRefactor _ := rfl
  basisInverseRow bi i := .refl _
  removeBasis rows bi _ := (.skip fun _ => .skip fun _ => .skip fun _ => .skip fun _ => .refl _ :
    Below Eq (bi.inner.removeBasisPartDebug rows) (.ok (bi.inner.removeBasisPart rows))).wrap fun _ _ h => h

end Relp
