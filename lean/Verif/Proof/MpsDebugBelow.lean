import Verif.Model.MpsDebug
import Verif.Proof.DebugBelowForm

/-!
# Reading and converting a file in a debug build gives the result of a release build, or aborts
-/

namespace Relp

/-- The result of a debug build: an abort, or the result of a release build. -/
def OrAborts {α : Type} (debug release : Import α) : Prop := debug = .error .panic ∨ debug = release

namespace OrAborts

variable {α β σ : Type}

theorem refl (x : Import α) : OrAborts x x := Or.inr rfl

theorem of_eq {x y : Import α} (h : x = y) : OrAborts x y := Or.inr h

theorem aborts (y : Import α) : OrAborts (.error .panic) y := Or.inl rfl

theorem elim {x y : Import α} (h : OrAborts x y) {a : α} (hx : x = .ok a) : y = .ok a := by
  rcases h with h | h
  · rw [h] at hx; cases hx
  · rw [← h, hx]

theorem bind {x y : Import α} {f g : α → Import β} (h : OrAborts x y) (hf : ∀ a, OrAborts (f a) (g a)) :
    OrAborts (x >>= f) (y >>= g) := by
  rcases h with rfl | rfl
  · exact Or.inl rfl
  · cases x with
    | error e => exact Or.inr rfl
    | ok a => exact hf a

theorem bindSame {x : Import α} {f g : α → Import β} (hf : ∀ a, OrAborts (f a) (g a)) :
    OrAborts (x >>= f) (x >>= g) := (refl x).bind hf

theorem check (c : Bool) {x : Unit → Import α} {y : Import α} (h : c = true → OrAborts (x ()) y) :
    OrAborts (importAssert c >>= x) y := by
  cases c with
  | false => exact Or.inl rfl
  | true => exact h rfl

theorem foldlM {f g : σ → α → Import σ} (h : ∀ s a, OrAborts (f s a) (g s a)) : ∀ (l : List α) (s : σ),
    OrAborts (l.foldlM f s) (l.foldlM g s)
  | [], s => refl _
  | a :: l, s => (h s a).bind fun t => foldlM h l t

end OrAborts

namespace Number

theorem parseMagnitude_below (text : Text) : OrAborts (parseMagnitudeDebug text) (parseMagnitude text) := by
  unfold parseMagnitudeDebug parseMagnitude
  rcases splitAtPoint text with ⟨whole, _ | decimals⟩
  · exact OrAborts.refl _
  · refine OrAborts.bindSame fun a => OrAborts.bindSame fun b => ?_
    refine OrAborts.check _ fun h1 => OrAborts.check _ fun h2 => OrAborts.check _ fun h3 => OrAborts.of_eq ?_
    rw [decide_eq_true_iff] at h1 h3
    rw [Nat.mod_eq_of_lt h1, Nat.mod_eq_of_lt h3]

theorem tryFrom_below (text : Text) : OrAborts (Raw.tryFromDebug text) (Raw.tryFrom text) := by
  cases text with
  | nil => exact OrAborts.refl _
  | cons first rest =>
    unfold Raw.tryFromDebug Raw.tryFrom
    simp only
    split
    · exact OrAborts.refl _
    · exact (parseMagnitude_below _).bind fun a => OrAborts.refl _

theorem parse_below (text : Text) : OrAborts (parseDebug text) (parse text) := by
  refine (tryFrom_below text).bind fun raw => ?_
  unfold Raw.toRationalDebug
  exact OrAborts.check _ fun _ => OrAborts.check _ fun _ => OrAborts.refl _

end Number

namespace Mps

theorem sameSection_below (line : Text) {α : Type} {f g : Bool → Import α} (h : ∀ b, OrAborts (f b) (g b)) :
    OrAborts (isPartOfSameSectionDebug line >>= f) (g (isPartOfSameSection line)) := by
  unfold isPartOfSameSectionDebug
  rw [bind_assoc]
  exact OrAborts.check _ fun _ => h _

variable {CR : Retriever}

theorem parseRowSection_below : ∀ (lines : List Text) (cost : Option Text) (rows : List Row),
    OrAborts (parseRowSectionDebug CR lines cost rows) (parseRowSection CR lines cost rows)
  | [], _, _ => OrAborts.refl _
  | line :: lines, cost, rows => by
    unfold parseRowSectionDebug parseRowSection
    refine sameSection_below line (g := fun b => if b = true then _ else _) fun b => ?_
    split
    · refine OrAborts.bindSame fun a => ?_
      simp only
      refine OrAborts.bindSame fun r => ?_
      cases r with
      | none =>
        simp only
        split
        · exact OrAborts.refl _
        · exact parseRowSection_below lines _ _
      | some relation => exact parseRowSection_below lines _ _
    · exact OrAborts.refl _

theorem saveColumnPair_below (cost : Text) (rows : List Row) (s : ColumnState) (row value : Text) :
    OrAborts (saveColumnPairDebug cost rows s row value) (saveColumnPair cost rows s row value) :=
  (Number.parse_below value).bind fun _ => OrAborts.refl _

theorem parseColumnData_below (cost : Text) (rows : List Row) (s : ColumnState) (column row value : Text)
    (rest : CR.RestOfLine) : OrAborts (parseColumnDataDebug CR cost rows s column row value rest)
      (parseColumnData CR cost rows s column row value rest) := by
  have key : ∀ s : ColumnState, OrAborts (do
      let s ← saveColumnPairDebug cost rows s row value
      match ← CR.fiveAndSix rest with
      | some (rowName, valueText) => saveColumnPairDebug cost rows s rowName valueText
      | none => pure s) (do
      let s ← saveColumnPair cost rows s row value
      match ← CR.fiveAndSix rest with
      | some (rowName, valueText) => saveColumnPair cost rows s rowName valueText
      | none => pure s) := fun s => by
    refine (saveColumnPair_below cost rows s row value).bind fun s => OrAborts.bindSame fun r => ?_
    match r with
    | none => exact OrAborts.refl _
    | some (a, b) => exact saveColumnPair_below cost rows s a b
  unfold parseColumnDataDebug parseColumnData
  cases s.columnToBeSaved with
  | none => exact key _
  | some active =>
    simp only
    split
    · exact OrAborts.bindSame key
    · exact key _

theorem parseMarker_below (s : ColumnState) (text : Text) : OrAborts (parseMarkerDebug s text)
    (if text = "'INTORG'".toList then pure { s with activeVariableType := .integer }
    else if text = "'INTEND'".toList then pure { s with activeVariableType := .continuous }
    else .error .parse) := by
  unfold parseMarkerDebug
  split
  · exact OrAborts.check _ fun _ => OrAborts.refl _
  · split
    · exact OrAborts.check _ fun _ => OrAborts.refl _
    · exact OrAborts.refl _

theorem parseColumnLine_below (cost : Text) (rows : List Row) (s : ColumnState) (line : Text) :
    OrAborts (parseColumnLineDebug CR cost rows s line) (parseColumnLine CR cost rows s line) := by
  unfold parseColumnLineDebug parseColumnLine
  refine OrAborts.bindSame fun c => ?_
  cases c with
  | marker text => exact OrAborts.bindSame fun s => parseMarker_below s text
  | data column row value rest => exact parseColumnData_below cost rows s column row value rest

theorem parseColumnSection_below (cost : Text) (rows : List Row) : ∀ (lines : List Text) (s : ColumnState),
    OrAborts (parseColumnSectionDebug CR cost rows lines s) (parseColumnSection CR cost rows lines s)
  | [], _ => OrAborts.refl _
  | line :: lines, s => by
    unfold parseColumnSectionDebug parseColumnSection
    refine sameSection_below line (g := fun b => if b = true then _ else _) fun b => ?_
    split
    · exact (parseColumnLine_below cost rows s line).bind fun s => parseColumnSection_below cost rows lines s
    · exact OrAborts.bindSame fun _ => OrAborts.bindSame fun _ => OrAborts.check _ fun _ => OrAborts.refl _

theorem saveGroupPair_below (rows : List Row) (s : GroupState ℚ) (row value : Text) :
    OrAborts (saveGroupPairDebug rows s row value) (saveGroupPair rows s row value) := by
  unfold saveGroupPairDebug saveGroupPair
  rcases Number.parse_below value with h | h
  · rw [h]
    left
    cases rowIndex rows row <;> rfl
  · rw [h]
    exact OrAborts.refl _

theorem parseValueLine_below (rows : List Row) (s : GroupState ℚ) (line : Text) :
    OrAborts (parseValueLineDebug CR rows s line) (parseValueLine CR rows s line) := by
  unfold parseValueLineDebug parseValueLine
  refine OrAborts.bindSame fun a => OrAborts.bindSame fun s => (saveGroupPair_below rows s _ _).bind fun s =>
    OrAborts.bindSame fun r => ?_
  match r with
  | none => exact OrAborts.refl _
  | some (a, b) => exact saveGroupPair_below rows s a b

theorem parseOptionalSection_below (valid : List Section) (rows : List Row) :
    ∀ (lines : List Text) (s : GroupState ℚ),
    OrAborts (parseOptionalSectionDebug CR valid rows lines s) (parseOptionalSection CR valid rows lines s)
  | [], _ => OrAborts.refl _
  | line :: lines, s => by
    unfold parseOptionalSectionDebug parseOptionalSection
    refine sameSection_below line (g := fun b => if b = true then _ else _) fun b => ?_
    split
    · exact (parseValueLine_below rows s line).bind fun s => parseOptionalSection_below valid rows lines s
    · exact OrAborts.refl _

theorem parseBoundType_below (text : Text) (rest : CR.RestOfLine) :
    OrAborts (parseBoundTypeDebug CR text rest) (parseBoundType CR text rest) := by
  have key : ∀ f : ℚ → BoundType, OrAborts (do
      let valueText ← CR.four rest
      let value ← Number.parseDebug valueText
      pure (f value)) (do
      let valueText ← CR.four rest
      let value ← Number.parse valueText
      pure (f value)) := fun f =>
    OrAborts.bindSame fun v => (Number.parse_below v).bind fun _ => OrAborts.refl _
  unfold parseBoundTypeDebug parseBoundType
  simp only
  split; · exact OrAborts.refl _
  split; · exact OrAborts.refl _
  split; · exact OrAborts.refl _
  split; · exact OrAborts.refl _
  split; · exact key _
  split; · exact key _
  split; · exact key _
  split; · exact key _
  split; · exact key _
  exact OrAborts.refl _

theorem parseBoundLine_below (columns : List Column) (s : GroupState BoundType) (line : Text) :
    OrAborts (parseBoundLineDebug CR columns s line) (parseBoundLine CR columns s line) := by
  unfold parseBoundLineDebug parseBoundLine
  refine OrAborts.bindSame fun a => ?_
  simp only
  cases columnIndex columns a.1.2.2 with
  | none => exact OrAborts.refl _
  | some j => exact OrAborts.bindSame fun s => (parseBoundType_below _ _).bind fun _ => OrAborts.refl _

theorem parseBoundsSection_below (columns : List Column) : ∀ (lines : List Text) (s : GroupState BoundType),
    OrAborts (parseBoundsSectionDebug CR columns lines s) (parseBoundsSection CR columns lines s)
  | [], _ => OrAborts.refl _
  | line :: lines, s => by
    unfold parseBoundsSectionDebug parseBoundsSection
    refine sameSection_below line (g := fun b => if b = true then _ else _) fun b => ?_
    split
    · exact (parseBoundLine_below columns s line).bind fun s => parseBoundsSection_below columns lines s
    · exact OrAborts.refl _

theorem parseOptionalSections_below (rows : List Row) (columns : List Column) (next : Section)
    (lines : List Text) : OrAborts (parseOptionalSectionsDebug CR rows columns next lines)
      (parseOptionalSections CR rows columns next lines) := by
  have k3 : ∀ (rhss ranges : List (Listing ℚ)) (next : Section) (lines : List Text), OrAborts (do
      checkRangesConsistency ranges
      let (bounds, lines) ← if next = .bounds then parseBoundsSectionDebug CR columns lines ⟨[], [], none⟩
        else .ok ([], lines)
      pure (rhss, ranges, bounds, lines)) (do
      checkRangesConsistency ranges
      let (bounds, lines) ← if next = .bounds then parseBoundsSection CR columns lines ⟨[], [], none⟩
        else .ok ([], lines)
      pure (rhss, ranges, bounds, lines)) := fun rhss ranges next lines => by
    refine OrAborts.bindSame fun _ => ?_
    simp only
    split
    · exact (parseBoundsSection_below columns _ _).bind fun _ => OrAborts.refl _
    · exact OrAborts.refl _
  have k2 : ∀ (rhss : List (Listing ℚ)) (next : Section) (lines : List Text), OrAborts (do
      let (ranges, next, lines) ←
        if next = .ranges then parseOptionalSectionDebug CR [.bounds] rows lines ⟨[], [], none⟩
        else .ok ([], next, lines)
      checkRangesConsistency ranges
      let (bounds, lines) ← if next = .bounds then parseBoundsSectionDebug CR columns lines ⟨[], [], none⟩
        else .ok ([], lines)
      pure (rhss, ranges, bounds, lines)) (do
      let (ranges, next, lines) ←
        if next = .ranges then parseOptionalSection CR [.bounds] rows lines ⟨[], [], none⟩
        else .ok ([], next, lines)
      checkRangesConsistency ranges
      let (bounds, lines) ← if next = .bounds then parseBoundsSection CR columns lines ⟨[], [], none⟩
        else .ok ([], lines)
      pure (rhss, ranges, bounds, lines)) := fun rhss next lines => by
    simp only
    split
    · exact (parseOptionalSection_below _ rows _ _).bind fun x => k3 rhss x.1 x.2.1 x.2.2
    · exact k3 rhss [] next lines
  unfold parseOptionalSectionsDebug parseOptionalSections
  simp only
  split
  · exact (parseOptionalSection_below _ rows _ _).bind fun x => k2 x.1 x.2.1 x.2.2
  · exact k2 [] next lines

theorem parseLines_below (lines : List Text) : OrAborts (parseLinesDebug CR lines) (parseLines CR lines) := by
  unfold parseLinesDebug parseLines
  refine OrAborts.bindSame fun a => OrAborts.bindSame fun b => (parseRowSection_below _ _ _).bind fun c =>
    OrAborts.bindSame fun d => ?_
  unfold checkRowIndex
  simp only [bind_assoc]
  refine OrAborts.check _ fun _ => OrAborts.check _ fun _ => (parseColumnSection_below _ _ _ _).bind fun e => ?_
  exact OrAborts.check _ fun _ => (parseOptionalSections_below _ _ _ _).bind fun g => OrAborts.refl _

/-! ### Conversion -/

theorem ofRes_below {α : Type} {x y : Res α} (h : Below Eq x y) {a : α} (hy : y = .ok a) :
    OrAborts (Import.ofRes x) (.ok a) := by
  cases hx : x with
  | error e => exact Or.inl rfl
  | ok b =>
    rw [h.elim hx] at hy
    cases hy
    exact OrAborts.refl _

theorem newDebug_below (data : List (SVec ℕ)) (major minor : ℕ) :
    OrAborts (Import.ofRes (SparseMatrix.newDebug data major minor)) (.ok ⟨data, major, minor⟩) := by
  refine ofRes_below (y := .ok ⟨data, major, minor⟩) ?_ rfl
  unfold SparseMatrix.newDebug
  exact Below.skip fun _ => Below.skip fun _ => Below.skip fun _ => Below.skip fun _ => Below.refl _

theorem formDebug_below (o : Objective) (A : SparseMatrix) (types : List ConstraintType) (b : List ℚ)
    (vars : List Variable) (names : List String) (c : ℚ) :
    OrAborts (Import.ofRes (GeneralForm.newDebug o A types b vars names c))
      (.ok (GeneralForm.new o A types b vars names c)) := by
  refine ofRes_below (y := .ok (GeneralForm.new o A types b vars names c)) ?_ rfl
  unfold GeneralForm.newDebug
  exact Below.skip fun _ => Below.refl _

theorem processBounds_below (vars : List Variable) (bounds : List (Listing BoundType)) :
    OrAborts (processBoundsDebug vars bounds) (processBounds vars bounds) := by
  unfold processBoundsDebug processBounds
  refine OrAborts.check _ fun _ => OrAborts.bindSame fun states => ?_
  split
  · exact OrAborts.refl _
  · exact OrAborts.check _ fun _ => OrAborts.refl _

theorem computeVariableInfo_below (columns : List Column) (costs : SVec ℕ) (bounds : List (Listing BoundType))
    (n : ℕ) : OrAborts (computeVariableInfoDebug columns costs bounds n)
      (computeVariableInfo columns costs bounds n) := by
  unfold computeVariableInfoDebug computeVariableInfo
  refine OrAborts.check _ fun _ => OrAborts.check _ fun _ => (processBounds_below _ _).bind fun info => ?_
  exact (newDebug_below _ _ _).bind (g := fun m => pure (info, m, _)) fun _ => OrAborts.refl _

theorem updateAt_below {σ α : Type} {f g : σ → α → Import σ} (h : ∀ s a, OrAborts (f s a) (g s a))
    (states : List σ) (entry : ℕ × α) : OrAborts (updateAt f states entry) (updateAt g states entry) := by
  unfold updateAt
  cases states[entry.1]? with
  | none => exact OrAborts.refl _
  | some s => exact (h _ _).bind fun _ => OrAborts.refl _

theorem computeConstraintInfo_below (rows : List Row) (rhss ranges : List (Listing ℚ)) :
    OrAborts (computeConstraintInfoDebug rows rhss ranges) (computeConstraintInfo rows rhss ranges) := by
  unfold computeConstraintInfoDebug computeConstraintInfo
  refine OrAborts.bindSame fun r => OrAborts.check _ fun _ => OrAborts.check _ fun _ => OrAborts.check _ fun _ =>
    OrAborts.check _ fun _ => ?_
  refine (OrAborts.foldlM (updateAt_below fun s v => ?_) _ _).bind fun _ =>
    OrAborts.check _ fun _ => OrAborts.refl _
  unfold computeBRowDebug
  exact OrAborts.check _ fun _ => OrAborts.refl _

theorem toGeneralForm_below (p : Mps) : OrAborts p.toGeneralFormDebug p.toGeneralForm := by
  unfold toGeneralFormDebug toGeneralForm
  exact (computeVariableInfo_below _ _ _ _).bind fun a => (computeConstraintInfo_below _ _ _).bind fun b =>
    formDebug_below _ _ _ _ _ _ _

end Mps

end Relp
