import Verif.Proof.MpsTotal
import Verif.Spec.MpsFixed

/-!
# Reading any text in the fixed format: aborts
-/

namespace Relp.Mps

open Spec

/-! ### Slices and fields -/

theorem slice_ascii {t : Text} (h : Ascii t) {a b : ℕ} (hab : a ≤ b) (hb : b ≤ t.length) :
    slice a b t = .ok (field a b t) := by
  unfold slice field
  rw [dropBytes_ascii h (by omega), ok_bind]
  exact takeBytes_ascii (fun c hc => h c (List.mem_of_mem_drop hc)) (by rw [List.length_drop]; omega)

theorem field_ascii {t : Text} (h : Ascii t) (a b : ℕ) : Ascii (field a b t) :=
  fun c hc => h c (List.mem_of_mem_drop (List.mem_of_mem_take hc))

theorem field_drop (n a b : ℕ) (t : Text) : field a b (t.drop n) = field (n + a) (n + b) t := by
  unfold field
  rw [List.drop_drop]
  congr 1
  omega

theorem trimStart_ascii {t : Text} (h : Ascii t) : Ascii (trimStart t) :=
  fun c hc => h c ((List.dropWhile_suffix _).subset hc)

theorem trimStart_ne_nil {t : Text} (h : ∃ c ∈ t, ¬isWhitespace c) : trimStart t ≠ [] := by
  unfold trimStart
  intro e
  obtain ⟨c, hc, hw⟩ := h
  rw [List.dropWhile_eq_nil_iff] at e
  exact hw (e c hc)

theorem field_number {t : Text} (h : Ascii t) (hn : HasNumber t) : GoodWord (trimStart (field 24 36 t)) :=
  ⟨trimStart_ne_nil hn, trimStart_ascii (field_ascii h _ _)⟩

/-! ### Sections -/

/-- All lines have the fields that are read from them if the first one is in this section. -/
def FixedFrom : Option Text → List Text → Prop
  | _, [] => True
  | sec, line :: ls =>
    Ascii line ∧ if line.head? = some ' ' then FixedLine sec line ∧ FixedFrom sec ls else FixedFrom (some line) ls

theorem FixedFrom.ascii {sec : Option Text} {line : Text} {ls : List Text} (h : FixedFrom sec (line :: ls)) :
    Ascii line := h.1

theorem FixedFrom.same {sec : Option Text} {line : Text} {ls : List Text} (h : FixedFrom sec (line :: ls))
    (hl : isPartOfSameSection line = true) : FixedLine sec line ∧ FixedFrom sec ls := by
  have := h.2
  rwa [if_pos (by simpa [isPartOfSameSection] using hl)] at this

theorem FixedFrom.next {sec : Option Text} {line : Text} {ls : List Text} (h : FixedFrom sec (line :: ls))
    (hl : ¬isPartOfSameSection line = true) : FixedFrom (some line) ls := by
  have := h.2
  rwa [if_neg (by simpa [isPartOfSameSection] using hl)] at this

theorem FixedFrom.tail {sec : Option Text} {line : Text} {ls : List Text} (h : FixedFrom sec (line :: ls)) :
    ∃ sec, FixedFrom sec ls := by
  by_cases hl : isPartOfSameSection line = true
  · exact ⟨_, (h.same hl).2⟩
  · exact ⟨_, h.next hl⟩

theorem fixedFrom_of (ls : List Text) : ∀ pre : List Text, (∀ line ∈ ls, Ascii line) →
    (∀ before line after, ls = before ++ line :: after → line.head? = some ' ' →
      FixedLine (sectionAfter (pre ++ before)) line) → FixedFrom (sectionAfter pre) ls := by
  induction ls with
  | nil => exact fun _ _ _ => trivial
  | cons line ls ih =>
    intro pre ha h
    refine ⟨ha line (by simp), ?_⟩
    have hn := ih (pre ++ [line]) (fun l hl => ha l (by simp [hl])) fun before l after e hl => by
      have := h (line :: before) l after (by rw [e]; rfl) hl
      rwa [List.append_assoc]
    split
    · rename_i hl
      refine ⟨by simpa using h [] line ls rfl hl, ?_⟩
      have : sectionAfter (pre ++ [line]) = sectionAfter pre := by
        unfold sectionAfter
        rw [List.filter_append, List.filter_cons_of_neg (by simpa using hl)]
        simp
      rwa [this] at hn
    · rename_i hl
      have : sectionAfter (pre ++ [line]) = some line := by
        unfold sectionAfter
        rw [List.filter_append, List.filter_cons_of_pos (by simpa using hl)]
        simp
      rwa [this] at hn

/-! ### Lines -/

theorem tryParseNextSection_fixed (line : Text) (acceptable : List Section) :
    Safe (tryParseNextSection line acceptable) fun s => Section.fromStr line = .ok s ∧ (s = .endata ∨ s ∈ acceptable) := by
  unfold tryParseNextSection
  match h : Section.fromStr line with
  | .error e =>
    show e ≠ .panic
    rintro rfl
    unfold Section.fromStr at h
    repeat' split at h
    all_goals cases h
  | .ok s =>
    simp only [ok_bind]
    split
    · exact safe_error (by simp)
    · rename_i hs
      refine ⟨rfl, ?_⟩
      by_cases h1 : s = .endata
      · exact Or.inl h1
      · exact Or.inr (by_contra fun h2 => hs ⟨h1, h2⟩)

theorem fromStr_ok {line : Text} {s : Section} (h : Section.fromStr line = .ok s) : line = match s with
    | .rows => "ROWS".toList
    | .columns => "COLUMNS".toList
    | .rhs => "RHS".toList
    | .bounds => "BOUNDS".toList
    | .ranges => "RANGES".toList
    | .endata => "ENDATA".toList := by
  unfold Section.fromStr at h
  repeat' split at h
  all_goals first | (cases h; assumption) | cases h

theorem programName_fixed {ls : List Text} (h : FixedFrom none ls) :
    Safe (parseProgramName fixed ls) fun r => ∃ sec, FixedFrom sec r.2 := by
  unfold parseProgramName
  match ls, h with
  | [], _ => exact safe_error (by simp)
  | line :: ls, h =>
    simp only
    split
    · exact safe_error (by simp)
    · rename_i hl
      have ha := h.ascii
      rw [byteLength_ascii ha] at hl
      rw [takeBytes_ascii ha (by omega), dropBytes_ascii ha (by omega)]
      simp only [ok_bind]
      split
      · refine Safe.bind (P := fun _ => True) ?_ fun _ _ => h.tail
        unfold fixed free
        simp only
        split
        · trivial
        · exact safe_error (by simp)
      · exact safe_error (by simp)

theorem objsense_fixed {sec : Option Text} {ls : List Text} (h : FixedFrom sec ls) :
    Safe (parseObjsenseSection ls) fun r => ∃ sec, FixedFrom sec r.2 := by
  unfold parseObjsenseSection
  split
  · exact safe_error (by simp)
  · split
    · exact h.tail
    · split
      · split
        · obtain ⟨_, h⟩ := h.tail
          obtain ⟨_, h⟩ := h.tail
          repeat' split
          all_goals first | exact safe_error (by simp) | exact h.tail
        · exact safe_error (by simp)
      · exact safe_error (by simp)

theorem rowSection_fixed (ls : List Text) : ∀ sec cost rows, FixedFrom sec ls →
    Safe (parseRowSection fixed ls cost rows) fun r =>
      FixedFrom (some "COLUMNS".toList) r.2.2 ∨ FixedFrom (some "ENDATA".toList) r.2.2 := by
  induction ls with
  | nil => exact fun _ _ _ _ => safe_error (by simp)
  | cons line ls ih =>
    intro sec cost rows h
    unfold parseRowSection
    split
    · rename_i hl
      refine Safe.bind (P := fun q => GoodWord q.1) ?_ fun q hq => ?_
      · have ha := h.ascii
        unfold fixed
        simp only
        rw [byteLength_ascii ha]
        split
        · rw [slice_ascii ha (by omega) (by omega), slice_ascii ha (by omega) (by omega)]
          simp only [ok_bind]
          split
          · exact safe_error (by simp)
          · refine ⟨?_, field_ascii ha _ _⟩
            intro e
            have := congrArg List.length e
            unfold field at this
            simp only [List.length_take, List.length_drop, List.length_nil] at this
            omega
        · exact safe_error (by simp)
      · refine (rowType_safe hq).bind fun t _ => ?_
        cases t with
        | none =>
          simp only
          split
          · exact safe_error (by simp)
          · exact ih _ _ _ (h.same hl).2
        | some t => exact ih _ _ _ (h.same hl).2
    · rename_i hl
      refine (tryParseNextSection_fixed _ _).bind fun s hs => ?_
      have hn := h.next hl
      rw [fromStr_ok hs.1] at hn
      rcases hs.2 with rfl | h2
      · exact Or.inr hn
      · cases List.mem_singleton.1 h2
        exact Or.inl hn

theorem fiveAndSix_fixed {rest : Text} (h : Ascii rest) :
    Safe (fixed.fiveAndSix rest) fun r => ∀ q, r = some q → GoodWord q.2 := by
  unfold fixed
  simp only
  rw [byteLength_ascii h]
  split
  · rw [slice_ascii h (by omega) (by omega), slice_ascii h (by omega) (by omega)]
    simp only [ok_bind]
    split
    · rename_i hs
      rintro q ⟨⟩
      refine ⟨?_, trimStart_ascii (field_ascii h _ _)⟩
      rw [Bool.and_eq_true] at hs
      simpa using hs.2
    · rintro q ⟨⟩
  · rintro q ⟨⟩

theorem columnData_fixed (cost : Text) (rows : List Row) (s : ColumnState) (column row : Text) {value : Text}
    (h : GoodWord value) {rest : Text} (hr : Ascii rest) :
    Safe (parseColumnData fixed cost rows s column row value rest) fun _ => True := by
  have key : ∀ s, Safe (do
      let s ← saveColumnPair cost rows s row value
      match ← fixed.fiveAndSix rest with
      | some (rowName, valueText) => saveColumnPair cost rows s rowName valueText
      | none => pure s) fun _ => True := by
    intro s
    refine (saveColumnPair_safe _ _ _ _ h).bind fun s _ => ?_
    refine (fiveAndSix_fixed hr).bind fun r hr => ?_
    match r, hr with
    | none, _ => trivial
    | some (row, value), hr => exact saveColumnPair_safe _ _ _ _ (hr _ rfl)
  unfold parseColumnData
  simp only
  split
  · split
    · exact (saveColumn_safe _ _).bind fun s _ => key s
    · exact key _
  · exact key _

/-- What is known about a line in the section of columns. -/
def FixedContent (c : ColumnLineContent Text) : Prop :=
  match c with
  | .marker _ => True
  | .data _ _ value rest => GoodWord value ∧ Ascii rest

theorem drop_ascii {t : Text} (h : Ascii t) (n : ℕ) : Ascii (t.drop n) := fun c hc => h c (List.mem_of_mem_drop hc)

theorem columnLine_fixed (cost : Text) (rows : List Row) (s : ColumnState) {line : Text} (ha : Ascii line)
    (h : 36 ≤ line.length → field 14 22 line = "'MARKER'".toList ∨ HasNumber line) :
    Safe (parseColumnLine fixed cost rows s line) fun _ => True := by
  unfold parseColumnLine
  refine Safe.bind (P := FixedContent) ?_ fun c hc => ?_
  · unfold fixed
    simp only
    rw [byteLength_ascii ha]
    split
    · rename_i hl
      rw [slice_ascii (a := 14) ha (by omega) (by omega)]
      simp only [ok_bind]
      split
      · split
        · rw [slice_ascii ha (by omega) (by omega)]
          trivial
        · exact safe_error (by simp)
      · rename_i hm
        rw [slice_ascii ha (by omega) (by omega), slice_ascii ha (by omega) (by omega),
          dropBytes_ascii ha (by omega)]
        exact ⟨field_number ha ((h hl).resolve_left hm), drop_ascii ha _⟩
    · exact safe_error (by simp)
  · cases c with
    | marker text =>
      refine (saveColumn_safe _ _).bind fun s _ => ?_
      repeat' split
      all_goals first | trivial | exact safe_error (by simp)
    | data column row value rest => exact columnData_fixed cost rows s column row hc.1 hc.2

/-- The section that follows, and its lines. -/
def FixedNext (next : Section) (ls : List Text) : Prop :=
  match next with
  | .rhs => FixedFrom (some "RHS".toList) ls
  | .ranges => FixedFrom (some "RANGES".toList) ls
  | .bounds => FixedFrom (some "BOUNDS".toList) ls
  | _ => True

theorem fixedNext_of {line : Text} {s : Section} {ls : List Text} (hs : Section.fromStr line = .ok s)
    (h : FixedFrom (some line) ls) : FixedNext s ls := by
  rw [fromStr_ok hs] at h
  cases s <;> first | exact h | trivial

theorem columnSection_fixed (cost : Text) (rows : List Row) (ls : List Text) {sec : Option Text}
    (hsec : sec = some "COLUMNS".toList ∨ sec = some "ENDATA".toList) : ∀ s, FixedFrom sec ls →
    Safe (parseColumnSection fixed cost rows ls s) fun r => FixedNext r.2.2.1 r.2.2.2 := by
  induction ls with
  | nil => exact fun _ _ => safe_error (by simp)
  | cons line ls ih =>
    intro s h
    unfold parseColumnSection
    split
    · rename_i hl
      obtain ⟨h1, h2⟩ := h.same hl
      exact (columnLine_fixed cost rows s h.ascii (h1.columns hsec)).bind fun s _ => ih s h2
    · rename_i hl
      exact (tryParseNextSection_fixed _ _).bind fun _ hs => (saveColumn_safe _ _).bind fun _ _ =>
        fixedNext_of hs.1 (h.next hl)

theorem valueLine_fixed (rows : List Row) (s : GroupState ℚ) {line : Text} (ha : Ascii line)
    (h : 36 ≤ line.length → HasNumber line) : Safe (parseValueLine fixed rows s line) fun _ => True := by
  unfold parseValueLine
  refine Safe.bind (P := fun q => GoodWord q.1.2.2 ∧ Ascii (q.2 : Text)) ?_ fun q hq => ?_
  · unfold fixed
    simp only
    rw [byteLength_ascii ha]
    split
    · rename_i hl
      rw [slice_ascii ha (by omega) (by omega), slice_ascii ha (by omega) (by omega),
        slice_ascii ha (by omega) (by omega), dropBytes_ascii ha (by omega)]
      simp only [ok_bind]
      exact ⟨field_number ha (h hl), drop_ascii ha _⟩
    · exact safe_error (by simp)
  · obtain ⟨⟨group, row, value⟩, rest⟩ := q
    refine (startGroup_safe _ _ _).bind fun s _ => (saveGroupPair_safe rows s row hq.1).bind fun s _ => ?_
    refine (fiveAndSix_fixed hq.2).bind fun r hr => ?_
    match r, hr with
    | none, _ => trivial
    | some (row, value), hr => exact saveGroupPair_safe _ _ _ (hr _ rfl)

theorem optionalSection_fixed (valid : List Section) (rows : List Row) (ls : List Text) {sec : Option Text}
    (hsec : sec = some "RHS".toList ∨ sec = some "RANGES".toList) : ∀ s, FixedFrom sec ls →
    Safe (parseOptionalSection fixed valid rows ls s) fun r => FixedNext r.2.1 r.2.2 := by
  induction ls with
  | nil => exact fun _ _ => safe_error (by simp)
  | cons line ls ih =>
    intro s h
    unfold parseOptionalSection
    split
    · rename_i hl
      obtain ⟨h1, h2⟩ := h.same hl
      exact (valueLine_fixed rows s h.ascii (h1.values hsec)).bind fun s _ => ih s h2
    · rename_i hl
      exact (tryParseNextSection_fixed _ _).bind fun _ hs => (saveGroup_safe _ _ _).bind fun _ _ =>
        fixedNext_of hs.1 (h.next hl)

theorem boundType_fixed {text : Text} (ht : text ≠ "SC".toList) {rest : Text} (ha : Ascii rest)
    (hr : 14 ≤ rest.length → GoodWord (trimStart (field 2 14 rest)) ∨
      text ∈ ["FR".toList, "MI".toList, "PL".toList, "BV".toList]) :
    Safe (parseBoundType fixed text rest) fun _ => True := by
  have hv : text ∉ ["FR".toList, "MI".toList, "PL".toList, "BV".toList] → ∀ f : ℚ → BoundType, Safe (do
      let valueText ← fixed.four rest
      let value ← Number.parse valueText
      pure (f value) : Import BoundType) fun _ => True := by
    intro hn f
    refine Safe.bind (P := GoodWord) ?_ fun w hw => (number_safe hw).bind fun _ _ => trivial
    unfold fixed
    simp only
    rw [byteLength_ascii ha]
    split
    · rename_i hl
      rw [slice_ascii ha (by omega) (by omega)]
      simp only [ok_bind]
      exact (hr hl).resolve_right hn
    · exact safe_error (by simp)
  unfold parseBoundType
  simp only
  split
  · trivial
  split
  · trivial
  split
  · trivial
  split
  · trivial
  rename_i h1 h2 h3 h4
  have hn : text ∉ ["FR".toList, "MI".toList, "PL".toList, "BV".toList] := by
    simp only [List.mem_cons, List.not_mem_nil, or_false, not_or]
    exact ⟨h1, h2, h3, h4⟩
  repeat' split
  all_goals first
    | exact hv hn _
    | exact absurd ‹_› ht
    | exact safe_error (by simp)

theorem boundLine_fixed (columns : List Column) (s : GroupState BoundType) {line : Text} (ha : Ascii line)
    (h : 14 ≤ line.length → 22 ≤ line.length ∧ field 1 3 line ≠ "SC".toList ∧
      (36 ≤ line.length → HasNumber line ∨
        field 1 3 line ∈ ["FR".toList, "MI".toList, "PL".toList, "BV".toList])) :
    Safe (parseBoundLine fixed columns s line) fun _ => True := by
  unfold parseBoundLine
  refine Safe.bind (P := fun q => q.1.1 ≠ "SC".toList ∧ Ascii (q.2 : Text) ∧
    (14 ≤ (q.2 : Text).length → GoodWord (trimStart (field 2 14 (q.2 : Text))) ∨
      q.1.1 ∈ ["FR".toList, "MI".toList, "PL".toList, "BV".toList])) ?_ fun q hq => ?_
  · unfold fixed
    simp only
    rw [byteLength_ascii ha]
    split
    · rename_i hl
      obtain ⟨h1, h2, h3⟩ := h hl
      rw [slice_ascii ha (by omega) (by omega), slice_ascii ha (by omega) (by omega),
        slice_ascii ha (by omega) (by omega), dropBytes_ascii ha (by omega)]
      simp only [ok_bind]
      refine ⟨h2, drop_ascii ha _, fun hr => ?_⟩
      rw [List.length_drop] at hr
      rcases h3 (by omega) with h3 | h3
      · left
        rw [field_drop]
        exact field_number ha h3
      · exact Or.inr h3
    · exact safe_error (by simp)
  · obtain ⟨⟨type, group, column⟩, rest⟩ := q
    simp only
    split
    · exact safe_error (by simp)
    · exact (startGroup_safe _ _ _).bind fun s _ => (boundType_fixed hq.1 hq.2.1 hq.2.2).bind fun _ _ => trivial

theorem boundsSection_fixed (columns : List Column) (ls : List Text) : ∀ s,
    FixedFrom (some "BOUNDS".toList) ls → Safe (parseBoundsSection fixed columns ls s) fun _ => True := by
  induction ls with
  | nil => exact fun _ _ => safe_error (by simp)
  | cons line ls ih =>
    intro s h
    unfold parseBoundsSection
    split
    · rename_i hl
      obtain ⟨h1, h2⟩ := h.same hl
      exact (boundLine_fixed columns s h.ascii (h1.bounds rfl)).bind fun s _ => ih s h2
    · exact (tryParseNextSection_safe _ _).bind fun _ _ => (saveGroup_safe _ _ _).bind fun _ _ => trivial

theorem optionalSections_fixed (rows : List Row) (columns : List Column) (next : Section) (ls : List Text)
    (h : FixedNext next ls) : Safe (parseOptionalSections fixed rows columns next ls) fun _ => True := by
  rw [parseOptionalSections_eq]
  refine Safe.bind (P := fun r => FixedNext r.2.1 r.2.2) ?_ fun r1 hr1 => ?_
  · split
    · rename_i e
      subst e
      exact optionalSection_fixed _ _ _ (Or.inl rfl) _ h
    · exact h
  refine Safe.bind (P := fun r => FixedNext r.2.1 r.2.2) ?_ fun r2 hr2 => ?_
  · split
    · rename_i e
      rw [e] at hr1
      exact optionalSection_fixed _ _ _ (Or.inr rfl) _ hr1
    · exact hr1
  refine Safe.bind (P := fun _ => True) ?_ fun _ _ => ?_
  · unfold checkRangesConsistency
    split
    · trivial
    · exact safe_error (by simp)
  refine Safe.bind (P := fun _ => True) ?_ fun _ _ => trivial
  split
  · rename_i e
    rw [e] at hr2
    exact boundsSection_fixed _ _ _ hr2
  · trivial

theorem parseLines_fixed (ls : List Text) (h : FixedFrom none ls) : Safe (parseLines fixed ls) fun _ => True := by
  unfold parseLines
  refine (programName_fixed h).bind fun r1 h1 => ?_
  obtain ⟨_, h1⟩ := h1
  refine (objsense_fixed h1).bind fun r2 h2 => ?_
  obtain ⟨_, h2⟩ := h2
  refine (rowSection_fixed _ _ _ _ h2).bind fun r3 h3 => ?_
  refine (checkRows_safe _ _).bind fun r4 _ => ?_
  refine Safe.bind (P := fun r => FixedNext r.2.2.1 r.2.2.2) ?_ fun r5 h5 => ?_
  · rcases h3 with h3 | h3
    · exact columnSection_fixed _ _ _ (Or.inl rfl) _ h3
    · exact columnSection_fixed _ _ _ (Or.inr rfl) _ h3
  refine (optionalSections_fixed _ _ _ _ h5).bind fun r6 _ => ?_
  obtain ⟨a, b, c, d⟩ := r6
  simp only
  split
  · trivial
  · exact safe_error (by simp)

instance (line : Text) : Decidable (HasNumber line) := inferInstanceAs (Decidable (∃ c ∈ _, _))

instance (sec : Option Text) (line : Text) : Decidable (FixedLine sec line) :=
  haveI : Decidable (field 1 3 line ∈ ["FR".toList, "MI".toList, "PL".toList, "BV".toList]) := inferInstance
  haveI h1 : Decidable (sec = some "COLUMNS".toList ∨ sec = some "ENDATA".toList → 36 ≤ line.length →
    field 14 22 line = "'MARKER'".toList ∨ HasNumber line) := inferInstance
  haveI h2 : Decidable (sec = some "RHS".toList ∨ sec = some "RANGES".toList → 36 ≤ line.length → HasNumber line) :=
    inferInstance
  haveI h3 : Decidable (sec = some "BOUNDS".toList → 14 ≤ line.length →
    22 ≤ line.length ∧ field 1 3 line ≠ "SC".toList ∧ (36 ≤ line.length → HasNumber line ∨
      field 1 3 line ∈ ["FR".toList, "MI".toList, "PL".toList, "BV".toList])) := inferInstance
  decidable_of_iff (_ ∧ _ ∧ _) ⟨fun h => ⟨h.1, h.2.1, h.2.2⟩, fun h => ⟨h.1, h.2, h.3⟩⟩

/-- Checks the lines one by one. -/
theorem fixedLines_of (ls : List Text) (h : ∀ i < ls.length, (ls.getD i []).head? = some ' ' →
      FixedLine (sectionAfter (ls.take i)) (ls.getD i [])) (before : List Text) (line : Text) (after : List Text)
    (e : ls = before ++ line :: after) (hl : line.head? = some ' ') : FixedLine (sectionAfter before) line := by
  subst e
  have := h before.length (by simp)
  simp only [List.take_left, List.getD_eq_getElem?_getD, List.getElem?_append_right (Nat.le_refl _), Nat.sub_self,
    List.getElem?_cons_zero, Option.getD_some] at this
  exact this hl

end Relp.Mps
