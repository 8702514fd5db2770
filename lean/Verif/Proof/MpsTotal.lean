import Verif.Proof.MpsFile
import Verif.Proof.MpsRows

/-!
# Reading any text: words, lines, aborts, and indices
-/

namespace Relp.Mps

open Spec

/-! ### Words and lines of any text -/

theorem Words.blank {c : Char} (hc : isWhitespace c) {t : Text} {words : List Text} (h : Words t words) :
    Words (c :: t) words := by
  have key : ∀ blanks : Text, (∀ d ∈ blanks, isWhitespace d) → ∀ d ∈ c :: blanks, isWhitespace d := by
    intro blanks hb d hd
    rcases List.mem_cons.1 hd with rfl | hd
    · exact hc
    · exact hb d hd
  cases h with
  | nil h => exact .nil (key _ h)
  | @cons blanks word rest words h1 h2 h3 h4 h5 =>
    exact Words.cons (blanks := c :: blanks) (key _ h1) h2 h3 h4 h5

theorem words_splitWords (t : Text) : ∀ acc : Text, (∀ c ∈ acc, ¬isWhitespace c) →
    Words (acc.reverse ++ t) (splitWords t acc) := by
  induction t with
  | nil =>
    intro acc h
    unfold splitWords
    cases acc with
    | nil => exact .nil (by simp)
    | cons c acc =>
      exact Words.cons (blanks := []) (rest := []) (by simp) (by simp) (fun d hd => h d (List.mem_reverse.1 hd))
        (Or.inl rfl) (.nil (by simp))
  | cons c t ih =>
    intro acc h
    unfold splitWords
    by_cases hc : isWhitespace c = true
    · rw [if_pos hc]
      have h0 : Words (c :: t) (splitWords t []) := Words.blank hc (ih [] (by simp))
      cases acc with
      | nil => exact h0
      | cons d acc =>
        exact Words.cons (blanks := []) (rest := c :: t) (by simp) (by simp)
          (fun d hd => h d (List.mem_reverse.1 hd)) (Or.inr ⟨c, t, rfl, hc⟩) h0
    · rw [if_neg hc]
      have := ih (c :: acc) (by
        intro d hd
        rcases List.mem_cons.1 hd with rfl | hd
        · exact hc
        · exact h d hd)
      simpa using this

/-- Each text consists of the words that are found. -/
theorem words_splitWhitespace (t : Text) : Words t (splitWhitespace t) := words_splitWords t [] (by simp)

theorem exists_first {t : Text} (h : '\n' ∈ t) : ∃ line rest, '\n' ∉ line ∧ t = line ++ '\n' :: rest := by
  induction t with
  | nil => cases h
  | cons c t ih =>
    by_cases hc : c = '\n'
    · exact ⟨[], t, by simp, by rw [hc]; rfl⟩
    · obtain ⟨line, rest, h1, h2⟩ := ih ((List.mem_cons.1 h).resolve_left (Ne.symm hc))
      refine ⟨c :: line, rest, ?_, by rw [h2]; rfl⟩
      rw [List.mem_cons]
      rintro (h | h)
      · exact hc h.symm
      · exact h1 h

theorem lines_newline {line : Text} (h : '\n' ∉ line) (rest : Text) :
    lines (line ++ '\n' :: rest) = stripReturn line.reverse :: lines rest := by
  unfold lines
  rw [splitLines_line h, List.append_nil, splitLines_newline]

theorem lines_last {line : Text} (h : '\n' ∉ line) : lines line = if line.isEmpty then [] else [line] := by
  unfold lines
  have := splitLines_line h [] []
  rw [List.append_nil, List.append_nil] at this
  rw [this, splitLines]
  cases line <;> simp

/-- Each text has the lines that are found, unless it ends with a carriage return. -/
theorem contents_intoLines (t : Text) (h : t.getLast? ≠ some '\r') : Contents t (intoLines t) := by
  rw [intoLines_eq]
  generalize hn : t.length = n
  induction n using Nat.strong_induction_on generalizing t with
  | _ n ih =>
    by_cases hm : '\n' ∈ t
    · obtain ⟨line, rest, h1, rfl⟩ := exists_first hm
      rw [lines_newline h1]
      have hr : Contents rest ((lines rest).filter keep) := by
        refine ih rest.length ?_ rest ?_ rfl
        · rw [← hn]
          simp
          omega
        · intro hl
          apply h
          cases rest with
          | nil => cases hl
          | cons c rest => rw [List.getLast?_append_of_ne_nil _ (by simp), List.getLast?_cons_cons]; exact hl
      by_cases hl : line.getLast? = some '\r'
      · obtain ⟨l, rfl⟩ : ∃ l, line = l ++ ['\r'] := by
          have hne : line ≠ [] := by rintro rfl; cases hl
          refine ⟨line.dropLast, ?_⟩
          have h2 := List.dropLast_append_getLast hne
          rw [List.getLast?_eq_some_getLast hne] at hl
          rw [Option.some.inj hl] at h2
          exact h2.symm
        have hs : stripReturn (l ++ ['\r']).reverse = l := by
          rw [List.reverse_append]
          show stripReturn ('\r' :: l.reverse) = l
          show l.reverse.reverse = l
          exact List.reverse_reverse l
        rw [hs]
        by_cases hk : keep l = true
        · rw [List.filter_cons_of_pos hk]
          rw [keep_iff] at hk
          have h1' : '\n' ∉ l := fun hc => h1 (List.mem_append_left _ hc)
          have := Contents.lineReturn h1' hk.1 hk.2 hr
          simpa using this
        · rw [List.filter_cons_of_neg hk]
          refine .comment h1 ?_ hr
          rw [keep_iff, not_and, not_not] at hk
          by_cases he : l = []
          · right; left; rw [he]; rfl
          · right; right
            obtain ⟨blanks, text, hb, e⟩ := hk he
            exact ⟨blanks, text ++ ['\r'], hb, by rw [e]; simp⟩
      · rw [stripReturn_eq hl]
        by_cases hk : keep line = true
        · rw [List.filter_cons_of_pos hk]
          rw [keep_iff] at hk
          exact .line h1 hl hk.1 hk.2 hr
        · rw [List.filter_cons_of_neg hk]
          refine .comment h1 ?_ hr
          rw [keep_iff, not_and, not_not] at hk
          by_cases he : line = []
          · exact Or.inl he
          · exact Or.inr (Or.inr (hk he))
    · rw [lines_last hm]
      by_cases he : t = []
      · rw [he]
        exact .nil
      · rw [if_neg (by simpa using he)]
        by_cases hk : keep t = true
        · rw [List.filter_cons_of_pos hk]
          rw [keep_iff] at hk
          exact .last hm h he hk.2
        · rw [List.filter_cons_of_neg hk]
          rw [keep_iff, not_and, not_not] at hk
          exact .lastComment hm (hk he)

/-! ### Aborts -/

/-- An error is not an abort, and a result satisfies a condition. -/
def Safe {α : Type} (x : Import α) (P : α → Prop) : Prop :=
  match x with
  | .ok a => P a
  | .error e => e ≠ .panic

theorem Safe.bind {α β : Type} {x : Import α} {f : α → Import β} {P : α → Prop} {Q : β → Prop} (h : Safe x P)
    (hf : ∀ a, P a → Safe (f a) Q) : Safe (x >>= f) Q := by
  cases x with
  | ok a => exact hf a h
  | error e => exact h

theorem Safe.mono {α : Type} {x : Import α} {P Q : α → Prop} (h : Safe x P) (hf : ∀ a, P a → Q a) : Safe x Q := by
  cases x with
  | ok a => exact hf a h
  | error e => exact h

theorem safe_error {α : Type} {e} {P : α → Prop} (h : e ≠ .panic) : Safe (.error e : Import α) P := h

theorem takeBytes_ascii {t : Text} (h : Ascii t) {n : ℕ} (hn : n ≤ t.length) : takeBytes n t = .ok (t.take n) := by
  have := takeBytes_append (s := t.take n) (fun c hc => h c (List.mem_of_mem_take hc)) (t.drop n)
  rwa [List.take_append_drop, List.length_take, min_eq_left hn] at this

theorem dropBytes_ascii {t : Text} (h : Ascii t) {n : ℕ} (hn : n ≤ t.length) : dropBytes n t = .ok (t.drop n) := by
  have := dropBytes_append (s := t.take n) (fun c hc => h c (List.mem_of_mem_take hc)) (t.drop n)
  rwa [List.take_append_drop, List.length_take, min_eq_left hn] at this

/-- A word that is not empty and in ASCII. -/
def GoodWord (word : Text) : Prop := word ≠ [] ∧ Ascii word

theorem words_good {t : Text} {words : List Text} (h : Words t words) (ht : Ascii t) : ∀ w ∈ words, GoodWord w := by
  induction h with
  | nil => simp
  | @cons blanks word rest words h1 h2 h3 h4 h5 ih =>
    rw [List.forall_mem_cons]
    exact ⟨⟨h2, fun c hc => ht c (by simp [hc])⟩, ih fun c hc => ht c (by simp [hc])⟩

theorem split_good {t : Text} (ht : Ascii t) : ∀ w ∈ splitWhitespace t, GoodWord w :=
  words_good (words_splitWhitespace t) ht

theorem parsePart_safe (t : Text) : Safe (Number.parsePart t) fun _ => True := by
  unfold Number.parsePart
  split
  · trivial
  · split
    · trivial
    · exact safe_error (by simp)

theorem number_safe {t : Text} (h : GoodWord t) : Safe (Number.parse t) fun _ => True := by
  unfold Number.parse
  refine Safe.bind (P := fun _ => True) ?_ fun _ _ => trivial
  unfold Number.Raw.tryFrom
  match t, h with
  | first :: rest, h =>
    simp only
    rw [if_neg (by have := h.2 first (by simp); omega)]
    refine Safe.bind (P := fun _ => True) ?_ fun _ _ => trivial
    unfold Number.parseMagnitude
    split
    · exact (parsePart_safe _).bind fun _ _ => trivial
    · exact (parsePart_safe _).bind fun _ _ => (parsePart_safe _).bind fun _ _ => trivial

/-- Lines that the parser for the free format does not abort on. -/
def GoodLine (line : Text) : Prop := Ascii line ∧ ∀ words, splitWhitespace line ≠ "SC".toList :: words

theorem fiveAndSix_safe {rest : List Text} (h : ∀ w ∈ rest, GoodWord w) :
    Safe (free.fiveAndSix rest) fun r => ∀ q, r = some q → GoodWord q.2 := by
  match rest with
  | [] => rintro q ⟨⟩
  | [five, six] => rintro q ⟨⟩; exact h six (by simp)
  | [a] => exact safe_error (by simp)
  | a :: b :: c :: l => exact safe_error (by simp)

theorem tryParseNextSection_safe (line : Text) (acceptable : List Section) :
    Safe (tryParseNextSection line acceptable) fun _ => True := by
  unfold tryParseNextSection
  refine Safe.bind (P := fun _ => True) ?_ fun s _ => ?_
  · unfold Section.fromStr
    repeat' split
    all_goals first | trivial | exact safe_error (by simp)
  · split
    · exact safe_error (by simp)
    · trivial

theorem programName_safe {ls : List Text} (h : ∀ line ∈ ls, GoodLine line) :
    Safe (parseProgramName free ls) fun r => r.2 ⊆ ls := by
  unfold parseProgramName
  match ls with
  | [] => exact safe_error (by simp)
  | line :: ls =>
    simp only
    split
    · exact safe_error (by simp)
    · rename_i hl
      have ha := (h line (by simp)).1
      rw [byteLength_ascii ha] at hl
      rw [takeBytes_ascii ha (by omega), dropBytes_ascii ha (by omega)]
      simp only [ok_bind]
      split
      · refine Safe.bind (P := fun _ => True) ?_ fun _ _ => List.subset_cons_self _ _
        unfold free
        simp only
        split
        · trivial
        · exact safe_error (by simp)
      · exact safe_error (by simp)

theorem objsense_safe (ls : List Text) : Safe (parseObjsenseSection ls) fun r => r.2 ⊆ ls := by
  unfold parseObjsenseSection
  split
  · exact safe_error (by simp)
  · split
    · exact List.subset_cons_self _ _
    · split
      · split
        · repeat' split
          all_goals first
            | exact safe_error (by simp)
            | exact fun x hx => List.mem_cons_of_mem _ (List.mem_cons_of_mem _ (List.mem_cons_of_mem _ hx))
        · exact safe_error (by simp)
      · exact safe_error (by simp)

theorem rowType_safe {word : Text} (h : GoodWord word) : Safe (rowTypeFromStr word) fun _ => True := by
  unfold rowTypeFromStr slice
  match word, h with
  | c :: word, h =>
    rw [dropBytes_ascii h.2 (by simp)]
    rw [ok_bind, List.drop_zero, takeBytes_ascii h.2 (by simp)]
    simp only [ok_bind]
    repeat' split
    all_goals first | trivial | exact safe_error (by simp)

theorem rowSection_safe (ls : List Text) : ∀ cost rows, (∀ line ∈ ls, GoodLine line) →
    Safe (parseRowSection free ls cost rows) fun r => r.2.2 ⊆ ls := by
  induction ls with
  | nil => exact fun _ _ _ => safe_error (by simp)
  | cons line ls ih =>
    intro cost rows h
    obtain ⟨h1, h2⟩ := List.forall_mem_cons.1 h
    unfold parseRowSection
    split
    · refine Safe.bind (P := fun q => GoodWord q.1) ?_ fun q hq => ?_
      · have hw := split_good h1.1
        unfold free
        simp only
        split
        · rename_i e
          rw [e] at hw
          exact hw _ (by simp)
        · exact safe_error (by simp)
      · refine (rowType_safe hq).bind fun t _ => ?_
        cases t with
        | none =>
          simp only
          split
          · exact safe_error (by simp)
          · exact (ih _ _ h2).mono fun r hr => List.subset_cons_of_subset _ hr
        | some t => exact (ih _ _ h2).mono fun r hr => List.subset_cons_of_subset _ hr
    · exact (tryParseNextSection_safe _ _).bind fun _ _ => List.subset_cons_self _ _

theorem checkRows_safe (cost : Option Text) (rows : List Row) :
    Safe (checkRowSectionConsistency cost rows) fun _ => True := by
  unfold checkRowSectionConsistency
  cases cost with
  | none => exact safe_error (by simp)
  | some cost =>
    simp only
    repeat' split
    all_goals first | trivial | exact safe_error (by simp)

theorem sorted_safe {α : Type} (l : List (ℕ × α)) : Safe (sortedUnlessDuplicate l) fun _ => True := by
  unfold sortedUnlessDuplicate
  split
  · exact safe_error (by simp)
  · trivial

theorem saveColumn_safe (new : Option Text) (s : ColumnState) : Safe (saveToColumnCollector new s) fun _ => True := by
  unfold saveToColumnCollector
  split
  · exact (sorted_safe _).bind fun _ _ => trivial
  · trivial

theorem saveColumnPair_safe (cost : Text) (rows : List Row) (s : ColumnState) (row : Text) {value : Text}
    (h : GoodWord value) : Safe (saveColumnPair cost rows s row value) fun _ => True := by
  unfold saveColumnPair
  refine (number_safe h).bind fun _ _ => ?_
  split
  · split
    · trivial
    · exact safe_error (by simp)
  · trivial

theorem columnData_safe (cost : Text) (rows : List Row) (s : ColumnState) (column row : Text) {value : Text}
    (h : GoodWord value) {rest : List Text} (hr : ∀ w ∈ rest, GoodWord w) :
    Safe (parseColumnData free cost rows s column row value rest) fun _ => True := by
  have key : ∀ s, Safe (do
      let s ← saveColumnPair cost rows s row value
      match ← free.fiveAndSix rest with
      | some (rowName, valueText) => saveColumnPair cost rows s rowName valueText
      | none => pure s) fun _ => True := by
    intro s
    refine (saveColumnPair_safe _ _ _ _ h).bind fun s _ => ?_
    refine (fiveAndSix_safe hr).bind fun r hr => ?_
    match r, hr with
    | none, _ => trivial
    | some (row, value), hr => exact saveColumnPair_safe _ _ _ _ (hr _ rfl)
  unfold parseColumnData
  simp only
  split
  · split
    · exact (saveColumn_safe _ _).bind fun s _ => key s
    · exact key _
  · exact key _

/-- What is known about a line in the section of columns. -/
def GoodContent (c : ColumnLineContent (List Text)) : Prop :=
  match c with
  | .marker _ => True
  | .data _ _ value rest => GoodWord value ∧ ∀ w ∈ rest, GoodWord w

theorem columnLine_safe (cost : Text) (rows : List Row) (s : ColumnState) {line : Text} (h : GoodLine line) :
    Safe (parseColumnLine free cost rows s line) fun _ => True := by
  unfold parseColumnLine
  refine Safe.bind (P := GoodContent) ?_ fun c hc => ?_
  · have hw := split_good h.1
    unfold free
    simp only
    split
    · rename_i two three four parts e
      rw [e] at hw
      show Safe (Except.ok _) _
      split
      · trivial
      · exact ⟨hw _ (by simp), fun w hw' => hw w (by simp [hw'])⟩
    · exact safe_error (by simp)
  · cases c with
    | marker text =>
      refine (saveColumn_safe _ _).bind fun s _ => ?_
      repeat' split
      all_goals first | trivial | exact safe_error (by simp)
    | data column row value rest => exact columnData_safe cost rows s column row hc.1 hc.2

theorem columnSection_safe (cost : Text) (rows : List Row) (ls : List Text) : ∀ s, (∀ line ∈ ls, GoodLine line) →
    Safe (parseColumnSection free cost rows ls s) fun r => r.2.2.2 ⊆ ls := by
  induction ls with
  | nil => exact fun _ _ => safe_error (by simp)
  | cons line ls ih =>
    intro s h
    obtain ⟨h1, h2⟩ := List.forall_mem_cons.1 h
    unfold parseColumnSection
    split
    · exact (columnLine_safe cost rows s h1).bind fun s _ =>
        (ih s h2).mono fun r hr => List.subset_cons_of_subset _ hr
    · exact (tryParseNextSection_safe _ _).bind fun _ _ => (saveColumn_safe _ _).bind fun _ _ =>
        List.subset_cons_self _ _

theorem saveGroup_safe {α : Type} (d : Bool) (new : Option Text) (s : GroupState α) :
    Safe (saveToGroupCollector d new s) fun _ => True := by
  unfold saveToGroupCollector
  split
  · split
    · trivial
    · exact (sorted_safe _).bind fun _ _ => trivial
  · trivial

theorem startGroup_safe {α : Type} (d : Bool) (name : Text) (s : GroupState α) :
    Safe (startGroup d name s) fun _ => True := by
  unfold startGroup
  repeat' split
  all_goals first | trivial | exact saveGroup_safe _ _ _

theorem saveGroupPair_safe (rows : List Row) (s : GroupState ℚ) (row : Text) {value : Text}
    (h : GoodWord value) : Safe (saveGroupPair rows s row value) fun _ => True := by
  have hn := number_safe h
  unfold saveGroupPair
  split
  · rename_i e
    rw [e] at hn
    exact absurd rfl hn
  · exact safe_error (by simp)
  · rename_i e _ e'
    rw [e'] at hn
    exact hn
  · trivial

theorem valueLine_safe (rows : List Row) (s : GroupState ℚ) {line : Text} (h : GoodLine line) :
    Safe (parseValueLine free rows s line) fun _ => True := by
  unfold parseValueLine
  refine Safe.bind (P := fun q => GoodWord q.1.2.2 ∧ ∀ w ∈ (q.2 : List Text), GoodWord w) ?_ fun q hq => ?_
  · have hw := split_good h.1
    unfold free
    simp only
    split
    · rename_i two three four parts e
      rw [e] at hw
      exact ⟨hw _ (by simp), fun w hw' => hw w (by simp [hw'])⟩
    · exact safe_error (by simp)
  · obtain ⟨⟨group, row, value⟩, rest⟩ := q
    refine (startGroup_safe _ _ _).bind fun s _ => (saveGroupPair_safe rows s row hq.1).bind fun s _ => ?_
    refine (fiveAndSix_safe hq.2).bind fun r hr => ?_
    match r, hr with
    | none, _ => trivial
    | some (row, value), hr => exact saveGroupPair_safe _ _ _ (hr _ rfl)

theorem optionalSection_safe (valid : List Section) (rows : List Row) (ls : List Text) : ∀ s,
    (∀ line ∈ ls, GoodLine line) → Safe (parseOptionalSection free valid rows ls s) fun r => r.2.2 ⊆ ls := by
  induction ls with
  | nil => exact fun _ _ => safe_error (by simp)
  | cons line ls ih =>
    intro s h
    obtain ⟨h1, h2⟩ := List.forall_mem_cons.1 h
    unfold parseOptionalSection
    split
    · exact (valueLine_safe rows s h1).bind fun s _ =>
        (ih s h2).mono fun r hr => List.subset_cons_of_subset _ hr
    · exact (tryParseNextSection_safe _ _).bind fun _ _ => (saveGroup_safe _ _ _).bind fun _ _ =>
        List.subset_cons_self _ _

theorem boundType_safe {text : Text} (ht : text ≠ "SC".toList) {rest : List Text} (hr : ∀ w ∈ rest, GoodWord w) :
    Safe (parseBoundType free text rest) fun _ => True := by
  have hv : ∀ f : ℚ → BoundType, Safe (do
      let valueText ← free.four rest
      let value ← Number.parse valueText
      pure (f value) : Import BoundType) fun _ => True := by
    intro f
    refine Safe.bind (P := GoodWord) ?_ fun w hw => (number_safe hw).bind fun _ _ => trivial
    match rest, hr with
    | [], _ => exact safe_error (by simp)
    | value :: _, hr => exact hr value (by simp)
  unfold parseBoundType
  simp only
  repeat' split
  all_goals first
    | trivial
    | exact hv _
    | exact absurd ‹_› ht
    | exact safe_error (by simp)

theorem boundLine_safe (columns : List Column) (s : GroupState BoundType) {line : Text} (h : GoodLine line) :
    Safe (parseBoundLine free columns s line) fun _ => True := by
  unfold parseBoundLine
  refine Safe.bind (P := fun q => q.1.1 ≠ "SC".toList ∧ ∀ w ∈ (q.2 : List Text), GoodWord w) ?_ fun q hq => ?_
  · have hw := split_good h.1
    have hs := h.2
    unfold free
    simp only
    split
    · rename_i one two three parts e
      rw [e] at hw hs
      refine ⟨?_, fun w hw' => hw w (by simp [hw'])⟩
      rintro rfl
      exact hs _ rfl
    · exact safe_error (by simp)
  · obtain ⟨⟨type, group, column⟩, rest⟩ := q
    simp only
    split
    · exact safe_error (by simp)
    · exact (startGroup_safe _ _ _).bind fun s _ => (boundType_safe hq.1 hq.2).bind fun _ _ => trivial

theorem boundsSection_safe (columns : List Column) (ls : List Text) : ∀ s,
    (∀ line ∈ ls, GoodLine line) → Safe (parseBoundsSection free columns ls s) fun r => r.2 ⊆ ls := by
  induction ls with
  | nil => exact fun _ _ => safe_error (by simp)
  | cons line ls ih =>
    intro s h
    obtain ⟨h1, h2⟩ := List.forall_mem_cons.1 h
    unfold parseBoundsSection
    split
    · exact (boundLine_safe columns s h1).bind fun s _ =>
        (ih s h2).mono fun r hr => List.subset_cons_of_subset _ hr
    · exact (tryParseNextSection_safe _ _).bind fun _ _ => (saveGroup_safe _ _ _).bind fun _ _ =>
        List.subset_cons_self _ _

theorem optionalSections_safe (rows : List Row) (columns : List Column) (next : Section) (ls : List Text)
    (h : ∀ line ∈ ls, GoodLine line) : Safe (parseOptionalSections free rows columns next ls) fun _ => True := by
  rw [parseOptionalSections_eq]
  refine Safe.bind (P := fun r => r.2.2 ⊆ ls) ?_ fun r1 hr1 => ?_
  · split
    · exact optionalSection_safe _ _ _ _ h
    · exact List.Subset.refl _
  refine Safe.bind (P := fun r => r.2.2 ⊆ ls) ?_ fun r2 hr2 => ?_
  · split
    · exact (optionalSection_safe _ _ _ _ fun l hl => h l (hr1 hl)).mono fun r hr => List.Subset.trans hr hr1
    · exact hr1
  refine Safe.bind (P := fun _ => True) ?_ fun _ _ => ?_
  · unfold checkRangesConsistency
    split
    · trivial
    · exact safe_error (by simp)
  refine Safe.bind (P := fun _ => True) ?_ fun _ _ => trivial
  split
  · exact (boundsSection_safe _ _ _ fun l hl => h l (hr2 hl)).mono fun _ _ => trivial
  · trivial

theorem parseLines_safe (ls : List Text) (h : ∀ line ∈ ls, GoodLine line) :
    Safe (parseLines free ls) fun _ => True := by
  unfold parseLines
  refine (programName_safe h).bind fun r1 h1 => ?_
  refine (objsense_safe _).bind fun r2 h2 => ?_
  have h2 := List.Subset.trans h2 h1
  refine (rowSection_safe _ _ _ fun l hl => h l (h2 hl)).bind fun r3 h3 => ?_
  have h3 := List.Subset.trans h3 h2
  refine (checkRows_safe _ _).bind fun r4 _ => ?_
  refine (columnSection_safe _ _ _ _ fun l hl => h l (h3 hl)).bind fun r5 h5 => ?_
  have h5 := List.Subset.trans h5 h3
  refine (optionalSections_safe _ _ _ _ fun l hl => h l (h5 hl)).bind fun r6 _ => ?_
  obtain ⟨a, b, c, d⟩ := r6
  simp only
  split
  · trivial
  · exact safe_error (by simp)

end Relp.Mps
