import Verif.Proof.MpsDebugConvert
import Verif.Proof.MpsEnd

/-!
# Reading a file that is written properly in a debug build
-/

namespace Relp

open Spec

namespace Number

/-! ### Numbers -/

theorem char_injective : Function.Injective Digit.char := by
  intro a b h
  have := congrArg digit? h
  rw [digit?_char, digit?_char] at this
  exact Fin.ext (Option.some.inj this)

theorem parsePart_ok {digits : List Digit} {k : ℕ} (h : parsePart (digits.map Digit.char) = .ok k) :
    k = digitsValue digits ∧ digitsValue digits < u64 := by
  rw [parsePart_iff] at h
  generalize ht : digits.map Digit.char = text at h
  cases h with
  | empty =>
    rw [List.map_eq_nil_iff.1 ht]
    exact ⟨rfl, by decide⟩
  | digits d _ h =>
    rw [List.map_injective_iff.2 char_injective ht]
    exact ⟨rfl, h⟩
  | plus d _ h =>
    cases digits with
    | nil => cases ht
    | cons c digits =>
      injection ht with h1 _
      exact absurd h1 (char_ne c _ rfl)

theorem parseMagnitudeDebug_body {n : Numeral} (hf : n.Fits) :
    parseMagnitudeDebug (body n) = .ok (digitsValue (n.whole ++ n.decimals.getD []), n.places) := by
  obtain ⟨h1, h2⟩ := hf
  change _ < u64 at h1
  change _ < u64 at h2
  unfold parseMagnitudeDebug
  match hd : n.decimals with
  | none =>
    rw [hd] at h1
    simp only [List.append_nil, Option.getD_none] at h1 ⊢
    rw [body, hd]
    simp only [List.append_nil]
    rw [splitAtPoint_none]
    dsimp only
    rw [parsePart_map _ h1, Numeral.places, hd]
    rfl
  | some decimals =>
    rw [hd] at h1
    simp only [Option.getD_some] at h1 ⊢
    rw [digitsValue_append] at h1 ⊢
    rw [body, hd]
    simp only
    rw [splitAtPoint_some]
    dsimp only
    rw [Numeral.places, hd] at h2 ⊢
    simp only [Option.getD_some] at h2 ⊢
    have h3 : digitsValue n.whole < u64 := by
      refine lt_of_le_of_lt ?_ h1
      have : 1 ≤ 10 ^ decimals.length := Nat.one_le_pow _ _ (by norm_num)
      nlinarith
    rw [parsePart_map _ h3, parsePart_map _ (by omega), Mps.ok_bind, Mps.ok_bind, List.length_map,
      importAssert_bind (decide_eq_true h2), importAssert_bind (decide_eq_true (by omega)),
      importAssert_bind (decide_eq_true h1)]
    rfl

theorem parseMagnitudeDebug_fits {n : Numeral} {r} (h : parseMagnitudeDebug (body n) = .ok r) : n.Fits := by
  unfold parseMagnitudeDebug at h
  match hd : n.decimals with
  | none =>
    rw [body, hd] at h
    simp only [List.append_nil] at h
    rw [splitAtPoint_none] at h
    obtain ⟨k, h1, -⟩ := Mps.bind_eq_ok h
    unfold Numeral.Fits Numeral.places
    rw [hd]
    simp only [Option.getD_none, List.append_nil]
    exact ⟨(parsePart_ok h1).2, by norm_num⟩
  | some decimals =>
    rw [body, hd] at h
    simp only at h
    rw [splitAtPoint_some] at h
    obtain ⟨k, h1, h⟩ := Mps.bind_eq_ok h
    obtain ⟨l, h2, h⟩ := Mps.bind_eq_ok h
    obtain ⟨_, h3, h⟩ := Mps.bind_eq_ok h
    obtain ⟨_, -, h⟩ := Mps.bind_eq_ok h
    obtain ⟨_, h4, -⟩ := Mps.bind_eq_ok h
    have h3 := of_decide_eq_true (importAssert_ok h3)
    have h4 := of_decide_eq_true (importAssert_ok h4)
    rw [List.length_map] at h3 h4
    rw [(parsePart_ok h1).1, (parsePart_ok h2).1] at h4
    unfold Numeral.Fits Numeral.places
    rw [hd]
    simp only [Option.getD_some]
    rw [digitsValue_append]
    exact ⟨h4, h3⟩

theorem text_ne {n : Numeral} (hp : n.Proper) : n.text ≠ [] := by
  intro h
  rw [Numeral.text, List.append_eq_nil_iff, List.append_eq_nil_iff, List.map_eq_nil_iff] at h
  rcases hp with h1 | h1
  · exact h1 h.1.2
  · cases hd : n.decimals with
    | none => rw [hd] at h1; exact h1 rfl
    | some l => rw [hd] at h; cases h.2

/-- A numeral is read exactly if it fits. -/
theorem parseDebug_text {n : Numeral} (hp : n.Proper) (v : ℚ) :
    parseDebug n.text = .ok v ↔ n.Fits ∧ v = n.value := by
  match hn : n.text, text_ne hp with
  | first :: tail, _ =>
    obtain ⟨f1, f2, f3⟩ := text_first n hn
    have ht : Raw.tryFromDebug (first :: tail) = (parseMagnitudeDebug (body n) >>= fun q =>
        pure ⟨if q.1 = 0 then Sign.zero else if n.negative then .negative else .positive, q.1, q.2⟩) := by
      unfold Raw.tryFromDebug
      simp only
      rw [if_neg (by omega), f2]
      simp only [f3]
    constructor
    · intro h
      have hf : n.Fits := by
        unfold parseDebug at h
        rw [ht] at h
        obtain ⟨raw, h1, -⟩ := Mps.bind_eq_ok h
        obtain ⟨q, h2, -⟩ := Mps.bind_eq_ok h1
        exact parseMagnitudeDebug_fits h2
      refine ⟨hf, ?_⟩
      have := (parse_below _).elim h
      rw [← hn, C37_decimal n hp hf] at this
      exact (Except.ok.inj this).symm
    · rintro ⟨hf, rfl⟩
      rcases parse_below (first :: tail) with h | h
      · exfalso
        unfold parseDebug at h
        rw [ht, parseMagnitudeDebug_body hf] at h
        change Raw.toRationalDebug _ = _ at h
        unfold Raw.toRationalDebug at h
        have hz : ∀ k : ℕ, (if k = 0 then Sign.zero else if n.negative then .negative else .positive) ≠ Sign.zero ∨
            k = 0 := by
          intro k
          by_cases hk : k = 0
          · exact Or.inr hk
          · rw [if_neg hk]
            left
            split <;> simp
        rw [importAssert_bind (decide_eq_true (hz _)), importAssert_bind (decide_eq_true (by exact hf.2))] at h
        cases h
      · rw [h, ← hn, C37_decimal n hp hf]

end Number

namespace Mps

theorem good_parse {n : Numeral} (h : GoodNumber n) : Number.parseDebug n.text = Number.parse n.text := by
  rw [C37_decimal n h.1 h.2]
  exact (Number.parseDebug_text h.1 _).2 ⟨h.2, rfl⟩

theorem sameSectionDebug_eq {line : Text} (h : line ≠ []) {α : Type} (f : Bool → Import α) :
    (isPartOfSameSectionDebug line >>= f) = f (isPartOfSameSection line) := by
  unfold isPartOfSameSectionDebug
  rw [bind_assoc, importAssert_bind (by cases line <;> simp_all)]
  rfl

theorem ne_nil_of_space {line : Text} (h : line.head? = some ' ') : line ≠ [] := by
  rintro rfl
  cases h

/-! ### Rows -/

section

variable {CR : Retriever} {L : Layout}

theorem parseRowSectionDebug_eq (lines : List Text) (h : ∀ line ∈ lines, line ≠ []) : ∀ cost rows,
    parseRowSectionDebug CR lines cost rows = parseRowSection CR lines cost rows := by
  induction lines with
  | nil => intro cost rows; rfl
  | cons line lines ih =>
    intro cost rows
    have ih := ih fun l hl => h l (List.mem_cons_of_mem _ hl)
    unfold parseRowSectionDebug parseRowSection
    rw [sameSectionDebug_eq (h line (by simp))]
    split
    · refine bind_congr_ok fun q _ => ?_
      simp only
      refine bind_congr_ok fun r _ => ?_
      cases r with
      | none =>
        simp only
        split
        · rfl
        · exact ih _ _
      | some relation => exact ih _ _
    · rfl

/-! ### Columns -/

variable {cost : Text} {rows : List Row}

/-- An item of the section of columns, with the check on markers. -/
def runItemDebug (cost : Text) (rows : List Row) (s : ColumnState) (item : ColumnItem) : Import ColumnState :=
  match item with
  | .marker integer => do
    let s ← saveToColumnCollector none s
    importAssert (s.activeVariableType ≠ if integer then .integer else .continuous)
    .ok { s with activeVariableType := if integer then .integer else .continuous }
  | .column _ => runItem cost rows s item

theorem saveColumnPairDebug_eq {e : Entry} (h : GoodNumber e.number) (s : ColumnState) :
    saveColumnPairDebug cost rows s e.row e.number.text = saveColumnPair cost rows s e.row e.number.text := by
  unfold saveColumnPairDebug saveColumnPair
  rw [good_parse h]
  rfl

theorem parseColumnLineDebug_entries (R : Reads CR L) {name line : Text} {l : EntryLine}
    (w : l.Written L name line) (hg : ∀ e ∈ l.entries, GoodNumber e.number)
    (hm : ∀ e ∈ l.entries, e.row ≠ "'MARKER'".toList) (s : ColumnState) :
    parseColumnLineDebug CR cost rows s line = parseColumnLine CR cost rows s line := by
  obtain ⟨rest, h1, h2⟩ := R.column w (hm l.first (by simp [EntryLine.entries]))
  unfold parseColumnLineDebug parseColumnLine
  rw [h1, ok_bind, ok_bind]
  simp only
  unfold parseColumnDataDebug parseColumnData
  have hbody : ∀ s : ColumnState, (saveColumnPairDebug cost rows s l.first.row l.first.number.text >>= fun s =>
      CR.fiveAndSix rest >>= fun second =>
        match second with
        | some (rowName, valueText) => saveColumnPairDebug cost rows s rowName valueText
        | none => pure s) = (saveColumnPair cost rows s l.first.row l.first.number.text >>= fun s =>
      CR.fiveAndSix rest >>= fun second =>
        match second with
        | some (rowName, valueText) => saveColumnPair cost rows s rowName valueText
        | none => pure s) := by
    intro s
    rw [saveColumnPairDebug_eq (hg _ (by simp [EntryLine.entries]))]
    refine bind_congr_ok fun s _ => ?_
    rw [h2, ok_bind, ok_bind]
    cases h : l.second with
    | none => rfl
    | some e => exact saveColumnPairDebug_eq (hg e (by simp [EntryLine.entries, h])) s
  cases hs : s.columnToBeSaved with
  | none => exact hbody _
  | some active =>
    simp only
    split <;> exact bind_congr_ok fun s _ => hbody s

theorem fold_congr {σ : Type} {f g : σ → Text → Import σ} {lines : List Text}
    (h : ∀ line ∈ lines, ∀ s, f s line = g s line) : ∀ s, lines.foldlM f s = lines.foldlM g s := by
  induction lines with
  | nil => intro s; rfl
  | cons line lines ih =>
    intro s
    rw [foldlM_cons', foldlM_cons', h line (by simp)]
    exact bind_congr_ok fun t _ => ih (fun l hl => h l (List.mem_cons_of_mem _ hl)) t

theorem forall₂_mem_right {α β : Type} {R : α → β → Prop} {l : List α} {m : List β} (h : List.Forall₂ R l m) {b : β}
    (hb : b ∈ m) : ∃ a ∈ l, R a b := by
  obtain ⟨a, ha, h⟩ := forall₂_mem_left h.flip hb
  exact ⟨a, ha, h⟩

theorem itemDebug_eq (R : Reads CR L) {item : ColumnItem} {lines : List Text} (w : item.Written L lines)
    (hg : GoodItem item) (s : ColumnState) (hs : ∀ b, item = .column b → s.columnToBeSaved ≠ some b.name) :
    lines.foldlM (parseColumnLineDebug CR cost rows) s = runItemDebug cost rows s item := by
  cases item with
  | column b =>
    obtain ⟨h1, h2, h3⟩ := hg b rfl
    rw [fold_congr (g := parseColumnLine CR cost rows)]
    · exact columnBlock_eq R w h1 h2 h3 s (hs b rfl)
    · intro line hl s
      obtain ⟨l, hm, hw⟩ := forall₂_mem_right w hl
      exact parseColumnLineDebug_entries R hw (fun e he => h2 e (List.mem_flatMap.2 ⟨l, hm, he⟩))
        (fun e he => h3 e (List.mem_flatMap.2 ⟨l, hm, he⟩)) s
  | marker integer =>
    obtain ⟨line, rfl, hw⟩ := w
    have h := R.marker (by cases integer <;> rfl) hw
    rw [foldlM_cons']
    unfold parseColumnLineDebug runItemDebug
    rw [h, ok_bind]
    simp only
    rw [bind_assoc]
    refine bind_congr_ok fun t _ => ?_
    unfold parseMarkerDebug
    cases integer with
    | true =>
      simp only [if_true]
      rw [bind_assoc]
      rfl
    | false =>
      rw [if_neg (by decide)]
      simp only [Bool.false_eq_true, if_false, if_true]
      rw [bind_assoc]
      rfl

theorem runItemDebug_elim {s t : ColumnState} {item : ColumnItem} (h : runItemDebug cost rows s item = .ok t) :
    runItem cost rows s item = .ok t := by
  cases item with
  | column b => exact h
  | marker integer =>
    unfold runItemDebug at h
    obtain ⟨u, h1, h⟩ := bind_eq_ok h
    obtain ⟨_, -, h⟩ := bind_eq_ok h
    unfold runItem
    rw [h1]
    exact h

theorem itemsDebug_eq (R : Reads CR L) {items : List ColumnItem} {parts : List (List Text)}
    (w : List.Forall₂ (ColumnItem.Written L) items parts) (hg : ∀ item ∈ items, GoodItem item)
    (hc : items.IsChain fun a b => ∀ c d, a = .column c → b = .column d → c.name ≠ d.name) :
    ∀ s : ColumnState, (∀ item ∈ items.head?, ∀ b, item = .column b → s.columnToBeSaved ≠ some b.name) →
    parts.flatten.foldlM (parseColumnLineDebug CR cost rows) s = items.foldlM (runItemDebug cost rows) s := by
  induction w with
  | nil => intro s _; rfl
  | @cons item part items parts hw _ ih =>
    intro s hs
    rw [List.flatten_cons, List.foldlM_append, foldlM_cons',
      itemDebug_eq R hw (hg item (by simp)) s (hs item rfl)]
    refine bind_congr_ok fun t ht => ?_
    refine ih (fun i hi => hg i (List.mem_cons_of_mem _ hi)) (List.isChain_cons.1 hc).2 t ?_
    intro next hnext b hb
    rw [runItem_saved (runItemDebug_elim ht)]
    have := (List.isChain_cons.1 hc).1 next hnext
    cases item with
    | marker _ => simp [openColumn]
    | column c =>
      show some c.name ≠ _
      intro e
      exact this c b rfl hb (Option.some.inj e)

theorem parseColumnSectionDebug_eq {ls : List Text} {header : Text} {rest : List Text} {sec : Section}
    (h1 : ∀ line ∈ ls, line.head? = some ' ') (h0 : header ≠ []) (h2 : header.head? ≠ some ' ')
    (h3 : tryParseNextSection header [.rhs, .ranges, .bounds] = .ok sec) :
    ∀ s : ColumnState, parseColumnSectionDebug CR cost rows (ls ++ header :: rest) s =
      ls.foldlM (parseColumnLineDebug CR cost rows) s >>= fun s => saveToColumnCollector none s >>= fun s =>
        importAssert (decide (s.costValuesCollector.Pairwise fun a b => a.1 ≤ b.1)) >>= fun _ =>
        .ok (s.collector, s.costValuesCollector, sec, rest) := by
  induction ls with
  | nil =>
    intro s
    rw [List.nil_append, parseColumnSectionDebug, sameSectionDebug_eq h0,
      if_neg (by unfold isPartOfSameSection; simpa using h2), h3]
    rfl
  | cons line ls ih =>
    intro s
    rw [List.cons_append, parseColumnSectionDebug, sameSectionDebug_eq (ne_nil_of_space (h1 line (by simp))),
      if_pos (by unfold isPartOfSameSection; simpa using h1 line (by simp)), foldlM_cons', bind_assoc]
    exact bind_congr_ok fun t _ => ih (fun l hl => h1 l (List.mem_cons_of_mem _ hl)) t

/-! ### Right-hand sides and ranges -/

theorem saveGroupPairDebug_eq {e : Entry} (h : GoodNumber e.number) (s : GroupState ℚ) :
    saveGroupPairDebug rows s e.row e.number.text = saveGroupPair rows s e.row e.number.text := by
  unfold saveGroupPairDebug saveGroupPair
  rw [good_parse h]
  rfl

theorem parseValueLineDebug_eq (R : Reads CR L) {name line : Text} {l : EntryLine}
    (w : l.Written L name line) (hg : ∀ e ∈ l.entries, GoodNumber e.number) (s : GroupState ℚ) :
    parseValueLineDebug CR rows s line = parseValueLine CR rows s line := by
  obtain ⟨rest, h1, h2⟩ := R.entries w
  unfold parseValueLineDebug parseValueLine
  rw [h1, ok_bind, ok_bind]
  simp only
  refine bind_congr_ok fun s _ => ?_
  rw [saveGroupPairDebug_eq (hg _ (by simp [EntryLine.entries]))]
  refine bind_congr_ok fun s _ => ?_
  rw [h2, ok_bind, ok_bind]
  cases h : l.second with
  | none => rfl
  | some e => exact saveGroupPairDebug_eq (hg e (by simp [EntryLine.entries, h])) s

theorem parseOptionalSectionDebug_eq {valid : List Section} {ls : List Text} {header : Text} {rest : List Text}
    {sec : Section} (h1 : ∀ line ∈ ls, line.head? = some ' ') (h0 : header ≠ []) (h2 : header.head? ≠ some ' ')
    (h3 : tryParseNextSection header valid = .ok sec)
    (h4 : ∀ line ∈ ls, ∀ s, parseValueLineDebug CR rows s line = parseValueLine CR rows s line) :
    ∀ s : GroupState ℚ, parseOptionalSectionDebug CR valid rows (ls ++ header :: rest) s =
      parseOptionalSection CR valid rows (ls ++ header :: rest) s := by
  induction ls with
  | nil =>
    intro s
    rw [List.nil_append, parseOptionalSectionDebug, parseOptionalSection, sameSectionDebug_eq h0,
      if_neg (by unfold isPartOfSameSection; simpa using h2), if_neg (by unfold isPartOfSameSection; simpa using h2)]
  | cons line ls ih =>
    intro s
    rw [List.cons_append, parseOptionalSectionDebug, parseOptionalSection,
      sameSectionDebug_eq (ne_nil_of_space (h1 line (by simp))), h4 line (by simp),
      if_pos (by unfold isPartOfSameSection; simpa using h1 line (by simp)),
      if_pos (by unfold isPartOfSameSection; simpa using h1 line (by simp))]
    exact bind_congr_ok fun t _ => ih (fun l hl => h1 l (List.mem_cons_of_mem _ hl))
      (fun l hl => h4 l (List.mem_cons_of_mem _ hl)) t

/-! ### Bounds -/

variable {columns : List Column}

theorem parseBoundLineDebug_eq (R : Reads CR L) {name line : Text} {l : BoundLine}
    (w : l.Written L name line) (hg : ∀ n ∈ l.bound.number, GoodNumber n) (s : GroupState BoundType) :
    parseBoundLineDebug CR columns s line = parseBoundLine CR columns s line := by
  obtain ⟨rest, h1, h2⟩ := R.bound (by cases l.bound <;> rfl) w
  have : parseBoundTypeDebug CR l.bound.code rest = parseBoundType CR l.bound.code rest := by
    cases hb : l.bound
    case fr => rfl
    case mi => rfl
    case pl => rfl
    case bv => rfl
    all_goals
      rename_i n
      rw [hb] at h2 hg
      have h3 := h2 n.text rfl
      have h4 := good_parse (hg n rfl)
      show (CR.four rest >>= fun valueText => Number.parseDebug valueText >>= fun value => pure _) =
        (CR.four rest >>= fun valueText => Number.parse valueText >>= fun value => pure _)
      rw [h3, ok_bind, ok_bind, h4]
  unfold parseBoundLineDebug parseBoundLine
  rw [h1, ok_bind, ok_bind]
  simp only
  rw [this]
  rfl

theorem parseBoundsSectionDebug_eq {ls : List Text} {header : Text} {rest : List Text} {sec : Section}
    (h1 : ∀ line ∈ ls, line.head? = some ' ') (h0 : header ≠ []) (h2 : header.head? ≠ some ' ')
    (h3 : tryParseNextSection header [] = .ok sec)
    (h4 : ∀ line ∈ ls, ∀ s, parseBoundLineDebug CR columns s line = parseBoundLine CR columns s line) :
    ∀ s : GroupState BoundType, parseBoundsSectionDebug CR columns (ls ++ header :: rest) s =
      parseBoundsSection CR columns (ls ++ header :: rest) s := by
  induction ls with
  | nil =>
    intro s
    rw [List.nil_append, parseBoundsSectionDebug, parseBoundsSection, sameSectionDebug_eq h0,
      if_neg (by unfold isPartOfSameSection; simpa using h2), if_neg (by unfold isPartOfSameSection; simpa using h2)]
  | cons line ls ih =>
    intro s
    rw [List.cons_append, parseBoundsSectionDebug, parseBoundsSection,
      sameSectionDebug_eq (ne_nil_of_space (h1 line (by simp))), h4 line (by simp),
      if_pos (by unfold isPartOfSameSection; simpa using h1 line (by simp)),
      if_pos (by unfold isPartOfSameSection; simpa using h1 line (by simp))]
    exact bind_congr_ok fun t _ => ih (fun l hl => h1 l (List.mem_cons_of_mem _ hl))
      (fun l hl => h4 l (List.mem_cons_of_mem _ hl)) t

/-! ### The file -/

/-- The contents of a file in order, with the checks. -/
def runFileDebug (F : File) : Import Mps := do
  let (cost, rows) ← runRows F.rows none []
  let (cost, rows) ← checkRowSectionConsistency cost rows
  checkRowIndex cost rows
  let s ← F.columns.foldlM (runItemDebug cost rows) ⟨[], [], [], none, .continuous⟩
  let s ← saveToColumnCollector none s
  importAssert (decide (s.costValuesCollector.Pairwise fun a b => a.1 ≤ b.1))
  checkColumnIndex s.collector
  let rhss ← runGroups rows F.rhs
  let ranges ← runGroups rows F.ranges
  checkRangesConsistency ranges
  let bounds ← runBounds s.collector F.bounds
  .ok ⟨F.name, F.sense.getD .minimize, cost, s.costValuesCollector, rows, s.collector, rhss, ranges, bounds⟩

theorem header_ne {lines : List Text} {sec : Section} {rest : List Text} (h : Header lines sec rest) :
    ∃ header, lines = header :: rest ∧ header ≠ [] ∧ header.head? ≠ some ' ' ∧ Section.fromStr header = .ok sec := by
  obtain ⟨header, h1, h2, h3⟩ := h
  refine ⟨header, h1, ?_, h2, h3⟩
  rintro rfl
  cases h3

theorem boundsTailDebug (R : Reads CR L) {blocks : Option (List (Block BoundLine))} {lines : List Text}
    (w : SectionWritten "BOUNDS".toList (BoundLine.Written L) blocks lines) (hs : Separate (blocks.getD []))
    (hg : ∀ b ∈ blocks.getD [], ∀ l ∈ b.lines, ∀ n ∈ l.bound.number, GoodNumber n) :
    ∃ sec rest, Header (lines ++ ["ENDATA".toList]) sec rest ∧ (sec = .bounds ∨ sec = .endata) ∧
      ∀ columns, (if sec = .bounds then parseBoundsSectionDebug CR columns rest ⟨[], [], none⟩ else .ok ([], rest)) =
        runBounds columns blocks >>= fun b => .ok (b, []) := by
  cases blocks with
  | none =>
    rw [show lines = [] from w]
    exact ⟨.endata, [], header_endata, Or.inr rfl, fun _ => rfl⟩
  | some blocks =>
    obtain ⟨rest, rfl, parts, hp, rfl⟩ := w
    refine ⟨.bounds, parts.flatten ++ ["ENDATA".toList], ⟨_, rfl, by decide, rfl⟩, Or.inl rfl, fun columns => ?_⟩
    have hsp := allWritten_space (fun b ls h => forall₂_space (fun l line h => R.boundSpace h) h) hp
    rw [if_pos rfl, parseBoundsSectionDebug_eq hsp (by decide) (by decide) (sec := .endata) rfl, parseBoundsSection_eq
      hsp (by decide) (sec := .endata) rfl, boundBlocks_eq R hp hg hs _ (fun b _ => by simp)]
    · unfold runBounds
      simp only [bind_assoc]
      rfl
    · intro line hl s
      obtain ⟨part, h1, h2⟩ := List.mem_flatten.1 hl
      obtain ⟨b, hb, h3⟩ := forall₂_mem_right hp h1
      obtain ⟨l, hl, h4⟩ := forall₂_mem_right h3 h2
      exact parseBoundLineDebug_eq R h4 (hg b hb l hl) s

theorem groupTailDebug (R : Reads CR L) {hd : Text} {S : Section} (hd1 : hd.head? ≠ some ' ')
    (hd2 : Section.fromStr hd = .ok S) {valid : List Section} {T : List Text} {sec : Section} {rest : List Text}
    (hT : Header T sec rest) (hv : sec = .endata ∨ sec ∈ valid) (hne : sec ≠ S)
    {blocks : Option (List (Block EntryLine))} {lines : List Text}
    (w : SectionWritten hd (EntryLine.Written L) blocks lines) (hs : Separate (blocks.getD []))
    (hg : ∀ b ∈ blocks.getD [], ∀ e ∈ b.entries, GoodNumber e.number) :
    ∃ sec' rest', Header (lines ++ T) sec' rest' ∧ (sec' = S ∨ sec' = sec) ∧
      ∀ rows, (if sec' = S then parseOptionalSectionDebug CR valid rows rest' ⟨[], [], none⟩
          else .ok ([], sec', rest')) =
        runGroups rows blocks >>= fun g => .ok (g, sec, rest) := by
  cases blocks with
  | none =>
    rw [show lines = [] from w]
    refine ⟨sec, rest, hT, Or.inr rfl, fun _ => ?_⟩
    rw [if_neg hne]
    rfl
  | some blocks =>
    obtain ⟨ls, rfl, parts, hp, rfl⟩ := w
    refine ⟨S, parts.flatten ++ T, ⟨_, rfl, hd1, hd2⟩, Or.inl rfl, fun rows => ?_⟩
    obtain ⟨h, rfl, h0, hh, hf⟩ := header_ne hT
    have hsp := allWritten_space (fun b ls h => forall₂_space (fun l line h => R.entriesSpace h) h) hp
    rw [if_pos rfl, parseOptionalSectionDebug_eq hsp h0 hh (tryParse_eq hf hv), parseOptionalSection_eq hsp hh
      (tryParse_eq hf hv), valueBlocks_eq R hp hg hs _ (fun b _ => by simp)]
    · unfold runGroups
      simp only [bind_assoc]
      rfl
    · intro line hl s
      obtain ⟨part, h1, h2⟩ := List.mem_flatten.1 hl
      obtain ⟨b, hb, h3⟩ := forall₂_mem_right hp h1
      obtain ⟨l, hl, h4⟩ := forall₂_mem_right h3 h2
      exact parseValueLineDebug_eq R h4 (fun e he => hg b hb e (List.mem_flatMap.2 ⟨l, hl, he⟩)) s

theorem columnsPartDebug (R : Reads CR L) {T : List Text} {sec : Section} {rest : List Text} (hT : Header T sec rest)
    (hv : sec = .endata ∨ sec ∈ [Section.rhs, .ranges, .bounds]) {items : List ColumnItem} {lines : List Text}
    (w : AllWritten (ColumnItem.Written L) items lines) (hg : ∀ item ∈ items, GoodItem item)
    (hc : items.IsChain fun a b => ∀ c d, a = .column c → b = .column d → c.name ≠ d.name) (cost : Text)
    (rows : List Row) :
    parseColumnSectionDebug CR cost rows (lines ++ T) ⟨[], [], [], none, .continuous⟩ =
      items.foldlM (runItemDebug cost rows) ⟨[], [], [], none, .continuous⟩ >>= fun s =>
        saveToColumnCollector none s >>= fun s =>
        importAssert (decide (s.costValuesCollector.Pairwise fun a b => a.1 ≤ b.1)) >>= fun _ =>
        .ok (s.collector, s.costValuesCollector, sec, rest) := by
  obtain ⟨parts, hp, rfl⟩ := w
  obtain ⟨h, rfl, h0, hh, hf⟩ := header_ne hT
  rw [parseColumnSectionDebug_eq (allWritten_space (item_space R) hp) h0 hh (tryParse_eq hf hv),
    itemsDebug_eq R hp hg hc _ (fun _ _ b _ => by simp)]

theorem parseOptionalSectionsDebug_eq (rows : List Row) (columns : List Column) (sec : Section) (lines : List Text) :
    parseOptionalSectionsDebug CR rows columns sec lines =
      (if sec = .rhs then parseOptionalSectionDebug CR [.ranges, .bounds] rows lines ⟨[], [], none⟩
        else .ok ([], sec, lines)) >>= fun x =>
      (if x.2.1 = .ranges then parseOptionalSectionDebug CR [.bounds] rows x.2.2 ⟨[], [], none⟩
        else .ok ([], x.2.1, x.2.2)) >>= fun y =>
      checkRangesConsistency y.1 >>= fun _ =>
      (if y.2.1 = .bounds then parseBoundsSectionDebug CR columns y.2.2 ⟨[], [], none⟩ else .ok ([], y.2.2)) >>= fun z =>
      .ok (x.1, y.1, z.1, z.2) := by
  unfold parseOptionalSectionsDebug
  have key : ∀ x : List (Listing ℚ) × Section × List Text,
      (if x.2.1 = .ranges then
        parseOptionalSectionDebug CR [.bounds] rows x.2.2 ⟨[], [], none⟩ >>= fun y =>
          checkRangesConsistency y.1 >>= fun _ =>
          if y.2.1 = .bounds then
            parseBoundsSectionDebug CR columns y.2.2 ⟨[], [], none⟩ >>= fun z => pure (x.1, y.1, z.1, z.2)
          else Except.ok ([], y.2.2) >>= fun z => pure (x.1, y.1, z.1, z.2)
      else Except.ok ([], x.2.1, x.2.2) >>= fun y =>
          checkRangesConsistency y.1 >>= fun _ =>
          if y.2.1 = .bounds then
            parseBoundsSectionDebug CR columns y.2.2 ⟨[], [], none⟩ >>= fun z => pure (x.1, y.1, z.1, z.2)
          else Except.ok ([], y.2.2) >>= fun z => pure (x.1, y.1, z.1, z.2)) =
      (if x.2.1 = .ranges then parseOptionalSectionDebug CR [.bounds] rows x.2.2 ⟨[], [], none⟩
        else .ok ([], x.2.1, x.2.2)) >>= fun y =>
      checkRangesConsistency y.1 >>= fun _ =>
      (if y.2.1 = .bounds then parseBoundsSectionDebug CR columns y.2.2 ⟨[], [], none⟩ else .ok ([], y.2.2)) >>= fun z =>
      .ok (x.1, y.1, z.1, z.2) := by
    intro x
    split
    · refine bind_congr_ok fun y _ => bind_congr_ok fun _ _ => ?_
      split <;> rfl
    · refine bind_congr_ok fun y _ => bind_congr_ok fun _ _ => ?_
      split <;> rfl
  simp only [← key]
  split <;> rfl

/-- Parsing the lines of a file in a debug build is running through its contents with the checks. -/
theorem parseLinesDebug_written (R : Reads CR L) {F : File} {lines : List Text} (w : F.Written L lines)
    (hl : ∀ line ∈ lines, line ≠ []) (hp : F.Proper) : parseLinesDebug CR lines = runFileDebug F := by
  obtain ⟨name, more, sense, rows, columns, rhs, ranges, bounds, rfl, w1, w2, w3, w4, w5, w6, w7⟩ := w
  have hnum : ∀ n ∈ F.numerals, GoodNumber n := hp.numbers
  have hentries : ∀ b ∈ F.blocks ++ F.rhs.getD [] ++ F.ranges.getD [], ∀ e ∈ b.entries, GoodNumber e.number :=
    fun b hb e he => hnum _ (List.mem_append_left _ (List.mem_flatMap.2 ⟨b, hb, List.mem_map.2 ⟨e, he, rfl⟩⟩))
  have hbounds : ∀ b ∈ F.bounds.getD [], ∀ l ∈ b.lines, ∀ n ∈ l.bound.number, GoodNumber n :=
    fun b hb l hl n hn => hnum _ (List.mem_append_right _ (List.mem_flatMap.2 ⟨b, hb,
      List.mem_filterMap.2 ⟨l, hl, hn⟩⟩))
  obtain ⟨sec1, rest1, t1, v1, e1⟩ := boundsTailDebug R w7 hp.bounds hbounds
  obtain ⟨sec2, rest2, t2, v2, e2⟩ := groupTailDebug R (S := .ranges) (valid := [.bounds]) (by decide) rfl t1
    (by rcases v1 with rfl | rfl <;> simp) (by rcases v1 with rfl | rfl <;> simp) w6 hp.ranges
    (fun b hb => hentries b (by simp [hb]))
  obtain ⟨sec3, rest3, t3, v3, e3⟩ := groupTailDebug R (S := .rhs) (valid := [.ranges, .bounds]) (by decide) rfl t2
    (by rcases v2 with rfl | rfl <;> rcases v1 with rfl | rfl <;> simp)
    (by rcases v2 with rfl | rfl <;> rcases v1 with rfl | rfl <;> simp) w5 hp.rhs
    (fun b hb => hentries b (by simp [hb]))
  have hlines : ("NAME".toList ++ name) :: (sense ++ rows ++ ["COLUMNS".toList] ++ columns ++ rhs ++ ranges ++
      bounds ++ ["ENDATA".toList]) = ("NAME".toList ++ name) :: (sense ++ (rows ++ "COLUMNS".toList ::
        (columns ++ (rhs ++ (ranges ++ (bounds ++ ["ENDATA".toList])))))) := by simp
  rw [hlines] at hl ⊢
  unfold parseLinesDebug runFileDebug
  rw [name_eq R w1, ok_bind]
  simp only
  rw [senseWritten_eq w2, ok_bind]
  simp only
  rw [parseRowSectionDebug_eq _ (fun line hm => hl line (List.mem_cons_of_mem _ (List.mem_append_right _ hm))),
    parseRowSection_eq R w3, bind_assoc]
  refine bind_congr_ok fun r _ => ?_
  rw [ok_bind]
  refine bind_congr_ok fun c _ => ?_
  simp only
  refine bind_congr_ok fun _ _ => ?_
  rw [columnsPartDebug R t3 (by rcases v3 with rfl | rfl <;> rcases v2 with rfl | rfl <;> rcases v1 with rfl | rfl <;> simp)
    w4 (fun item hi b hb => by
      subst hb
      have := mem_blocks hi
      exact ⟨hp.columns.1 b this, hentries b (by simp [this]), hp.reserved b this⟩) hp.columns.2]
  simp only [bind_assoc]
  refine bind_congr_ok fun s _ => ?_
  refine bind_congr_ok fun s _ => ?_
  refine bind_congr_ok fun _ _ => ?_
  rw [ok_bind]
  simp only
  refine bind_congr_ok fun _ _ => ?_
  rw [parseOptionalSectionsDebug_eq, e3]
  simp only [bind_assoc]
  refine bind_congr_ok fun rhss _ => ?_
  rw [ok_bind]
  simp only
  rw [e2]
  simp only [bind_assoc]
  refine bind_congr_ok fun rng _ => ?_
  rw [ok_bind]
  simp only
  refine bind_congr_ok fun _ _ => ?_
  rw [e1, bind_assoc]
  refine bind_congr_ok fun b _ => ?_
  rfl

end

/-! ### The checks -/

section

variable {cost : Text} {rows : List Row}

/-- The type of variables in a state. -/
def isInteger (s : ColumnState) : Bool := decide (s.activeVariableType = .integer)

theorem addEntries_type {l : List Entry} : ∀ {s t : ColumnState}, l.foldlM (addEntry cost rows) s = .ok t →
    t.activeVariableType = s.activeVariableType := by
  induction l with
  | nil => intro s t h; cases h; rfl
  | cons e l ih =>
    intro s t h
    rw [foldlM_cons'] at h
    cases he : addEntry cost rows s e with
    | error e => rw [he] at h; cases h
    | ok u =>
      rw [he] at h
      refine (ih h).trans ?_
      unfold addEntry at he
      split at he
      · split at he
        · cases he; rfl
        · cases he
      · cases he; rfl

theorem save_type {new : Option Text} {s t : ColumnState} (h : saveToColumnCollector new s = .ok t) :
    t.activeVariableType = s.activeVariableType := by
  unfold saveToColumnCollector at h
  split at h
  · cases hd : sortedUnlessDuplicate s.columnCollector with
    | error e => rw [hd] at h; cases h
    | ok v => rw [hd] at h; cases h; rfl
  · cases h; rfl

theorem itemsDebug_iff (items : List ColumnItem) : ∀ (s t : ColumnState),
    items.foldlM (runItemDebug cost rows) s = .ok t ↔
      items.foldlM (runItem cost rows) s = .ok t ∧ Alternating (isInteger s) items := by
  induction items with
  | nil => intro s t; simp [Alternating]
  | cons item items ih =>
    intro s t
    rw [foldlM_cons', foldlM_cons']
    cases item with
    | column b =>
      show (runItem cost rows s (.column b) >>= _) = _ ↔ _
      cases h : runItem cost rows s (.column b) with
      | error e => simp [error_bind]
      | ok u =>
        rw [ok_bind, ok_bind, ih u t]
        have : u.activeVariableType = s.activeVariableType := by
          unfold runItem at h
          obtain ⟨v, h1, h2⟩ := bind_eq_ok h
          exact (addEntries_type h2).trans (save_type h1)
        unfold isInteger
        rw [this]
        rfl
    | marker integer =>
      show ((saveToColumnCollector none s >>= fun s => importAssert (decide (s.activeVariableType ≠
          if integer = true then .integer else .continuous)) >>= fun _ => (Except.ok { s with
            activeVariableType := if integer = true then .integer else .continuous } : Import ColumnState)) >>=
          fun s => items.foldlM (runItemDebug cost rows) s) = _ ↔
        ((saveToColumnCollector none s >>= fun s => (Except.ok { s with
            activeVariableType := if integer = true then .integer else .continuous } : Import ColumnState)) >>=
          fun s => items.foldlM (runItem cost rows) s) = _ ∧ _
      cases h : saveToColumnCollector none s with
      | error e => simp [error_bind]
      | ok u =>
        have hu := save_type h
        simp only [ok_bind, Alternating]
        by_cases hc : integer = isInteger s
        · have : importAssert (decide (u.activeVariableType ≠ if integer = true then .integer else .continuous)) =
              .error .panic := by
            unfold importAssert
            rw [if_neg]
            rw [decide_eq_true_iff, not_not, hu]
            unfold isInteger at hc
            cases ht : s.activeVariableType <;> rw [ht] at hc <;> subst hc <;> rfl
          rw [this]
          simp [hc, error_bind]
        · rw [importAssert_bind, ok_bind, ih]
          · have : isInteger { u with activeVariableType := if integer = true then .integer else .continuous } =
                integer := by
              unfold isInteger
              cases integer <;> rfl
            rw [this]
            simp [hc]
          · rw [decide_eq_true_iff, hu]
            unfold isInteger at hc
            intro he
            rw [he] at hc
            cases integer <;> simp at hc

/-- What is read in a debug build is what is read in a release build, if markers alternate and the names of columns
differ. -/
theorem runFileDebug_iff {F : File} {p : Mps} (ha : runFile F = .ok p → p.Accepted) : runFileDebug F = .ok p ↔
    runFile F = .ok p ∧ Alternating false F.columns ∧ (p.columns.map (·.name)).Nodup := by
  constructor
  · intro h
    unfold runFileDebug at h
    obtain ⟨q, h1, h⟩ := bind_eq_ok h
    obtain ⟨r, h2, h⟩ := bind_eq_ok h
    simp only at h
    obtain ⟨_, h3, h⟩ := bind_eq_ok h
    obtain ⟨s, h4, h⟩ := bind_eq_ok h
    obtain ⟨t, h5, h⟩ := bind_eq_ok h
    obtain ⟨_, h6, h⟩ := bind_eq_ok h
    obtain ⟨_, h7, h⟩ := bind_eq_ok h
    obtain ⟨h4, h8⟩ := (itemsDebug_iff _ _ _).1 h4
    refine ⟨?_, h8, ?_⟩
    · unfold runFile
      rw [h1, ok_bind]
      simp only
      rw [h2, ok_bind]
      rw [h4, ok_bind, h5, ok_bind]
      exact h
    · obtain ⟨_, -, h⟩ := bind_eq_ok h
      obtain ⟨_, -, h⟩ := bind_eq_ok h
      obtain ⟨_, -, h⟩ := bind_eq_ok h
      obtain ⟨_, -, h⟩ := bind_eq_ok h
      cases h
      have h7 := importAssert_ok h7
      rw [decide_eq_true_iff, ← List.length_map (f := (·.name)) (as := t.collector), names_card] at h7
      exact h7
  · rintro ⟨h, h8, h7⟩
    have ha := ha h
    unfold runFile at h
    obtain ⟨q, h1, h⟩ := bind_eq_ok h
    obtain ⟨r, h2, h⟩ := bind_eq_ok h
    simp only at h
    obtain ⟨s, h4, h⟩ := bind_eq_ok h
    obtain ⟨t, h5, h⟩ := bind_eq_ok h
    obtain ⟨rhss, h9, h⟩ := bind_eq_ok h
    obtain ⟨ranges, h10, h⟩ := bind_eq_ok h
    obtain ⟨_, h11, h⟩ := bind_eq_ok h
    obtain ⟨bounds, h12, h⟩ := bind_eq_ok h
    cases h
    unfold runFileDebug
    rw [h1, ok_bind]
    simp only
    rw [h2, ok_bind]
    have hr := ha.rows
    simp only [List.nodup_cons] at hr
    have h3 : checkRowIndex r.1 r.2 = .ok () := by
      unfold checkRowIndex
      rw [importAssert_bind, importAssert_true (decide_eq_true hr.1)]
      rw [decide_eq_true_iff, ← List.length_map (f := (·.name)) (as := r.2), names_card]
      exact hr.2
    rw [h3, ok_bind, (itemsDebug_iff _ _ _).2 ⟨h4, h8⟩, ok_bind, h5, ok_bind, importAssert_bind (decide_eq_true ha.costs)]
    have : checkColumnIndex t.collector = .ok () := by
      refine importAssert_true ?_
      rw [decide_eq_true_iff, ← List.length_map (f := (·.name)) (as := t.collector), names_card]
      exact h7
    rw [this, ok_bind, h9, ok_bind, h10, ok_bind, h11, ok_bind, h12]
    rfl

end

/-! ### The checks in terms of the file -/

section

variable {F : File} {p : Mps} (hd : F.Describes p) (hc : F.Consistent)

include hd hc

theorem checked_iff : p.Checked ↔ (F.blocks.map (·.name)).Nodup ∧
    (∀ b ∈ F.blocks, ∀ e ∈ b.entries, F.IsConstraint e.row → e.number.value ≠ 0) ∧
    ∀ row r, F.IsRange row r → r ≠ 0 →
      (((F.rhs.getD []).flatMap Block.entries).filter fun e => e.row = row).length ≤ 1 := by
  have hblocks : F.blocks = (typedColumns false F.columns).map (·.2) := (typedColumns_blocks false F.columns).symm
  have hcost : ∀ {name}, F.IsConstraint name → name ≠ p.costRowName := by
    rintro name ⟨relation, h⟩ he
    have h2 := (cost_iff hd hc name).2 he
    have := List.inj_on_of_nodup_map hc.rows h h2 rfl
    cases this
  constructor
  · intro h
    refine ⟨by rw [← names_eq hd]; exact h.names, ?_, ?_⟩
    · intro b hb e he hcon
      rw [hblocks] at hb
      obtain ⟨q, hq, rfl⟩ := List.mem_map.1 hb
      obtain ⟨c, hm, h1⟩ := forall₂_mem_right hd.columns hq
      have := h1.2.2.2.mem_iff.2 (List.mem_map.2 ⟨e, List.mem_filter.2 ⟨he, decide_eq_true (hcost hcon)⟩, rfl⟩)
      obtain ⟨v, hv, e1⟩ := List.mem_map.1 this
      rw [← (Prod.mk.inj e1).2]
      exact h.nonzero c hm v hv
    · intro row r hr h0
      obtain ⟨g, hg, e, he, h1, h2⟩ := hr
      have hcon := hc.ranges.1 e (List.mem_flatMap.2 ⟨g, hg, he⟩)
      rw [h1] at hcon
      obtain ⟨relation, hrel⟩ := hcon
      obtain ⟨i, hi, -, hn⟩ := index_of_row hd hrel
      subst hn
      have := h.rhsOnce i r ((range_iff hd hc hi r).2 ⟨g, hg, e, he, h1, h2⟩) h0
      rwa [groups_count (row_names hd hc.rows).1 hd.rhs hi] at this
  · rintro ⟨h1, h2, h3⟩
    refine ⟨by rw [names_eq hd]; exact h1, ?_, ?_⟩
    · intro c hm q hq
      obtain ⟨b, hb, h4⟩ := forall₂_mem_left hd.columns hm
      have := h4.2.2.2.mem_iff.1 (List.mem_map.2 ⟨q, hq, rfl⟩)
      obtain ⟨e, he, e1⟩ := List.mem_map.1 this
      rw [← (Prod.mk.inj e1).2]
      obtain ⟨he, hne⟩ := List.mem_filter.1 he
      have hb' : b.2 ∈ F.blocks := by
        rw [hblocks]
        exact List.mem_map.2 ⟨b, hb, rfl⟩
      refine h2 _ hb' e he ((hc.columns _ hb').1 e (List.mem_filter.2 ⟨he, ?_⟩))
      rw [decide_eq_true_eq] at hne ⊢
      rwa [cost_iff hd hc]
    · intro i r hm h0
      have hi : i < p.rows.length := groups_lt hd.ranges _ hm
      rw [groups_count (row_names hd hc.rows).1 hd.rhs hi]
      exact h3 _ r ((range_iff hd hc hi r).1 hm) h0

end

end Mps

end Relp
