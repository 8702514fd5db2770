import Verif.Proof.MpsReads
import Verif.Props.Number

/-!
# Parsing the lines of a file is running through its contents
-/

namespace Relp.Mps

open Spec

theorem bind_congr_ok {ε α β : Type} {x : Except ε α} {f g : α → Except ε β} (h : ∀ a, x = .ok a → f a = g a) :
    x >>= f = x >>= g := by
  cases x with
  | error e => rfl
  | ok a => exact h a rfl

theorem ok_bind {ε α β : Type} (a : α) (f : α → Except ε β) : (Except.ok a >>= f) = f a := rfl

theorem error_bind {ε α β : Type} (e : ε) (f : α → Except ε β) : ((Except.error e : Except ε α) >>= f) = .error e := rfl

theorem foldlM_cons' {ε α β : Type} (f : β → α → Except ε β) (a : α) (l : List α) (s : β) :
    (a :: l).foldlM f s = (f s a) >>= fun s => l.foldlM f s := rfl

/-- A number that is read as what it denotes. -/
def GoodNumber (n : Numeral) : Prop := n.Proper ∧ n.Fits

/-! ### Running through the columns -/

/-- Adding an entry to the column that is being read. -/
def addEntry (cost : Text) (rows : List Row) (s : ColumnState) (e : Entry) : Import ColumnState :=
  match rowIndex rows e.row with
  | none =>
    if e.row = cost then
      .ok { s with costValuesCollector := s.costValuesCollector ++ [(s.collector.length, e.number.value)] }
    else .error .inconsistency
  | some i => .ok { s with columnCollector := s.columnCollector ++ [(i, e.number.value)] }

/-- An item of the section of columns. -/
def runItem (cost : Text) (rows : List Row) (s : ColumnState) : ColumnItem → Import ColumnState
  | .marker integer => do
    let s ← saveToColumnCollector none s
    .ok { s with activeVariableType := if integer then .integer else .continuous }
  | .column b => do
    let s ← saveToColumnCollector (some b.name) s
    b.entries.foldlM (addEntry cost rows) s

section

variable {CR : Retriever} {L : Layout} {cost : Text} {rows : List Row}

theorem saveColumnPair_eq {e : Entry} (h : GoodNumber e.number) (s : ColumnState) :
    saveColumnPair cost rows s e.row e.number.text = addEntry cost rows s e := by
  unfold saveColumnPair addEntry
  rw [C37_decimal _ h.1 h.2]
  rfl

theorem addEntry_saved {s t : ColumnState} {e : Entry} (h : addEntry cost rows s e = .ok t) :
    t.columnToBeSaved = s.columnToBeSaved := by
  unfold addEntry at h
  split at h
  · split at h
    · cases h; rfl
    · cases h
  · cases h; rfl

theorem addEntries_saved {l : List Entry} : ∀ {s t : ColumnState}, l.foldlM (addEntry cost rows) s = .ok t →
    t.columnToBeSaved = s.columnToBeSaved := by
  induction l with
  | nil => intro s t h; cases h; rfl
  | cons e l ih =>
    intro s t h
    rw [foldlM_cons'] at h
    cases he : addEntry cost rows s e with
    | error e => rw [he] at h; cases h
    | ok u =>
      rw [he] at h
      exact (ih h).trans (addEntry_saved he)

theorem addSecond (second : Option Entry) (hg : ∀ e ∈ second, GoodNumber e.number) (s : ColumnState) :
    (match second.map fun e => (e.row, e.number.text) with
      | some (rowName, valueText) => saveColumnPair cost rows s rowName valueText
      | none => pure s) = second.toList.foldlM (addEntry cost rows) s := by
  cases second with
  | none => rfl
  | some e =>
    show saveColumnPair cost rows s e.row e.number.text = _
    rw [saveColumnPair_eq (hg e rfl)]
    show _ = (addEntry cost rows s e) >>= fun s => pure s
    cases addEntry cost rows s e <;> rfl

theorem parseColumnLine_entries (R : Reads CR L) {name line : Text} {l : EntryLine}
    (w : l.Written L name line) (hg : ∀ e ∈ l.entries, GoodNumber e.number)
    (hm : ∀ e ∈ l.entries, e.row ≠ "'MARKER'".toList) (s : ColumnState) :
    parseColumnLine CR cost rows s line =
      (if s.columnToBeSaved = some name then .ok s else saveToColumnCollector (some name) s) >>=
        fun s => l.entries.foldlM (addEntry cost rows) s := by
  obtain ⟨rest, h1, h2⟩ := R.column w (hm l.first (by simp [EntryLine.entries]))
  unfold parseColumnLine
  rw [h1, ok_bind]
  simp only
  unfold parseColumnData
  have hstart : (match s.columnToBeSaved with
      | some active => if active ≠ name then saveToColumnCollector (some name) s else .ok s
      | none => .ok { s with columnToBeSaved := some name }) =
      (if s.columnToBeSaved = some name then .ok s else saveToColumnCollector (some name) s) := by
    cases hs : s.columnToBeSaved with
    | none =>
      rw [if_neg (by simp)]
      unfold saveToColumnCollector
      rw [hs]
    | some active =>
      by_cases ha : active = name
      · simp [ha]
      · simp [ha]
  have hbody : ∀ s : ColumnState, (saveColumnPair cost rows s l.first.row l.first.number.text >>= fun s =>
      CR.fiveAndSix rest >>= fun second =>
        match second with
        | some (rowName, valueText) => saveColumnPair cost rows s rowName valueText
        | none => pure s) = l.entries.foldlM (addEntry cost rows) s := by
    intro s
    rw [saveColumnPair_eq (hg _ (by simp [EntryLine.entries]))]
    show _ = (addEntry cost rows s l.first) >>= fun s => l.second.toList.foldlM (addEntry cost rows) s
    refine bind_congr_ok fun s _ => ?_
    rw [h2, ok_bind]
    exact addSecond l.second (fun e he => hg e (by simp [EntryLine.entries, Option.mem_def.1 he])) s
  rw [← hstart]
  cases hs : s.columnToBeSaved with
  | none => exact hbody _
  | some active =>
    simp only
    split <;> exact bind_congr_ok fun s _ => hbody s

theorem columnLines_eq (R : Reads CR L) {name : Text} {ls : List EntryLine} {lines : List Text}
    (w : List.Forall₂ (EntryLine.Written L name) ls lines)
    (hg : ∀ l ∈ ls, ∀ e ∈ l.entries, GoodNumber e.number)
    (hm : ∀ l ∈ ls, ∀ e ∈ l.entries, e.row ≠ "'MARKER'".toList) :
    ∀ s : ColumnState, s.columnToBeSaved = some name →
      lines.foldlM (parseColumnLine CR cost rows) s =
        (ls.flatMap EntryLine.entries).foldlM (addEntry cost rows) s := by
  induction w with
  | nil => intro s _; rfl
  | @cons l line ls lines hw _ ih =>
    intro s hs
    rw [foldlM_cons', parseColumnLine_entries R hw (hg l (by simp)) (hm l (by simp)), if_pos hs, ok_bind,
      List.flatMap_cons, List.foldlM_append]
    refine bind_congr_ok fun t ht => ?_
    exact ih (fun l hl => hg l (List.mem_cons_of_mem _ hl)) (fun l hl => hm l (List.mem_cons_of_mem _ hl)) t
      ((addEntries_saved ht).trans hs)

theorem columnBlock_eq (R : Reads CR L) {b : Block EntryLine} {lines : List Text}
    (w : b.Written (EntryLine.Written L) lines) (hne : b.lines ≠ [])
    (hg : ∀ e ∈ b.entries, GoodNumber e.number)
    (hm : ∀ e ∈ b.entries, e.row ≠ "'MARKER'".toList) (s : ColumnState) (hs : s.columnToBeSaved ≠ some b.name) :
    lines.foldlM (parseColumnLine CR cost rows) s = runItem cost rows s (.column b) := by
  obtain ⟨name, ls⟩ := b
  unfold Block.Written at w
  unfold Block.entries at hg hm
  simp only at w hne hg hm hs
  cases w with
  | nil => exact absurd rfl hne
  | @cons l line ls lines hw w =>
    rw [foldlM_cons', parseColumnLine_entries R hw
      (fun e he => hg e (List.mem_flatMap.2 ⟨l, by simp, he⟩))
      (fun e he => hm e (List.mem_flatMap.2 ⟨l, by simp, he⟩)), if_neg hs]
    unfold runItem Block.entries
    simp only
    rw [bind_assoc]
    refine bind_congr_ok fun t ht => ?_
    rw [List.flatMap_cons, List.foldlM_append]
    refine bind_congr_ok fun u hu => ?_
    refine columnLines_eq R w (fun l hl e he => hg e (List.mem_flatMap.2 ⟨l, by simp [hl], he⟩))
      (fun l hl e he => hm e (List.mem_flatMap.2 ⟨l, by simp [hl], he⟩)) u ?_
    rw [addEntries_saved hu]
    unfold saveToColumnCollector at ht
    split at ht
    · cases hd : sortedUnlessDuplicate s.columnCollector with
      | error e => rw [hd] at ht; cases ht
      | ok v => rw [hd] at ht; cases ht; rfl
    · cases ht; rfl

/-- The column that is being read after an item. -/
def openColumn : ColumnItem → Option Text
  | .marker _ => none
  | .column b => some b.name

theorem save_saved {new : Option Text} {s t : ColumnState} (h : saveToColumnCollector new s = .ok t) :
    t.columnToBeSaved = new := by
  unfold saveToColumnCollector at h
  split at h
  · cases hd : sortedUnlessDuplicate s.columnCollector with
    | error e => rw [hd] at h; cases h
    | ok v => rw [hd] at h; cases h; rfl
  · cases h; rfl

theorem runItem_saved {item : ColumnItem} {s t : ColumnState} (h : runItem cost rows s item = .ok t) :
    t.columnToBeSaved = openColumn item := by
  cases item with
  | marker integer =>
    unfold runItem at h
    cases hs : saveToColumnCollector none s with
    | error e => rw [hs] at h; cases h
    | ok u =>
      rw [hs] at h
      cases h
      show u.columnToBeSaved = none
      exact save_saved hs
  | column b =>
    unfold runItem at h
    simp only at h
    cases hs : saveToColumnCollector (some b.name) s with
    | error e => rw [hs] at h; cases h
    | ok u =>
      rw [hs] at h
      exact (addEntries_saved h).trans (save_saved hs)

/-- The conditions on an item. -/
def GoodItem (item : ColumnItem) : Prop :=
  ∀ b, item = .column b → b.lines ≠ [] ∧ (∀ e ∈ b.entries, GoodNumber e.number) ∧
    ∀ e ∈ b.entries, e.row ≠ "'MARKER'".toList

theorem item_eq (R : Reads CR L) {item : ColumnItem} {lines : List Text} (w : item.Written L lines)
    (hg : GoodItem item) (s : ColumnState) (hs : ∀ b, item = .column b → s.columnToBeSaved ≠ some b.name) :
    lines.foldlM (parseColumnLine CR cost rows) s = runItem cost rows s item := by
  cases item with
  | column b =>
    obtain ⟨h1, h2, h3⟩ := hg b rfl
    exact columnBlock_eq R w h1 h2 h3 s (hs b rfl)
  | marker integer =>
    obtain ⟨line, rfl, hw⟩ := w
    have h := R.marker (by cases integer <;> rfl) hw
    rw [foldlM_cons']
    unfold parseColumnLine runItem
    rw [h, ok_bind]
    simp only
    rw [bind_assoc]
    refine bind_congr_ok fun t _ => ?_
    cases integer <;> rfl

theorem items_eq (R : Reads CR L) {items : List ColumnItem} {parts : List (List Text)}
    (w : List.Forall₂ (ColumnItem.Written L) items parts) (hg : ∀ item ∈ items, GoodItem item)
    (hc : items.IsChain fun a b => ∀ c d, a = .column c → b = .column d → c.name ≠ d.name) :
    ∀ s : ColumnState, (∀ item ∈ items.head?, ∀ b, item = .column b → s.columnToBeSaved ≠ some b.name) →
    parts.flatten.foldlM (parseColumnLine CR cost rows) s = items.foldlM (runItem cost rows) s := by
  induction w with
  | nil => intro s _; rfl
  | @cons item part items parts hw _ ih =>
    intro s hs
    rw [List.flatten_cons, List.foldlM_append, foldlM_cons',
      item_eq R hw (hg item (by simp)) s (hs item rfl)]
    refine bind_congr_ok fun t ht => ?_
    refine ih (fun i hi => hg i (List.mem_cons_of_mem _ hi)) (List.isChain_cons.1 hc).2 t ?_
    intro next hnext b hb
    rw [runItem_saved ht]
    have := (List.isChain_cons.1 hc).1 next hnext
    cases item with
    | marker _ => simp [openColumn]
    | column c =>
      show some c.name ≠ _
      intro e
      exact this c b rfl hb (Option.some.inj e)

theorem parseColumnSection_eq {ls : List Text} {header : Text} {rest : List Text} {sec : Section}
    (h1 : ∀ line ∈ ls, line.head? = some ' ') (h2 : header.head? ≠ some ' ')
    (h3 : tryParseNextSection header [.rhs, .ranges, .bounds] = .ok sec) :
    ∀ s : ColumnState, parseColumnSection CR cost rows (ls ++ header :: rest) s =
      ls.foldlM (parseColumnLine CR cost rows) s >>= fun s => saveToColumnCollector none s >>= fun s =>
        .ok (s.collector, s.costValuesCollector, sec, rest) := by
  induction ls with
  | nil =>
    intro s
    rw [List.nil_append, parseColumnSection, if_neg (by unfold isPartOfSameSection; simpa using h2), h3]
    rfl
  | cons line ls ih =>
    intro s
    rw [List.cons_append, parseColumnSection,
      if_pos (by unfold isPartOfSameSection; simpa using h1 line (by simp)), foldlM_cons', bind_assoc]
    exact bind_congr_ok fun t _ => ih (fun l hl => h1 l (List.mem_cons_of_mem _ hl)) t

end

/-! ### Running through right-hand sides and ranges -/

/-- Adding an entry to the group that is being read. -/
def addValue (rows : List Row) (s : GroupState ℚ) (e : Entry) : Import (GroupState ℚ) :=
  match rowIndex rows e.row with
  | none => .error .inconsistency
  | some i => .ok { s with groupCollector := s.groupCollector ++ [(i, e.number.value)] }

/-- A group of right-hand sides or ranges. -/
def runGroup (rows : List Row) (s : GroupState ℚ) (b : Block EntryLine) : Import (GroupState ℚ) := do
  let s ← saveToGroupCollector false (some b.name) s
  b.entries.foldlM (addValue rows) s

/-- A section of right-hand sides or ranges. -/
def runGroups (rows : List Row) : Option (List (Block EntryLine)) → Import (List (Listing ℚ))
  | none => .ok []
  | some blocks => do
    let s ← blocks.foldlM (runGroup rows) ⟨[], [], none⟩
    let s ← saveToGroupCollector false none s
    .ok s.collector

theorem groupSave_saved {α : Type} {d : Bool} {new : Option Text} {s t : GroupState α}
    (h : saveToGroupCollector d new s = .ok t) : t.groupToBeSaved = new := by
  unfold saveToGroupCollector at h
  split at h
  · cases d with
    | true => cases h; rfl
    | false =>
      cases hd : sortedUnlessDuplicate s.groupCollector with
      | error e => simp [hd, bind, Except.bind] at h
      | ok v =>
        simp only [hd, bind, Except.bind, Bool.false_eq_true, if_false, pure, Except.pure] at h
        cases h; rfl
  · cases h; rfl

theorem startGroup_eq {α : Type} (d : Bool) (name : Text) (s : GroupState α) :
    startGroup d name s =
      if s.groupToBeSaved = some name then .ok s else saveToGroupCollector d (some name) s := by
  unfold startGroup
  cases hs : s.groupToBeSaved with
  | none =>
    rw [if_neg (by simp)]
    unfold saveToGroupCollector
    rw [hs]
  | some active =>
    by_cases ha : active = name
    · simp [ha]
    · simp [ha]

section

variable {CR : Retriever} {L : Layout} {rows : List Row}

theorem saveGroupPair_eq {e : Entry} (h : GoodNumber e.number) (s : GroupState ℚ) :
    saveGroupPair rows s e.row e.number.text = addValue rows s e := by
  unfold saveGroupPair addValue
  rw [C37_decimal _ h.1 h.2]
  cases rowIndex rows e.row <;> rfl

theorem addValue_saved {s t : GroupState ℚ} {e : Entry} (h : addValue rows s e = .ok t) :
    t.groupToBeSaved = s.groupToBeSaved := by
  unfold addValue at h
  split at h
  · cases h
  · cases h; rfl

theorem addValues_saved {l : List Entry} : ∀ {s t : GroupState ℚ}, l.foldlM (addValue rows) s = .ok t →
    t.groupToBeSaved = s.groupToBeSaved := by
  induction l with
  | nil => intro s t h; cases h; rfl
  | cons e l ih =>
    intro s t h
    rw [foldlM_cons'] at h
    cases he : addValue rows s e with
    | error e => rw [he] at h; cases h
    | ok u =>
      rw [he] at h
      exact (ih h).trans (addValue_saved he)

theorem parseValueLine_eq (R : Reads CR L) {name line : Text} {l : EntryLine}
    (w : l.Written L name line) (hg : ∀ e ∈ l.entries, GoodNumber e.number) (s : GroupState ℚ) :
    parseValueLine CR rows s line =
      (if s.groupToBeSaved = some name then .ok s else saveToGroupCollector false (some name) s) >>=
        fun s => l.entries.foldlM (addValue rows) s := by
  obtain ⟨rest, h1, h2⟩ := R.entries w
  unfold parseValueLine
  rw [h1, ok_bind]
  simp only
  rw [startGroup_eq]
  refine bind_congr_ok fun s _ => ?_
  rw [saveGroupPair_eq (hg _ (by simp [EntryLine.entries]))]
  show _ = (addValue rows s l.first) >>= fun s => l.second.toList.foldlM (addValue rows) s
  refine bind_congr_ok fun s _ => ?_
  rw [h2, ok_bind]
  have hg2 : ∀ e ∈ l.second, GoodNumber e.number := fun e he =>
    hg e (by simp [EntryLine.entries, Option.mem_def.1 he])
  cases h : l.second with
  | none => rfl
  | some e =>
    show saveGroupPair rows s e.row e.number.text = _
    rw [saveGroupPair_eq (hg2 e h)]
    show _ = (addValue rows s e) >>= fun s => pure s
    cases addValue rows s e <;> rfl

theorem valueLines_eq (R : Reads CR L) {name : Text} {ls : List EntryLine} {lines : List Text}
    (w : List.Forall₂ (EntryLine.Written L name) ls lines)
    (hg : ∀ l ∈ ls, ∀ e ∈ l.entries, GoodNumber e.number) :
    ∀ s : GroupState ℚ, s.groupToBeSaved = some name →
      lines.foldlM (parseValueLine CR rows) s = (ls.flatMap EntryLine.entries).foldlM (addValue rows) s := by
  induction w with
  | nil => intro s _; rfl
  | @cons l line ls lines hw _ ih =>
    intro s hs
    rw [foldlM_cons', parseValueLine_eq R hw (hg l (by simp)), if_pos hs, ok_bind,
      List.flatMap_cons, List.foldlM_append]
    refine bind_congr_ok fun t ht => ?_
    exact ih (fun l hl => hg l (List.mem_cons_of_mem _ hl)) t ((addValues_saved ht).trans hs)

theorem valueBlock_eq (R : Reads CR L) {b : Block EntryLine} {lines : List Text}
    (w : b.Written (EntryLine.Written L) lines) (hne : b.lines ≠ [])
    (hg : ∀ e ∈ b.entries, GoodNumber e.number) (s : GroupState ℚ) (hs : s.groupToBeSaved ≠ some b.name) :
    lines.foldlM (parseValueLine CR rows) s = runGroup rows s b := by
  obtain ⟨name, ls⟩ := b
  unfold Block.Written at w
  unfold Block.entries at hg
  simp only at w hne hg hs
  cases w with
  | nil => exact absurd rfl hne
  | @cons l line ls lines hw w =>
    rw [foldlM_cons', parseValueLine_eq R hw
      (fun e he => hg e (List.mem_flatMap.2 ⟨l, by simp, he⟩)), if_neg hs]
    unfold runGroup Block.entries
    simp only
    rw [bind_assoc]
    refine bind_congr_ok fun t ht => ?_
    rw [List.flatMap_cons, List.foldlM_append]
    refine bind_congr_ok fun u hu => ?_
    refine valueLines_eq R w (fun l hl e he => hg e (List.mem_flatMap.2 ⟨l, by simp [hl], he⟩)) u ?_
    rw [addValues_saved hu]
    exact groupSave_saved ht

theorem runGroup_saved {b : Block EntryLine} {s t : GroupState ℚ} (h : runGroup rows s b = .ok t) :
    t.groupToBeSaved = some b.name := by
  unfold runGroup at h
  cases hs : saveToGroupCollector false (some b.name) s with
  | error e => rw [hs] at h; cases h
  | ok u =>
    rw [hs] at h
    exact (addValues_saved h).trans (groupSave_saved hs)

theorem valueBlocks_eq (R : Reads CR L) {blocks : List (Block EntryLine)} {parts : List (List Text)}
    (w : List.Forall₂ (Block.Written (EntryLine.Written L)) blocks parts)
    (hg : ∀ b ∈ blocks, ∀ e ∈ b.entries, GoodNumber e.number) (hs : Separate blocks) :
    ∀ s : GroupState ℚ, (∀ b ∈ blocks.head?, s.groupToBeSaved ≠ some b.name) →
    parts.flatten.foldlM (parseValueLine CR rows) s = blocks.foldlM (runGroup rows) s := by
  obtain ⟨hn, hc⟩ := hs
  induction w with
  | nil => intro s _; rfl
  | @cons b part blocks parts hw _ ih =>
    intro s hs
    rw [List.flatten_cons, List.foldlM_append, foldlM_cons',
      valueBlock_eq R hw (hn b (by simp)) (hg b (by simp)) s (hs b rfl)]
    refine bind_congr_ok fun t ht => ?_
    refine ih (fun i hi => hg i (List.mem_cons_of_mem _ hi)) (fun i hi => hn i (List.mem_cons_of_mem _ hi))
      (List.isChain_cons.1 hc).2 t ?_
    intro next hnext
    rw [runGroup_saved ht]
    intro e
    exact (List.isChain_cons.1 hc).1 next hnext (Option.some.inj e)

theorem parseOptionalSection_eq {valid : List Section} {ls : List Text} {header : Text} {rest : List Text}
    {sec : Section} (h1 : ∀ line ∈ ls, line.head? = some ' ') (h2 : header.head? ≠ some ' ')
    (h3 : tryParseNextSection header valid = .ok sec) :
    ∀ s : GroupState ℚ, parseOptionalSection CR valid rows (ls ++ header :: rest) s =
      ls.foldlM (parseValueLine CR rows) s >>= fun s => saveToGroupCollector false none s >>= fun s =>
        .ok (s.collector, sec, rest) := by
  induction ls with
  | nil =>
    intro s
    rw [List.nil_append, parseOptionalSection, if_neg (by unfold isPartOfSameSection; simpa using h2), h3]
    rfl
  | cons line ls ih =>
    intro s
    rw [List.cons_append, parseOptionalSection,
      if_pos (by unfold isPartOfSameSection; simpa using h1 line (by simp)), foldlM_cons', bind_assoc]
    exact bind_congr_ok fun t _ => ih (fun l hl => h1 l (List.mem_cons_of_mem _ hl)) t

end

/-! ### Running through the bounds -/

/-- Adding a bound to the group that is being read. -/
def addBound (columns : List Column) (s : GroupState BoundType) (l : BoundLine) : Import (GroupState BoundType) :=
  match columnIndex columns l.column with
  | none => .error .inconsistency
  | some j => .ok { s with groupCollector := s.groupCollector ++ [(j, l.bound.meaning)] }

/-- A group of bounds. -/
def runBoundGroup (columns : List Column) (s : GroupState BoundType) (b : Block BoundLine) :
    Import (GroupState BoundType) := do
  let s ← saveToGroupCollector true (some b.name) s
  b.lines.foldlM (addBound columns) s

/-- A section of bounds. -/
def runBounds (columns : List Column) : Option (List (Block BoundLine)) → Import (List (Listing BoundType))
  | none => .ok []
  | some blocks => do
    let s ← blocks.foldlM (runBoundGroup columns) ⟨[], [], none⟩
    let s ← saveToGroupCollector true none s
    .ok s.collector

section

variable {CR : Retriever} {L : Layout} {columns : List Column}

theorem boundSave_ok {α : Type} (new : Option Text) (s : GroupState α) :
    ∃ t, saveToGroupCollector true new s = .ok t := by
  unfold saveToGroupCollector
  split <;> exact ⟨_, rfl⟩

theorem parseBoundType_eq {bound : BoundText} {rest : CR.RestOfLine}
    (hg : ∀ n ∈ bound.number, GoodNumber n)
    (h : ∀ v, (bound.number.map (·.text)) = some v → CR.four rest = .ok v) :
    parseBoundType CR bound.code rest = .ok bound.meaning := by
  cases bound
  case fr => rfl
  case mi => rfl
  case pl => rfl
  case bv => rfl
  all_goals
    rename_i n
    have h1 := h n.text rfl
    have h2 := C37_decimal n (hg n rfl).1 (hg n rfl).2
    show (CR.four rest >>= fun valueText => Number.parse valueText >>= fun value => pure _) = _
    rw [h1, ok_bind, h2]
    rfl

theorem parseBoundLine_eq (R : Reads CR L) {name line : Text} {l : BoundLine}
    (w : l.Written L name line) (hg : ∀ n ∈ l.bound.number, GoodNumber n) (s : GroupState BoundType) :
    parseBoundLine CR columns s line =
      (if s.groupToBeSaved = some name then .ok s else saveToGroupCollector true (some name) s) >>=
        fun s => addBound columns s l := by
  obtain ⟨rest, h1, h2⟩ := R.bound (by cases l.bound <;> rfl) w
  unfold parseBoundLine
  rw [h1, ok_bind]
  simp only
  rw [startGroup_eq, parseBoundType_eq hg h2]
  unfold addBound
  cases columnIndex columns l.column with
  | some j => rfl
  | none =>
    simp only
    split
    · rfl
    · obtain ⟨t, ht⟩ := boundSave_ok (some name) s
      rw [ht]
      rfl

theorem addBound_saved {s t : GroupState BoundType} {l : BoundLine} (h : addBound columns s l = .ok t) :
    t.groupToBeSaved = s.groupToBeSaved := by
  unfold addBound at h
  split at h
  · cases h
  · cases h; rfl

theorem addBounds_saved {l : List BoundLine} : ∀ {s t : GroupState BoundType},
    l.foldlM (addBound columns) s = .ok t → t.groupToBeSaved = s.groupToBeSaved := by
  induction l with
  | nil => intro s t h; cases h; rfl
  | cons e l ih =>
    intro s t h
    rw [foldlM_cons'] at h
    cases he : addBound columns s e with
    | error e => rw [he] at h; cases h
    | ok u =>
      rw [he] at h
      exact (ih h).trans (addBound_saved he)

theorem boundLines_eq (R : Reads CR L) {name : Text} {ls : List BoundLine} {lines : List Text}
    (w : List.Forall₂ (BoundLine.Written L name) ls lines)
    (hg : ∀ l ∈ ls, ∀ n ∈ l.bound.number, GoodNumber n) :
    ∀ s : GroupState BoundType, s.groupToBeSaved = some name →
      lines.foldlM (parseBoundLine CR columns) s = ls.foldlM (addBound columns) s := by
  induction w with
  | nil => intro s _; rfl
  | @cons l line ls lines hw _ ih =>
    intro s hs
    rw [foldlM_cons', parseBoundLine_eq R hw (hg l (by simp)), if_pos hs, ok_bind, foldlM_cons']
    refine bind_congr_ok fun t ht => ?_
    exact ih (fun l hl => hg l (List.mem_cons_of_mem _ hl)) t ((addBound_saved ht).trans hs)

theorem boundBlock_eq (R : Reads CR L) {b : Block BoundLine} {lines : List Text}
    (w : b.Written (BoundLine.Written L) lines) (hne : b.lines ≠ [])
    (hg : ∀ l ∈ b.lines, ∀ n ∈ l.bound.number, GoodNumber n) (s : GroupState BoundType)
    (hs : s.groupToBeSaved ≠ some b.name) :
    lines.foldlM (parseBoundLine CR columns) s = runBoundGroup columns s b := by
  obtain ⟨name, ls⟩ := b
  unfold Block.Written at w
  simp only at w hne hg hs
  cases w with
  | nil => exact absurd rfl hne
  | @cons l line ls lines hw w =>
    rw [foldlM_cons', parseBoundLine_eq R hw (hg l (by simp)), if_neg hs]
    unfold runBoundGroup
    simp only
    rw [bind_assoc]
    refine bind_congr_ok fun t ht => ?_
    rw [foldlM_cons']
    refine bind_congr_ok fun u hu => ?_
    refine boundLines_eq R w (fun l hl => hg l (List.mem_cons_of_mem _ hl)) u ?_
    rw [addBound_saved hu]
    exact groupSave_saved ht

theorem runBoundGroup_saved {b : Block BoundLine} {s t : GroupState BoundType}
    (h : runBoundGroup columns s b = .ok t) : t.groupToBeSaved = some b.name := by
  unfold runBoundGroup at h
  cases hs : saveToGroupCollector true (some b.name) s with
  | error e => rw [hs] at h; cases h
  | ok u =>
    rw [hs] at h
    exact (addBounds_saved h).trans (groupSave_saved hs)

theorem boundBlocks_eq (R : Reads CR L) {blocks : List (Block BoundLine)} {parts : List (List Text)}
    (w : List.Forall₂ (Block.Written (BoundLine.Written L)) blocks parts)
    (hg : ∀ b ∈ blocks, ∀ l ∈ b.lines, ∀ n ∈ l.bound.number, GoodNumber n) (hs : Separate blocks) :
    ∀ s : GroupState BoundType, (∀ b ∈ blocks.head?, s.groupToBeSaved ≠ some b.name) →
    parts.flatten.foldlM (parseBoundLine CR columns) s = blocks.foldlM (runBoundGroup columns) s := by
  obtain ⟨hn, hc⟩ := hs
  induction w with
  | nil => intro s _; rfl
  | @cons b part blocks parts hw _ ih =>
    intro s hs
    rw [List.flatten_cons, List.foldlM_append, foldlM_cons',
      boundBlock_eq R hw (hn b (by simp)) (hg b (by simp)) s (hs b rfl)]
    refine bind_congr_ok fun t ht => ?_
    refine ih (fun i hi => hg i (List.mem_cons_of_mem _ hi)) (fun i hi => hn i (List.mem_cons_of_mem _ hi))
      (List.isChain_cons.1 hc).2 t ?_
    intro next hnext
    rw [runBoundGroup_saved ht]
    intro e
    exact (List.isChain_cons.1 hc).1 next hnext (Option.some.inj e)

theorem parseBoundsSection_eq {ls : List Text} {header : Text} {rest : List Text} {sec : Section}
    (h1 : ∀ line ∈ ls, line.head? = some ' ') (h2 : header.head? ≠ some ' ')
    (h3 : tryParseNextSection header [] = .ok sec) :
    ∀ s : GroupState BoundType, parseBoundsSection CR columns (ls ++ header :: rest) s =
      ls.foldlM (parseBoundLine CR columns) s >>= fun s => saveToGroupCollector true none s >>= fun s =>
        .ok (s.collector, rest) := by
  induction ls with
  | nil =>
    intro s
    rw [List.nil_append, parseBoundsSection, if_neg (by unfold isPartOfSameSection; simpa using h2), h3]
    rfl
  | cons line ls ih =>
    intro s
    rw [List.cons_append, parseBoundsSection,
      if_pos (by unfold isPartOfSameSection; simpa using h1 line (by simp)), foldlM_cons', bind_assoc]
    exact bind_congr_ok fun t _ => ih (fun l hl => h1 l (List.mem_cons_of_mem _ hl)) t

end

/-! ### Running through the rows -/

/-- Rows in order, with the cost row apart. -/
def runRows : List (Option Relation × Text) → Option Text → List Row → Import (Option Text × List Row)
  | [], cost, rows => .ok (cost, rows)
  | (none, name) :: l, cost, rows => if cost.isSome then .error .parse else runRows l (some name) rows
  | (some relation, name) :: l, cost, rows => runRows l cost (rows ++ [⟨name, relation⟩])

theorem parseRowSection_eq {CR : Retriever} {L : Layout} (R : Reads CR L) {l : List (Option Relation × Text)}
    {lines rest : List Text}
    (w : List.Forall₂ (fun (row : Option Relation × Text) line => L.row (rowCode row.1) row.2 line) l lines) :
    ∀ cost rows, parseRowSection CR (lines ++ "COLUMNS".toList :: rest) cost rows =
      runRows l cost rows >>= fun r => .ok (r.1, r.2, rest) := by
  induction w with
  | nil => intro cost rows; rfl
  | @cons row line l lines hw _ ih =>
    intro cost rows
    obtain ⟨type, name⟩ := row
    obtain ⟨text, h1, h2⟩ := R.row hw
    rw [List.cons_append, parseRowSection,
      if_pos (by unfold isPartOfSameSection; simpa using R.rowSpace hw), h1, ok_bind]
    simp only
    rw [h2, ok_bind]
    cases type with
    | none =>
      simp only [runRows]
      split
      · rfl
      · exact ih _ _
    | some relation => exact ih _ _

end Relp.Mps
