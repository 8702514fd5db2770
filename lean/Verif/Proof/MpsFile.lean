import Verif.Proof.MpsSections

/-!
# Parsing a file is running through its contents
-/

namespace Relp.Mps

open Spec

/-- The contents of a file in order. -/
def runFile (F : File) : Import Mps := do
  let (cost, rows) ← runRows F.rows none []
  let (cost, rows) ← checkRowSectionConsistency cost rows
  let s ← F.columns.foldlM (runItem cost rows) ⟨[], [], [], none, .continuous⟩
  let s ← saveToColumnCollector none s
  let rhss ← runGroups rows F.rhs
  let ranges ← runGroups rows F.ranges
  checkRangesConsistency ranges
  let bounds ← runBounds s.collector F.bounds
  .ok ⟨F.name, F.sense.getD .minimize, cost, s.costValuesCollector, rows, s.collector, rhss, ranges, bounds⟩

/-- Lines that start with the header of a section. -/
def Header (lines : List Text) (sec : Section) (rest : List Text) : Prop :=
  ∃ h, lines = h :: rest ∧ h.head? ≠ some ' ' ∧ Section.fromStr h = .ok sec

theorem tryParse_eq {h : Text} {sec : Section} {valid : List Section} (he : Section.fromStr h = .ok sec)
    (hv : sec = .endata ∨ sec ∈ valid) : tryParseNextSection h valid = .ok sec := by
  unfold tryParseNextSection
  rw [he, ok_bind, if_neg (by tauto)]
  rfl

theorem header_endata : Header ["ENDATA".toList] .endata [] := ⟨_, rfl, by decide, rfl⟩

section

variable {CR : Retriever} {L : Layout}

theorem allWritten_space {α : Type} {written : α → List Text → Prop} {items : List α} {parts : List (List Text)}
    (h : ∀ item lines, written item lines → ∀ line ∈ lines, line.head? = some ' ')
    (w : List.Forall₂ written items parts) : ∀ line ∈ parts.flatten, line.head? = some ' ' := by
  induction w with
  | nil => intro line hl; cases hl
  | @cons item part items parts hw _ ih =>
    intro line hl
    rw [List.flatten_cons, List.mem_append] at hl
    rcases hl with hl | hl
    · exact h item _ hw line hl
    · exact ih line hl

theorem forall₂_space {α : Type} {written : α → Text → Prop} {items : List α} {lines : List Text}
    (h : ∀ item line, written item line → line.head? = some ' ')
    (w : List.Forall₂ written items lines) : ∀ line ∈ lines, line.head? = some ' ' := by
  induction w with
  | nil => intro l hl; cases hl
  | @cons item line items lines hw _ ih =>
    intro l hl
    rcases List.mem_cons.1 hl with rfl | hl
    · exact h item _ hw
    · exact ih l hl

theorem item_space (R : Reads CR L) (item : ColumnItem) (lines : List Text) (w : item.Written L lines) :
    ∀ line ∈ lines, line.head? = some ' ' := by
  cases item with
  | marker integer =>
    obtain ⟨line, rfl, hw⟩ := w
    intro l hl
    rw [List.mem_singleton.1 hl]
    exact R.markerSpace hw
  | column b => exact forall₂_space (fun l line h => R.entriesSpace h) w

theorem boundsTail (R : Reads CR L) {blocks : Option (List (Block BoundLine))} {lines : List Text}
    (w : SectionWritten "BOUNDS".toList (BoundLine.Written L) blocks lines) (hs : Separate (blocks.getD []))
    (hg : ∀ b ∈ blocks.getD [], ∀ l ∈ b.lines, ∀ n ∈ l.bound.number, GoodNumber n) :
    ∃ sec rest, Header (lines ++ ["ENDATA".toList]) sec rest ∧ (sec = .bounds ∨ sec = .endata) ∧
      ∀ columns, (if sec = .bounds then parseBoundsSection CR columns rest ⟨[], [], none⟩ else .ok ([], rest)) =
        runBounds columns blocks >>= fun b => .ok (b, []) := by
  cases blocks with
  | none =>
    rw [show lines = [] from w]
    exact ⟨.endata, [], header_endata, Or.inr rfl, fun _ => rfl⟩
  | some blocks =>
    obtain ⟨rest, rfl, parts, hp, rfl⟩ := w
    refine ⟨.bounds, parts.flatten ++ ["ENDATA".toList], ⟨_, rfl, by decide, rfl⟩, Or.inl rfl, fun columns => ?_⟩
    rw [if_pos rfl, parseBoundsSection_eq
      (allWritten_space (fun b ls h => forall₂_space (fun l line h => R.boundSpace h) h) hp) (by decide)
      (sec := .endata) rfl, boundBlocks_eq R hp hg hs _ (fun b _ => by simp)]
    unfold runBounds
    simp only [bind_assoc]
    rfl

theorem groupTail (R : Reads CR L) {hd : Text} {S : Section} (hd1 : hd.head? ≠ some ' ')
    (hd2 : Section.fromStr hd = .ok S) {valid : List Section} {T : List Text} {sec : Section} {rest : List Text}
    (hT : Header T sec rest) (hv : sec = .endata ∨ sec ∈ valid) (hne : sec ≠ S)
    {blocks : Option (List (Block EntryLine))} {lines : List Text}
    (w : SectionWritten hd (EntryLine.Written L) blocks lines) (hs : Separate (blocks.getD []))
    (hg : ∀ b ∈ blocks.getD [], ∀ e ∈ b.entries, GoodNumber e.number) :
    ∃ sec' rest', Header (lines ++ T) sec' rest' ∧ (sec' = S ∨ sec' = sec) ∧
      ∀ rows, (if sec' = S then parseOptionalSection CR valid rows rest' ⟨[], [], none⟩
          else .ok ([], sec', rest')) =
        runGroups rows blocks >>= fun g => .ok (g, sec, rest) := by
  cases blocks with
  | none =>
    rw [show lines = [] from w]
    refine ⟨sec, rest, hT, Or.inr rfl, fun _ => ?_⟩
    rw [if_neg hne]
    rfl
  | some blocks =>
    obtain ⟨ls, rfl, parts, hp, rfl⟩ := w
    refine ⟨S, parts.flatten ++ T, ⟨_, rfl, hd1, hd2⟩, Or.inl rfl, fun rows => ?_⟩
    obtain ⟨h, rfl, hh, hf⟩ := hT
    rw [if_pos rfl, parseOptionalSection_eq
      (allWritten_space (fun b ls h => forall₂_space (fun l line h => R.entriesSpace h) h) hp) hh
      (tryParse_eq hf hv), valueBlocks_eq R hp hg hs _ (fun b _ => by simp)]
    unfold runGroups
    simp only [bind_assoc]
    rfl

theorem columnsPart (R : Reads CR L) {T : List Text} {sec : Section} {rest : List Text} (hT : Header T sec rest)
    (hv : sec = .endata ∨ sec ∈ [Section.rhs, .ranges, .bounds]) {items : List ColumnItem} {lines : List Text}
    (w : AllWritten (ColumnItem.Written L) items lines) (hg : ∀ item ∈ items, GoodItem item)
    (hc : items.IsChain fun a b => ∀ c d, a = .column c → b = .column d → c.name ≠ d.name) (cost : Text)
    (rows : List Row) :
    parseColumnSection CR cost rows (lines ++ T) ⟨[], [], [], none, .continuous⟩ =
      items.foldlM (runItem cost rows) ⟨[], [], [], none, .continuous⟩ >>= fun s =>
        saveToColumnCollector none s >>= fun s => .ok (s.collector, s.costValuesCollector, sec, rest) := by
  obtain ⟨parts, hp, rfl⟩ := w
  obtain ⟨h, rfl, hh, hf⟩ := hT
  rw [parseColumnSection_eq (allWritten_space (item_space R) hp) hh (tryParse_eq hf hv),
    items_eq R hp hg hc _ (fun _ _ b _ => by simp)]

theorem senseWritten_eq {sense : Option Objective} {lines : List Text} (w : SenseWritten sense lines)
    (rest : List Text) : parseObjsenseSection (lines ++ rest) = .ok (sense.getD .minimize, rest) := by
  have t1 : ∀ k, trimEnd ("ROWS".toList ++ spaces k) = "ROWS".toList := fun k => by
    rw [trimEnd_spaces]; decide
  have t2 : ∀ k, trimEnd ("OBJSENSE".toList ++ spaces k) = "OBJSENSE".toList := fun k => by
    rw [trimEnd_spaces]; decide
  cases sense with
  | none =>
    obtain ⟨k, rfl⟩ := w
    show parseObjsenseSection (_ :: rest) = _
    unfold parseObjsenseSection
    exact if_pos (t1 k)
  | some sense =>
    obtain ⟨k, l, m, word, rfl, hw⟩ := w
    show parseObjsenseSection (_ :: _ :: _ :: rest) = _
    unfold parseObjsenseSection
    simp only
    rw [t2, if_neg (by decide), if_pos rfl]
    have h4 : ("ROWS".toList ++ spaces m).take 4 = "ROWS".toList := rfl
    rw [if_neg (by rw [h4]; simp), trimEnd_spaces]
    cases sense with
    | minimize =>
      rcases hw with rfl | rfl
      · rw [if_pos (by decide)]; rfl
      · rw [if_pos (by decide)]; rfl
    | maximize =>
      rcases hw with rfl | rfl
      · rw [if_neg (by decide), if_pos (by decide)]; rfl
      · rw [if_neg (by decide), if_pos (by decide)]; rfl

theorem name_eq (R : Reads CR L) {text name : Text} {more : List Text} (w : Words text (name :: more))
    (rest : List Text) : parseProgramName CR (("NAME".toList ++ text) :: rest) = .ok (name, rest) := by
  have ha : Ascii "NAME".toList := by unfold Ascii; decide
  have hl : ("NAME".toList).length = 4 := rfl
  rw [parseProgramName, if_neg (by have := byteLength_ge ha text; omega)]
  have h1 := takeBytes_append ha text
  have h2 := dropBytes_append ha text
  rw [hl] at h1 h2
  rw [h1, ok_bind, if_pos rfl, h2, ok_bind, R.name w]
  rfl

theorem mem_blocks {F : File} {b : Block EntryLine} (h : ColumnItem.column b ∈ F.columns) : b ∈ F.blocks :=
  List.mem_filterMap.2 ⟨_, h, rfl⟩

theorem parseOptionalSections_eq (rows : List Row) (columns : List Column) (sec : Section) (lines : List Text) :
    parseOptionalSections CR rows columns sec lines =
      (if sec = .rhs then parseOptionalSection CR [.ranges, .bounds] rows lines ⟨[], [], none⟩
        else .ok ([], sec, lines)) >>= fun x =>
      (if x.2.1 = .ranges then parseOptionalSection CR [.bounds] rows x.2.2 ⟨[], [], none⟩
        else .ok ([], x.2.1, x.2.2)) >>= fun y =>
      checkRangesConsistency y.1 >>= fun _ =>
      (if y.2.1 = .bounds then parseBoundsSection CR columns y.2.2 ⟨[], [], none⟩ else .ok ([], y.2.2)) >>= fun z =>
      .ok (x.1, y.1, z.1, z.2) := by
  unfold parseOptionalSections
  have key : ∀ x : List (Listing ℚ) × Section × List Text,
      (if x.2.1 = .ranges then
        parseOptionalSection CR [.bounds] rows x.2.2 ⟨[], [], none⟩ >>= fun y =>
          checkRangesConsistency y.1 >>= fun _ =>
          if y.2.1 = .bounds then
            parseBoundsSection CR columns y.2.2 ⟨[], [], none⟩ >>= fun z => pure (x.1, y.1, z.1, z.2)
          else Except.ok ([], y.2.2) >>= fun z => pure (x.1, y.1, z.1, z.2)
      else Except.ok ([], x.2.1, x.2.2) >>= fun y =>
          checkRangesConsistency y.1 >>= fun _ =>
          if y.2.1 = .bounds then
            parseBoundsSection CR columns y.2.2 ⟨[], [], none⟩ >>= fun z => pure (x.1, y.1, z.1, z.2)
          else Except.ok ([], y.2.2) >>= fun z => pure (x.1, y.1, z.1, z.2)) =
      (if x.2.1 = .ranges then parseOptionalSection CR [.bounds] rows x.2.2 ⟨[], [], none⟩
        else .ok ([], x.2.1, x.2.2)) >>= fun y =>
      checkRangesConsistency y.1 >>= fun _ =>
      (if y.2.1 = .bounds then parseBoundsSection CR columns y.2.2 ⟨[], [], none⟩ else .ok ([], y.2.2)) >>= fun z =>
      .ok (x.1, y.1, z.1, z.2) := by
    intro x
    split
    · refine bind_congr_ok fun y _ => bind_congr_ok fun _ _ => ?_
      split <;> rfl
    · refine bind_congr_ok fun y _ => bind_congr_ok fun _ _ => ?_
      split <;> rfl
  simp only [← key]
  split <;> rfl

/-- Parsing the lines of a file is running through its contents. -/
theorem parseLines_written (R : Reads CR L) {F : File} {lines : List Text} (w : F.Written L lines) (hp : F.Proper) :
    parseLines CR lines = runFile F := by
  obtain ⟨name, more, sense, rows, columns, rhs, ranges, bounds, rfl, w1, w2, w3, w4, w5, w6, w7⟩ := w
  have hnum : ∀ n ∈ F.numerals, GoodNumber n := hp.numbers
  have hentries : ∀ b ∈ F.blocks ++ F.rhs.getD [] ++ F.ranges.getD [], ∀ e ∈ b.entries, GoodNumber e.number :=
    fun b hb e he => hnum _ (List.mem_append_left _ (List.mem_flatMap.2 ⟨b, hb, List.mem_map.2 ⟨e, he, rfl⟩⟩))
  have hbounds : ∀ b ∈ F.bounds.getD [], ∀ l ∈ b.lines, ∀ n ∈ l.bound.number, GoodNumber n :=
    fun b hb l hl n hn => hnum _ (List.mem_append_right _ (List.mem_flatMap.2 ⟨b, hb,
      List.mem_filterMap.2 ⟨l, hl, hn⟩⟩))
  obtain ⟨sec1, rest1, t1, v1, e1⟩ := boundsTail R w7 hp.bounds hbounds
  obtain ⟨sec2, rest2, t2, v2, e2⟩ := groupTail R (S := .ranges) (valid := [.bounds]) (by decide) rfl t1
    (by rcases v1 with rfl | rfl <;> simp) (by rcases v1 with rfl | rfl <;> simp) w6 hp.ranges
    (fun b hb => hentries b (by simp [hb]))
  obtain ⟨sec3, rest3, t3, v3, e3⟩ := groupTail R (S := .rhs) (valid := [.ranges, .bounds]) (by decide) rfl t2
    (by rcases v2 with rfl | rfl <;> rcases v1 with rfl | rfl <;> simp)
    (by rcases v2 with rfl | rfl <;> rcases v1 with rfl | rfl <;> simp) w5 hp.rhs
    (fun b hb => hentries b (by simp [hb]))
  have hlines : ("NAME".toList ++ name) :: (sense ++ rows ++ ["COLUMNS".toList] ++ columns ++ rhs ++ ranges ++
      bounds ++ ["ENDATA".toList]) = ("NAME".toList ++ name) :: (sense ++ (rows ++ "COLUMNS".toList ::
        (columns ++ (rhs ++ (ranges ++ (bounds ++ ["ENDATA".toList])))))) := by simp
  rw [hlines]
  unfold parseLines runFile
  rw [name_eq R w1, ok_bind]
  simp only
  rw [senseWritten_eq w2, ok_bind]
  simp only
  rw [parseRowSection_eq R w3, bind_assoc]
  refine bind_congr_ok fun r _ => ?_
  rw [ok_bind]
  refine bind_congr_ok fun c _ => ?_
  rw [columnsPart R t3 (by rcases v3 with rfl | rfl <;> rcases v2 with rfl | rfl <;> rcases v1 with rfl | rfl <;> simp)
    w4 (fun item hi b hb => by
      subst hb
      have := mem_blocks hi
      exact ⟨hp.columns.1 b this, hentries b (by simp [this]), hp.reserved b this⟩) hp.columns.2]
  simp only [bind_assoc]
  refine bind_congr_ok fun s _ => ?_
  refine bind_congr_ok fun s _ => ?_
  rw [ok_bind]
  simp only
  rw [parseOptionalSections_eq, e3]
  simp only [bind_assoc]
  refine bind_congr_ok fun rhss _ => ?_
  rw [ok_bind]
  simp only
  rw [e2]
  simp only [bind_assoc]
  refine bind_congr_ok fun rng _ => ?_
  rw [ok_bind]
  simp only
  refine bind_congr_ok fun _ _ => ?_
  rw [e1, bind_assoc]
  refine bind_congr_ok fun b _ => ?_
  rfl

end

end Relp.Mps
