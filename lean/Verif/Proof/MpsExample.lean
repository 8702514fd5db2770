import Verif.Proof.MpsEnd

/-!
# An MPS file in both formats, as example
-/

namespace Relp

namespace Mps

open Spec

namespace Example

/-- ```
minimise x - 2 y + 3 z
2 ≤ x + y ≤ 6, y + z ≤ 5, x - z = 1
x ≥ 0, x ≤ 4, y free, -1 ≤ z ≤ 8, z integer
``` -/
def file : File where
  name := "EXAMPLE".toList
  sense := none
  rows := [(none, "COST".toList), (some .less, "R2".toList), (some .greater, "R1".toList), (some .equal, "R3".toList)]
  columns := [
    .column ⟨"X".toList, [⟨⟨"COST".toList, ⟨false, [1], none⟩⟩, some ⟨"R1".toList, ⟨false, [1], some [0]⟩⟩⟩,
      ⟨⟨"R3".toList, ⟨false, [1], none⟩⟩, none⟩]⟩,
    .column ⟨"Y".toList, [⟨⟨"COST".toList, ⟨true, [2], none⟩⟩, some ⟨"R1".toList, ⟨false, [1], none⟩⟩⟩,
      ⟨⟨"R2".toList, ⟨false, [1], none⟩⟩, none⟩]⟩,
    .marker true,
    .column ⟨"Z".toList, [⟨⟨"COST".toList, ⟨false, [3], none⟩⟩, some ⟨"R2".toList, ⟨false, [1], none⟩⟩⟩,
      ⟨⟨"R3".toList, ⟨true, [1], none⟩⟩, none⟩]⟩,
    .marker false]
  rhs := some [⟨"RHS".toList, [⟨⟨"R1".toList, ⟨false, [2], none⟩⟩, some ⟨"R2".toList, ⟨false, [5], none⟩⟩⟩,
    ⟨⟨"R3".toList, ⟨false, [1], none⟩⟩, none⟩]⟩]
  ranges := some [⟨"RNG".toList, [⟨⟨"R1".toList, ⟨false, [4], none⟩⟩, none⟩]⟩]
  bounds := some [⟨"BND".toList, [⟨.up ⟨false, [4], none⟩, "X".toList⟩, ⟨.fr, "Y".toList⟩,
    ⟨.lo ⟨true, [1], none⟩, "Z".toList⟩, ⟨.up ⟨false, [8], none⟩, "Z".toList⟩]⟩]

/-- The file in the free format. -/
def freeSource : List Text :=
  ["* Comment".toList,
    "NAME   EXAMPLE   FREE".toList,
    "".toList,
    "ROWS".toList,
    " N COST".toList,
    " L R2".toList,
    " G R1".toList,
    " E R3".toList,
    "COLUMNS".toList,
    " X COST 1 R1 1.0".toList,
    " X R3 1".toList,
    " Y COST -2 R1 1".toList,
    " Y R2 1".toList,
    " M1 'MARKER' 'INTORG'".toList,
    " Z COST 3 R2 1".toList,
    "   * Another comment".toList,
    " Z R3 -1".toList,
    " M2 'MARKER' 'INTEND'".toList,
    "RHS".toList,
    " RHS R1 2 R2 5".toList,
    " RHS R3 1".toList,
    "RANGES".toList,
    " RNG R1 4".toList,
    "BOUNDS".toList,
    " UP BND X 4".toList,
    " FR BND Y".toList,
    " LO BND Z -1".toList,
    " UP BND Z 8".toList,
    "ENDATA".toList]

/-- The file in the fixed format. -/
def fixedSource : List Text :=
  ["NAME          EXAMPLE".toList,
    "ROWS".toList,
    " N  COST".toList,
    " L  R2".toList,
    " G  R1".toList,
    " E  R3".toList,
    "COLUMNS".toList,
    "    X         COST                 1   R1                 1.0".toList,
    "    X         R3                   1".toList,
    "    Y         COST                -2   R1                   1".toList,
    "    Y         R2                   1".toList,
    "    M1        'MARKER'                 'INTORG'".toList,
    "    Z         COST                 3   R2                   1".toList,
    "    Z         R3                  -1".toList,
    "    M2        'MARKER'                 'INTEND'".toList,
    "RHS".toList,
    "    RHS       R1                   2   R2                   5".toList,
    "    RHS       R3                   1".toList,
    "RANGES".toList,
    "    RNG       R1                   4".toList,
    "BOUNDS".toList,
    " UP BND       X                    4".toList,
    " FR BND       Y       ".toList,
    " LO BND       Z                   -1".toList,
    " UP BND       Z                    8".toList,
    "ENDATA".toList]

/-- A text with these lines. -/
def unlines (ls : List Text) : Text := ls.flatMap fun line => line ++ ['\n']

theorem contents_unlines (ls : List Text) (h : ∀ line ∈ ls, '\n' ∉ line ∧ line.getLast? ≠ some '\r') :
    Contents (unlines ls) (ls.filter keep) := by
  induction ls with
  | nil => exact .nil
  | cons line ls ih =>
    obtain ⟨h1, h2⟩ := List.forall_mem_cons.1 h
    have e : unlines (line :: ls) = line ++ '\n' :: unlines ls := by simp [unlines]
    rw [e]
    by_cases hk : keep line = true
    · rw [List.filter_cons_of_pos hk]
      rw [keep_iff] at hk
      exact .line h1.1 h1.2 hk.1 hk.2 (ih h2)
    · rw [List.filter_cons_of_neg hk]
      rw [keep_iff, not_and, not_not] at hk
      refine .comment h1.1 ?_ (ih h2)
      by_cases he : line = []
      · exact Or.inl he
      · exact Or.inr (Or.inr (hk he))

/-- The lines of `freeSource` that count. -/
def freeLines : List Text := freeSource.filter keep

/-- The lines of `fixedSource` that count. -/
def fixedLines : List Text := fixedSource.filter keep

theorem freeText_contents : Contents (unlines freeSource) freeLines := contents_unlines _ (by decide +kernel)

theorem fixedText_contents : Contents (unlines fixedSource) fixedLines := contents_unlines _ (by decide +kernel)

theorem words_of {t : Text} {words : List Text} (h : splitWhitespace t = words) : Words t words :=
  h ▸ words_splitWhitespace t

theorem line_of {t : Text} {words : List Text} (h : t.head? = some ' ' ∧ splitWhitespace t = words) :
    t.head? = some ' ' ∧ Words t words := ⟨h.1, words_of h.2⟩

theorem isName_of {n : ℕ} {word : Text} (h : (∀ c ∈ word, c.toNat < 128) ∧
    (∀ c ∈ word.getLast?, ¬isWhitespace c) ∧ word.length ≤ n) : IsName n word :=
  ⟨h.1, fun c hc => h.2.1 c hc, h.2.2⟩

theorem isFigure_of {n : ℕ} {word : Text} (h : (∀ c ∈ word, c.toNat < 128) ∧
    (∀ c ∈ word.head?, ¬isWhitespace c) ∧ word.length ≤ n) : IsFigure n word :=
  ⟨h.1, fun c hc => h.2.1 c hc, h.2.2⟩

theorem freeEntries {name : Text} {first : Text × Text} {second : Option (Text × Text)} {line : Text}
    (h : line.head? = some ' ' ∧ splitWhitespace line = [name, first.1, first.2] ++ match second with
      | some second => [second.1, second.2]
      | none => []) : freeLayout.entries name first second line := ⟨h.1, words_of h.2⟩

theorem freeText_written : file.Written freeLayout freeLines := by
  refine ⟨"   EXAMPLE   FREE".toList, ["FREE".toList], ["ROWS".toList],
    [" N COST".toList, " L R2".toList, " G R1".toList, " E R3".toList],
    [" X COST 1 R1 1.0".toList, " X R3 1".toList, " Y COST -2 R1 1".toList, " Y R2 1".toList,
      " M1 'MARKER' 'INTORG'".toList, " Z COST 3 R2 1".toList, " Z R3 -1".toList, " M2 'MARKER' 'INTEND'".toList],
    ["RHS".toList, " RHS R1 2 R2 5".toList, " RHS R3 1".toList], ["RANGES".toList, " RNG R1 4".toList],
    ["BOUNDS".toList, " UP BND X 4".toList, " FR BND Y".toList, " LO BND Z -1".toList, " UP BND Z 8".toList],
    by decide +kernel, words_of (by decide +kernel), ⟨0, rfl⟩, ?_, ?_, ?_, ?_, ?_⟩
  · exact .cons (line_of (by decide +kernel)) <| .cons (line_of (by decide +kernel)) <|
      .cons (line_of (by decide +kernel)) <| .cons (line_of (by decide +kernel)) .nil
  · refine ⟨[[" X COST 1 R1 1.0".toList, " X R3 1".toList], [" Y COST -2 R1 1".toList, " Y R2 1".toList],
      [" M1 'MARKER' 'INTORG'".toList], [" Z COST 3 R2 1".toList, " Z R3 -1".toList],
      [" M2 'MARKER' 'INTEND'".toList]], ?_, rfl⟩
    exact .cons (.cons (freeEntries (by decide +kernel)) (.cons (freeEntries (by decide +kernel)) .nil)) <|
      .cons (.cons (freeEntries (by decide +kernel)) (.cons (freeEntries (by decide +kernel)) .nil)) <|
      .cons ⟨_, rfl, by decide +kernel, "M1".toList, words_of (by decide +kernel)⟩ <|
      .cons (.cons (freeEntries (by decide +kernel)) (.cons (freeEntries (by decide +kernel)) .nil)) <|
      .cons ⟨_, rfl, by decide +kernel, "M2".toList, words_of (by decide +kernel)⟩ .nil
  · exact ⟨_, rfl, [[" RHS R1 2 R2 5".toList, " RHS R3 1".toList]],
      .cons (.cons (freeEntries (by decide +kernel)) (.cons (freeEntries (by decide +kernel)) .nil)) .nil, rfl⟩
  · exact ⟨_, rfl, [[" RNG R1 4".toList]], .cons (.cons (freeEntries (by decide +kernel)) .nil) .nil, rfl⟩
  · refine ⟨_, rfl, [[" UP BND X 4".toList, " FR BND Y".toList, " LO BND Z -1".toList, " UP BND Z 8".toList]],
      .cons ?_ .nil, rfl⟩
    exact .cons ⟨by decide +kernel, [], words_of (by decide +kernel)⟩ <|
      .cons ⟨by decide +kernel, [], words_of (by decide +kernel)⟩ <|
      .cons ⟨by decide +kernel, [], words_of (by decide +kernel)⟩ <|
      .cons ⟨by decide +kernel, [], words_of (by decide +kernel)⟩ .nil

theorem fixedRow {type name line : Text} (k : ℕ) (h : (∀ c ∈ type, c.toNat < 128) ∧
    (∀ c ∈ type.getLast?, ¬isWhitespace c) ∧ type.length ≤ 2) (h' : (∀ c ∈ name, c.toNat < 128) ∧
    (∀ c ∈ name.getLast?, ¬isWhitespace c) ∧ name.length ≤ 8) (hn : name ≠ [] ∧
    line = spaces 1 ++ left 2 type ++ spaces 1 ++ name ++ spaces k) : fixedLayout.row type name line :=
  ⟨isName_of h, isName_of h', hn.1, k, hn.2⟩

theorem fixedOne {name : Text} {first : Text × Text} {line : Text}
    (h1 : (∀ c ∈ name, c.toNat < 128) ∧ (∀ c ∈ name.getLast?, ¬isWhitespace c) ∧ name.length ≤ 8)
    (h2 : (∀ c ∈ first.1, c.toNat < 128) ∧ (∀ c ∈ first.1.getLast?, ¬isWhitespace c) ∧ first.1.length ≤ 8)
    (h3 : (∀ c ∈ first.2, c.toNat < 128) ∧ (∀ c ∈ first.2.head?, ¬isWhitespace c) ∧ first.2.length ≤ 12)
    (h : line = spaces 4 ++ left 8 name ++ spaces 2 ++ left 8 first.1 ++ spaces 2 ++ right 12 first.2 ++ []) :
    fixedLayout.entries name first none line :=
  ⟨isName_of h1, isName_of h2, isFigure_of h3, [], h, 0, rfl⟩

theorem fixedTwo {name : Text} {first second : Text × Text} {line : Text}
    (h1 : (∀ c ∈ name, c.toNat < 128) ∧ (∀ c ∈ name.getLast?, ¬isWhitespace c) ∧ name.length ≤ 8)
    (h2 : (∀ c ∈ first.1, c.toNat < 128) ∧ (∀ c ∈ first.1.getLast?, ¬isWhitespace c) ∧ first.1.length ≤ 8)
    (h3 : (∀ c ∈ first.2, c.toNat < 128) ∧ (∀ c ∈ first.2.head?, ¬isWhitespace c) ∧ first.2.length ≤ 12)
    (h4 : (∀ c ∈ second.1, c.toNat < 128) ∧ (∀ c ∈ second.1.getLast?, ¬isWhitespace c) ∧ second.1.length ≤ 8)
    (h5 : (∀ c ∈ second.2, c.toNat < 128) ∧ (∀ c ∈ second.2.head?, ¬isWhitespace c) ∧ second.2.length ≤ 12)
    (h : line = spaces 4 ++ left 8 name ++ spaces 2 ++ left 8 first.1 ++ spaces 2 ++ right 12 first.2 ++
      (spaces 3 ++ left 8 second.1 ++ spaces 2 ++ right 12 second.2 ++ []) ∧ second.1 ≠ [] ∧ second.2 ≠ []) :
    fixedLayout.entries name first (some second) line :=
  ⟨isName_of h1, isName_of h2, isFigure_of h3, _, h.1, isName_of h4, h.2.1, isFigure_of h5, h.2.2, [], rfl⟩

theorem fixedMarker {kind line : Text} (name : Text)
    (h1 : (∀ c ∈ name, c.toNat < 128) ∧ (∀ c ∈ name.getLast?, ¬isWhitespace c) ∧ name.length ≤ 8)
    (h2 : (∀ c ∈ kind, c.toNat < 128) ∧ (∀ c ∈ kind.getLast?, ¬isWhitespace c) ∧ kind.length ≤ 8)
    (h : line = spaces 4 ++ left 8 name ++ spaces 2 ++ "'MARKER'".toList ++ spaces 17 ++ left 8 kind ++ []) :
    fixedLayout.marker kind line :=
  ⟨isName_of h2, name, [], isName_of h1, h⟩

theorem fixedBound {type group column number line : Text}
    (h1 : (∀ c ∈ type, c.toNat < 128) ∧ (∀ c ∈ type.getLast?, ¬isWhitespace c) ∧ type.length ≤ 2)
    (h2 : (∀ c ∈ group, c.toNat < 128) ∧ (∀ c ∈ group.getLast?, ¬isWhitespace c) ∧ group.length ≤ 8)
    (h3 : (∀ c ∈ column, c.toNat < 128) ∧ (∀ c ∈ column.getLast?, ¬isWhitespace c) ∧ column.length ≤ 8)
    (h4 : (∀ c ∈ number, c.toNat < 128) ∧ (∀ c ∈ number.head?, ¬isWhitespace c) ∧ number.length ≤ 12)
    (h : line = spaces 1 ++ left 2 type ++ spaces 1 ++ left 8 group ++ spaces 2 ++ left 8 column ++
      (spaces 2 ++ right 12 number ++ [])) : fixedLayout.bound type group column (some number) line :=
  ⟨isName_of h1, isName_of h2, isName_of h3, _, h, isFigure_of h4, [], rfl⟩

theorem fixedBoundOnly {type group column line : Text}
    (h1 : (∀ c ∈ type, c.toNat < 128) ∧ (∀ c ∈ type.getLast?, ¬isWhitespace c) ∧ type.length ≤ 2)
    (h2 : (∀ c ∈ group, c.toNat < 128) ∧ (∀ c ∈ group.getLast?, ¬isWhitespace c) ∧ group.length ≤ 8)
    (h3 : (∀ c ∈ column, c.toNat < 128) ∧ (∀ c ∈ column.getLast?, ¬isWhitespace c) ∧ column.length ≤ 8)
    (h : line = spaces 1 ++ left 2 type ++ spaces 1 ++ left 8 group ++ spaces 2 ++ left 8 column ++ []) :
    fixedLayout.bound type group column none line :=
  ⟨isName_of h1, isName_of h2, isName_of h3, _, h, trivial⟩

/-- The lines of the section of columns. -/
def fixedColumns : List (List Text) :=
  [["    X         COST                 1   R1                 1.0".toList, "    X         R3                   1".toList],
    ["    Y         COST                -2   R1                   1".toList, "    Y         R2                   1".toList],
    ["    M1        'MARKER'                 'INTORG'".toList],
    ["    Z         COST                 3   R2                   1".toList, "    Z         R3                  -1".toList],
    ["    M2        'MARKER'                 'INTEND'".toList]]

theorem fixedColumns_written : AllWritten (ColumnItem.Written fixedLayout) file.columns fixedColumns.flatten := by
  refine ⟨fixedColumns, ?_, rfl⟩
  refine .cons (.cons ?_ (.cons ?_ .nil)) (.cons (.cons ?_ (.cons ?_ .nil)) (.cons ⟨_, rfl, ?_⟩
    (.cons (.cons ?_ (.cons ?_ .nil)) (.cons ⟨_, rfl, ?_⟩ .nil))))
  · exact fixedTwo (by decide +kernel) (by decide +kernel) (by decide +kernel) (by decide +kernel)
      (by decide +kernel) (by decide +kernel)
  · exact fixedOne (by decide +kernel) (by decide +kernel) (by decide +kernel) (by decide +kernel)
  · exact fixedTwo (by decide +kernel) (by decide +kernel) (by decide +kernel) (by decide +kernel)
      (by decide +kernel) (by decide +kernel)
  · exact fixedOne (by decide +kernel) (by decide +kernel) (by decide +kernel) (by decide +kernel)
  · exact fixedMarker "M1".toList (by decide +kernel) (by decide +kernel) (by decide +kernel)
  · exact fixedTwo (by decide +kernel) (by decide +kernel) (by decide +kernel) (by decide +kernel)
      (by decide +kernel) (by decide +kernel)
  · exact fixedOne (by decide +kernel) (by decide +kernel) (by decide +kernel) (by decide +kernel)
  · exact fixedMarker "M2".toList (by decide +kernel) (by decide +kernel) (by decide +kernel)

/-- The lines of the section of right-hand sides. -/
def fixedRhs : List Text :=
  ["    RHS       R1                   2   R2                   5".toList, "    RHS       R3                   1".toList]

theorem fixedRhs_written :
    SectionWritten "RHS".toList (EntryLine.Written fixedLayout) file.rhs ("RHS".toList :: fixedRhs) := by
  refine ⟨_, rfl, [fixedRhs], .cons (.cons ?_ (.cons ?_ .nil)) .nil, rfl⟩
  · exact fixedTwo (by decide +kernel) (by decide +kernel) (by decide +kernel) (by decide +kernel)
      (by decide +kernel) (by decide +kernel)
  · exact fixedOne (by decide +kernel) (by decide +kernel) (by decide +kernel) (by decide +kernel)

/-- The lines of the section of ranges. -/
def fixedRanges : List Text := ["    RNG       R1                   4".toList]

theorem fixedRanges_written :
    SectionWritten "RANGES".toList (EntryLine.Written fixedLayout) file.ranges ("RANGES".toList :: fixedRanges) := by
  refine ⟨_, rfl, [fixedRanges], .cons (.cons ?_ .nil) .nil, rfl⟩
  · exact fixedOne (by decide +kernel) (by decide +kernel) (by decide +kernel) (by decide +kernel)

/-- The lines of the section of bounds. -/
def fixedBounds : List Text :=
  [" UP BND       X                    4".toList, " FR BND       Y       ".toList,
    " LO BND       Z                   -1".toList, " UP BND       Z                    8".toList]

theorem fixedBounds_written :
    SectionWritten "BOUNDS".toList (BoundLine.Written fixedLayout) file.bounds ("BOUNDS".toList :: fixedBounds) := by
  refine ⟨_, rfl, [fixedBounds], .cons (.cons ?_ (.cons ?_ (.cons ?_ (.cons ?_ .nil)))) .nil, rfl⟩
  · exact fixedBound (by decide +kernel) (by decide +kernel) (by decide +kernel) (by decide +kernel) (by decide +kernel)
  · exact fixedBoundOnly (by decide +kernel) (by decide +kernel) (by decide +kernel) (by decide +kernel)
  · exact fixedBound (by decide +kernel) (by decide +kernel) (by decide +kernel) (by decide +kernel) (by decide +kernel)
  · exact fixedBound (by decide +kernel) (by decide +kernel) (by decide +kernel) (by decide +kernel) (by decide +kernel)

/-- The lines of the section of rows. -/
def fixedRows : List Text := [" N  COST".toList, " L  R2".toList, " G  R1".toList, " E  R3".toList]

theorem fixedRows_written :
    List.Forall₂ (fun row line => fixedLayout.row (rowCode row.1) row.2 line) file.rows fixedRows := by
  refine .cons ?_ (.cons ?_ (.cons ?_ (.cons ?_ .nil))) <;>
    exact fixedRow 0 (by decide +kernel) (by decide +kernel) (by decide +kernel)

theorem fixedLines_eq : fixedLines = ("NAME".toList ++ "          EXAMPLE".toList) :: (["ROWS".toList] ++ fixedRows ++
    ["COLUMNS".toList] ++ fixedColumns.flatten ++ ("RHS".toList :: fixedRhs) ++ ("RANGES".toList :: fixedRanges) ++
    ("BOUNDS".toList :: fixedBounds) ++ ["ENDATA".toList]) := by decide +kernel

theorem fixedText_written : file.Written fixedLayout fixedLines :=
  ⟨"          EXAMPLE".toList, [], ["ROWS".toList], fixedRows, fixedColumns.flatten, "RHS".toList :: fixedRhs,
    "RANGES".toList :: fixedRanges, "BOUNDS".toList :: fixedBounds, fixedLines_eq,
    words_of (by decide +kernel), ⟨0, rfl⟩, fixedRows_written, fixedColumns_written, fixedRhs_written,
    fixedRanges_written, fixedBounds_written⟩

theorem ne_nil_of {α : Type} {blocks : List (Block α)} (h : ∀ b ∈ blocks, b.lines.length ≠ 0) :
    ∀ b ∈ blocks, b.lines ≠ [] := fun b hb he => h b hb (by rw [he]; rfl)

theorem file_proper : file.Proper where
  columns := by
    refine ⟨?_, ?_⟩
    · exact ne_nil_of (by decide +kernel)
    · refine .cons_cons ?_ (.cons_cons ?_ (.cons_cons ?_ (.cons_cons ?_ (.singleton _))))
      all_goals
        rintro c d h1 h2
        first | (cases h1; cases h2; decide +kernel) | (cases h1; cases h2) | cases h1
  rhs := ⟨ne_nil_of (by decide +kernel), .singleton _⟩
  ranges := ⟨ne_nil_of (by decide +kernel), .singleton _⟩
  bounds := ⟨ne_nil_of (by decide +kernel), .singleton _⟩
  numbers := by decide +kernel
  reserved := by
    have : ∀ row ∈ file.blocks.flatMap (fun b => b.entries.map (·.row)), row ≠ "'MARKER'".toList := by decide +kernel
    intro b hb e he
    exact this _ (List.mem_flatMap.2 ⟨b, hb, List.mem_map.2 ⟨e, he, rfl⟩⟩)

theorem isConstraint_of {F : File} {name : Text}
    (h : name ∈ (F.rows.filter fun row => row.1.isSome).map (·.2)) : F.IsConstraint name := by
  obtain ⟨⟨relation, n⟩, h1, rfl⟩ := List.mem_map.1 h
  obtain ⟨h1, h2⟩ := List.mem_filter.1 h1
  obtain ⟨relation, rfl⟩ := Option.isSome_iff_exists.1 h2
  exact ⟨relation, h1⟩

theorem file_consistent : file.Consistent where
  cost := by decide +kernel
  rows := by decide +kernel
  columns b hb := by
    have h1 : ∀ b ∈ file.blocks, ∀ e ∈ b.entries.filter fun e => (none, e.row) ∉ file.rows,
      e.row ∈ (file.rows.filter fun row => row.1.isSome).map (·.2) := by decide +kernel
    have h2 : ∀ b ∈ file.blocks,
      ((b.entries.filter fun e => (none, e.row) ∉ file.rows).map (·.row)).Nodup := by decide +kernel
    exact ⟨fun e he => isConstraint_of (h1 b hb e he), h2 b hb⟩
  rhs b hb := by
    have h1 : ∀ b ∈ file.rhs.getD [], ∀ e ∈ b.entries,
      e.row ∈ (file.rows.filter fun row => row.1.isSome).map (·.2) := by decide +kernel
    have h2 : ∀ b ∈ file.rhs.getD [], (b.entries.map (·.row)).Nodup := by decide +kernel
    exact ⟨fun e he => isConstraint_of (h1 b hb e he), h2 b hb⟩
  ranges := by
    have h1 : ∀ e ∈ (file.ranges.getD []).flatMap Block.entries,
      e.row ∈ (file.rows.filter fun row => row.1.isSome).map (·.2) := by decide +kernel
    exact ⟨fun e he => isConstraint_of (h1 e he), by decide +kernel⟩
  bounds := by decide +kernel

theorem file_sound : file.Sound where
  names := by decide +kernel
  nonzero := by
    have : ∀ b ∈ file.blocks, ∀ e ∈ b.entries, e.number.value ≠ 0 := by decide +kernel
    exact fun b hb e he _ => this b hb e he
  costs := by decide +kernel
  ranges row r relation hr _ := by
    obtain ⟨g, hg, e, he, h1, -⟩ := hr
    have h2 : ∀ g ∈ file.ranges.getD [], ∀ e ∈ g.entries, ∃ h ∈ file.rhs.getD [], ∃ d ∈ h.entries, d.row = e.row := by
      decide +kernel
    obtain ⟨h, hh, d, hd, h3⟩ := h2 g hg e he
    exact Or.inr (Or.inl ⟨_, h, hh, d, hd, h3.trans h1, rfl⟩)
  bounds b _ := by
    refine ⟨0, fun t ht => ?_, fun _ => le_refl _⟩
    obtain ⟨g, hg, l, hl, -, rfl⟩ := ht
    have h1 : ∀ g ∈ file.bounds.getD [], ∀ l ∈ g.lines,
        match l.bound with
        | .lo n => n.value ≤ 0
        | .up n => 0 ≤ n.value
        | .fr => True
        | _ => False := by
      intro g hg l hl
      have hg := List.mem_singleton.1 hg
      subst hg
      rcases List.mem_cons.1 hl with rfl | hl
      · show (0 : ℚ) ≤ Numeral.value _
        decide +kernel
      rcases List.mem_cons.1 hl with rfl | hl
      · trivial
      rcases List.mem_cons.1 hl with rfl | hl
      · show Numeral.value _ ≤ (0 : ℚ)
        decide +kernel
      have hl := List.mem_singleton.1 hl
      subst hl
      show (0 : ℚ) ≤ Numeral.value _
      decide +kernel
    have := h1 g hg l hl
    revert this
    cases l.bound <;> first | exact fun h => h | exact fun h => h.elim

/-- The program that the file describes. -/
def result : Mps where
  name := "EXAMPLE".toList
  objective := .minimize
  costRowName := "COST".toList
  costValues := [(0, 1), (1, -2), (2, 3)]
  rows := [⟨"R1".toList, .greater⟩, ⟨"R2".toList, .less⟩, ⟨"R3".toList, .equal⟩]
  columns := [⟨"X".toList, .continuous, [(0, 1), (2, 1)]⟩, ⟨"Y".toList, .continuous, [(0, 1), (1, 1)]⟩,
    ⟨"Z".toList, .integer, [(1, 1), (2, -1)]⟩]
  rhss := [⟨"RHS".toList, [(0, 2), (1, 5), (2, 1)]⟩]
  ranges := [⟨"RNG".toList, [(0, 4)]⟩]
  bounds := [⟨"BND".toList, [(0, .upperContinuous 4), (1, .free), (2, .lowerContinuous (-1)),
    (2, .upperContinuous 8)]⟩]

theorem result_parse : parseFree (unlines freeSource) = .ok result := by decide +kernel

/-- What it is converted to. -/
def resultGeneral : GeneralForm :=
  .new .minimize ⟨[[(0, 1), (2, 1)], [(0, 1), (1, 1)], [(1, 1), (2, -1)]], 3, 3⟩
    [.range 4, .less, .equal] [6, 5, 1]
    [⟨.continuous, 1, some 0, some 4, 0, false⟩, ⟨.continuous, -2, none, none, 0, false⟩,
      ⟨.integer, 3, some (-1), some 8, 0, false⟩] ["X", "Y", "Z"] 0

/-- `minimise x` with `x ≤ 1` or `x ≤ -1`, and bounds. -/
def small (negative : Bool) (bounds : Option (List (Block BoundLine))) : File where
  name := "T".toList
  sense := some .minimize
  rows := [(none, "C".toList), (some .less, "R".toList)]
  columns := [.column ⟨"X".toList, [⟨⟨"C".toList, ⟨false, [1], none⟩⟩, some ⟨"R".toList, ⟨false, [1], none⟩⟩⟩]⟩]
  rhs := some [⟨"B".toList, [⟨⟨"R".toList, ⟨negative, [1], none⟩⟩, none⟩]⟩]
  ranges := none
  bounds := bounds

/-- The file in the free format. -/
def smallLines (negative : Bool) (bounds : List Text) : List Text :=
  ["NAME T".toList, "OBJSENSE".toList, "  MIN".toList, "ROWS".toList, " N C".toList, " L R".toList, "COLUMNS".toList,
    " X C 1 R 1".toList, "RHS".toList, if negative then " B R -1".toList else " B R 1".toList] ++ bounds ++
    ["ENDATA".toList]

theorem small_written (negative : Bool) {bounds : Option (List (Block BoundLine))} {lines : List Text}
    (h : SectionWritten "BOUNDS".toList (BoundLine.Written freeLayout) bounds lines) :
    (small negative bounds).Written freeLayout (smallLines negative lines) := by
  refine ⟨" T".toList, [], ["OBJSENSE".toList, "  MIN".toList, "ROWS".toList], [" N C".toList, " L R".toList],
    [" X C 1 R 1".toList], ["RHS".toList, if negative then " B R -1".toList else " B R 1".toList], [], lines, ?_,
    words_of (words := ["T".toList]) (by decide +kernel), ⟨0, 0, 0, _, rfl, Or.inl rfl⟩, ?_, ?_, ?_, rfl, h⟩
  · rw [smallLines, List.append_nil]
    rfl
  · exact .cons (line_of (by decide +kernel)) <| .cons (line_of (by decide +kernel)) .nil
  · exact ⟨[[" X C 1 R 1".toList]], .cons (.cons (freeEntries (by decide +kernel)) .nil) .nil, rfl⟩
  · refine ⟨_, rfl, [[if negative then " B R -1".toList else " B R 1".toList]], .cons (.cons ?_ .nil) .nil, rfl⟩
    cases negative <;> exact freeEntries (by decide +kernel)

theorem small_consistent (negative : Bool) {bounds : Option (List (Block BoundLine))}
    (h : ∀ b ∈ bounds.getD [], ∀ l ∈ b.lines, l.column = "X".toList) : (small negative bounds).Consistent where
  cost := rfl
  rows := by
    show ["C".toList, "R".toList].Nodup
    decide +kernel
  columns b hb := by
    cases List.mem_singleton.1 hb
    refine ⟨fun e he => ⟨.less, ?_⟩, ?_⟩
    · have : ∀ e ∈ [(⟨"R".toList, ⟨false, [1], none⟩⟩ : Entry)],
        (some Relation.less, e.row) ∈ [(none, "C".toList), (some .less, "R".toList)] := by decide +kernel
      exact this e he
    · show List.Nodup ["R".toList]
      decide +kernel
  rhs b hb := by
    cases List.mem_singleton.1 hb
    refine ⟨fun e he => ⟨.less, ?_⟩, List.nodup_singleton _⟩
    cases List.mem_singleton.1 he
    exact List.mem_cons_of_mem _ List.mem_cons_self
  ranges := ⟨fun e he => (nomatch he), List.nodup_nil⟩
  bounds b hb l hl := by rw [h b hb l hl]; exact List.mem_cons_self

theorem small_proper (negative : Bool) {bounds : Option (List (Block BoundLine))} (h : Separate (bounds.getD []))
    (hn : ∀ b ∈ bounds.getD [], ∀ l ∈ b.lines, ∀ n, l.bound.number = some n → n.Proper ∧ n.Fits) :
    (small negative bounds).Proper where
  columns := ⟨ne_nil_of (by show ∀ b ∈ [(⟨"X".toList, _⟩ : Block EntryLine)], _; decide +kernel), .singleton _⟩
  rhs := ⟨fun b hb => by cases List.mem_singleton.1 hb; exact List.cons_ne_nil _ _, .singleton _⟩
  ranges := ⟨fun b hb => (nomatch hb), .nil⟩
  bounds := h
  numbers n hm := by
    rcases List.mem_append.1 hm with hm | hm
    · have : ∀ n ∈ [(⟨false, [1], none⟩ : Numeral), ⟨false, [1], none⟩, ⟨negative, [1], none⟩], n.Proper ∧ n.Fits := by
        cases negative <;> decide +kernel
      exact this n hm
    · obtain ⟨b, hb, hm⟩ := List.mem_flatMap.1 hm
      obtain ⟨l, hl, hm⟩ := List.mem_filterMap.1 hm
      exact hn b hb l hl n hm
  reserved := by
    have : ∀ row ∈ ["C".toList, "R".toList], row ≠ "'MARKER'".toList := by decide +kernel
    intro b hb e he
    cases List.mem_singleton.1 hb
    exact this _ (List.mem_map_of_mem (f := fun e : Entry => e.row) he)

theorem small_sound (negative : Bool) {bounds : Option (List (Block BoundLine))}
    (h : ∀ b ∈ bounds.getD [], ∀ l ∈ b.lines, l.bound.meaning.Holds 0) : (small negative bounds).Sound where
  names := List.nodup_singleton _
  nonzero b hb e he _ := by
    cases List.mem_singleton.1 hb
    have : ∀ e ∈ [(⟨"C".toList, ⟨false, [1], none⟩⟩ : Entry), ⟨"R".toList, ⟨false, [1], none⟩⟩],
      e.number.value ≠ 0 := by decide +kernel
    exact this e he
  costs b hb := by
    cases List.mem_singleton.1 hb
    show List.length (List.filter (fun e : Entry =>
      (none, e.row) ∈ [((none : Option Relation), "C".toList), (some .less, "R".toList)]) [_, _]) ≤ 1
    decide +kernel
  ranges row r relation hr := by
    obtain ⟨g, hg, -⟩ := hr
    cases hg
  bounds b _ := by
    refine ⟨0, fun t ht => ?_, fun _ => le_rfl⟩
    obtain ⟨g, hg, l, hl, -, rfl⟩ := ht
    exact h g hg l hl

end Example
end Mps
end Relp
