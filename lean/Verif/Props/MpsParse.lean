import Verif.Proof.MpsExample
import Verif.Proof.MpsFixedTotal

/-!
# Properties of the parsing of MPS files (C55, C56, C57, C58)

Spec/MpsText.lean says what an MPS file consists of (`File`), how it is written in a text (`Contents` and
`File.Written` with `freeLayout` or `fixedLayout`), which syntactical conditions there are (`File.Proper`), when
it contradicts itself (`File.Consistent`) and which program it describes (`File.Describes`). Spec/MpsMeaning.lean
gives the linear program of a file in terms of its names.
-/

namespace Relp

namespace Mps

open Spec

/-- The formats of MPS files. -/
inductive Format
  | free
  | fixed

/-- How lines are written. -/
def Format.layout : Format → Layout
  | .free => freeLayout
  | .fixed => fixedLayout

/-- The function that reads a text. -/
def Format.parse : Format → Text → Import Mps
  | .free => parseFree
  | .fixed => parseFixed

theorem parse_written {f : Format} {F : File} {text : Text} {lines : List Text} (ht : Contents text lines)
    (hw : F.Written f.layout lines) (hp : F.Proper) : f.parse text = runFile F := by
  cases f with
  | free =>
    show parseLines free (intoLines text) = _
    rw [intoLines_contents ht]
    exact parseLines_written free_reads hw hp
  | fixed =>
    show parseLines fixed (intoLines text) = _
    rw [intoLines_contents ht]
    exact parseLines_written fixed_reads hw hp

/-! ### C55 -/

/-- **C55**: a text in which an MPS file is written gives the program that the file describes, if the file does not
contradict itself, and an error otherwise. -/
theorem C55_reading (f : Format) (F : File) (text : Text) (lines : List Text) (ht : Contents text lines)
    (hw : F.Written f.layout lines) (hp : F.Proper) :
    (F.Consistent → ∃ p, f.parse text = .ok p ∧ F.Describes p) ∧
    (¬F.Consistent → f.parse text = .error .parse ∨ f.parse text = .error .inconsistency) := by
  rw [parse_written ht hw hp]
  rcases runFile_spec F with ⟨h1, h2⟩ | ⟨h1, e, h2, h3⟩
  · exact ⟨fun _ => h2, fun h => absurd h1 h⟩
  · refine ⟨fun h => absurd h h1, fun _ => ?_⟩
    rw [h2]
    cases e
    · exact Or.inl rfl
    · exact Or.inr rfl
    · exact absurd rfl h3

/-- The same file gives the same result, however it is written. -/
theorem C55_formats (f g : Format) (F : File) (hp : F.Proper) (text : Text) (lines : List Text)
    (ht : Contents text lines) (hw : F.Written f.layout lines) (text' : Text) (lines' : List Text)
    (ht' : Contents text' lines') (hw' : F.Written g.layout lines') : f.parse text = g.parse text' := by
  rw [parse_written ht hw hp, parse_written ht' hw' hp]

/-- Both texts of the example are read. -/
example : ∃ p, parseFree (Example.unlines Example.freeSource) = .ok p ∧
    parseFixed (Example.unlines Example.fixedSource) = .ok p ∧ Example.file.Describes p := by
  obtain ⟨p, h1, h2⟩ := (C55_reading .free Example.file _ _ Example.freeText_contents Example.freeText_written
    Example.file_proper).1 Example.file_consistent
  refine ⟨p, h1, ?_, h2⟩
  rw [← h1]
  exact C55_formats .fixed .free _ Example.file_proper _ _ Example.fixedText_contents Example.fixedText_written _ _
    Example.freeText_contents Example.freeText_written

/-- A small text with these lines as bounds. -/
def Example.tiny (bounds : List Text) : Text :=
  unlines (["NAME T".toList, "ROWS".toList, " N C".toList, " L R".toList, "COLUMNS".toList, " X C 1 R 1".toList,
    "BOUNDS".toList] ++ bounds ++ ["ENDATA".toList])

/-- A small text with these columns and right-hand sides. -/
def Example.tiny' (columns rhs : List Text) : Text :=
  unlines (["NAME T".toList, "ROWS".toList, " N C".toList, " L R".toList, "COLUMNS".toList] ++ columns ++ rhs ++
    ["ENDATA".toList])

/-- In practice files are written that the specification here does not have, and that are not read: those with a
right-hand side for the cost row, which stands for a constant, and those with a space after the name of a
section. -/
theorem C55_not_otherFiles :
    (∃ p, parseFree (Example.tiny' [" X C 1 R 1".toList] ["RHS".toList, " B R 1".toList]) = .ok p) ∧
    parseFree (Example.tiny' [" X C 1 R 1".toList] ["RHS".toList, " B C 1".toList]) = .error .inconsistency ∧
    parseFree (Example.tiny' [" X C 1 R 1".toList] ["RHS ".toList, " B R 1".toList]) = .error .parse := by
  refine ⟨⟨_, rfl⟩, by decide +kernel, by decide +kernel⟩

/-! ### C56 -/

/-- **C56**, partial: reading a text in the free format gives a program or an error; it does not abort. Missing:
texts with other characters than those of ASCII, and lines that start with `SC`, see `C56_not_semiContinuous` and
`C56_not_ascii`. -/
theorem C56_free_partial (text : Text) (lines : List Text) (ht : Contents text lines)
    (ha : ∀ c ∈ text, c.toNat < 128) (hs : ∀ line ∈ lines, ∀ words, ¬Words line ("SC".toList :: words)) :
    (∃ p, parseFree text = .ok p) ∨ parseFree text = .error .parse ∨ parseFree text = .error .inconsistency := by
  unfold parseFree
  rw [intoLines_contents ht]
  have := parseLines_safe lines fun line hl => ⟨contents_ascii ht ha line hl, fun words h =>
    hs line hl words (h ▸ words_splitWhitespace line)⟩
  match h : parseLines free lines with
  | .ok p => exact Or.inl ⟨p, rfl⟩
  | .error .parse => exact Or.inr (Or.inl rfl)
  | .error .inconsistency => exact Or.inr (Or.inr rfl)
  | .error .panic =>
    rw [h] at this
    exact absurd rfl this

/-- Each text has such lines, unless it ends with a single carriage return. -/
theorem C56_contents (text : Text) (h : text.getLast? ≠ some '\r') : ∃ lines, Contents text lines :=
  ⟨_, contents_intoLines text h⟩

/-- **C56 is false** for files with a semi-continuous variable: reading aborts. -/
theorem C56_not_semiContinuous : parseFree (Example.tiny [" SC B X 3".toList]) = .error .panic ∧
    ∃ p, parseFree (Example.tiny [" UP B X 3".toList]) = .ok p := by
  refine ⟨by decide +kernel, _, rfl⟩

/-- **C56 is false** for texts with characters that take more than one byte: strings are cut in the middle of
one. -/
theorem C56_not_ascii :
    parseFree "NAM\u00c9 T\n".toList = .error .panic ∧
    parseFree "NAME T\nROWS\n \u00c9 C\n".toList = .error .panic := by
  refine ⟨by decide +kernel, by decide +kernel⟩

/-- **C56 is false** for the fixed format: reading aborts for a bound with a short name that is not followed by
spaces, and for a field without number. -/
theorem C56_not_fixed :
    parseFixed (Example.unlines ["NAME          T".toList, "ROWS".toList, " N  C".toList, " L  R".toList,
      "COLUMNS".toList, "    X         R                    1".toList, "BOUNDS".toList, " FR B         X".toList,
      "ENDATA".toList]) = .error .panic ∧
    parseFixed (Example.unlines ["NAME          T".toList, "ROWS".toList, " N  C".toList, " L  R".toList,
      "COLUMNS".toList, "    X         R                     ".toList, "ENDATA".toList]) = .error .panic := by
  refine ⟨by decide +kernel, by decide +kernel⟩

/-- **C56**, partial: reading a text in the fixed format gives a program or an error; it does not abort. Missing:
texts with other characters than those of ASCII, and with lines that do not have the fields that are read from
them (`FixedLine`, in Spec/MpsFixed.lean), see `C56_not_fixed`. -/
theorem C56_fixed_partial (text : Text) (lines : List Text) (ht : Contents text lines)
    (ha : ∀ c ∈ text, c.toNat < 128)
    (hf : ∀ before line after, lines = before ++ line :: after → line.head? = some ' ' →
      FixedLine (sectionAfter before) line) :
    (∃ p, parseFixed text = .ok p) ∨ parseFixed text = .error .parse ∨ parseFixed text = .error .inconsistency := by
  unfold parseFixed
  rw [intoLines_contents ht]
  have := parseLines_fixed lines (fixedFrom_of lines [] (fun line hl => contents_ascii ht ha line hl) hf)
  match h : parseLines fixed lines with
  | .ok p => exact Or.inl ⟨p, rfl⟩
  | .error .parse => exact Or.inr (Or.inl rfl)
  | .error .inconsistency => exact Or.inr (Or.inr rfl)
  | .error .panic =>
    rw [h] at this
    exact absurd rfl this

/-- The example has such lines, markers among them, and so has one with a bound without number and spaces at the
end of the line. -/
example : ((∃ p, parseFixed (Example.unlines Example.fixedSource) = .ok p) ∨
      parseFixed (Example.unlines Example.fixedSource) = .error .parse ∨
      parseFixed (Example.unlines Example.fixedSource) = .error .inconsistency) ∧
    FixedLine (some "BOUNDS".toList) " FR B         X                        ".toList ∧
    ¬FixedLine (some "BOUNDS".toList) " FR B         X".toList := by
  refine ⟨C56_fixed_partial _ _ Example.fixedText_contents (by decide +kernel)
    (fixedLines_of _ (by decide +kernel)), by decide +kernel, by decide +kernel⟩

example : (∃ p, parseFree (Example.unlines Example.freeSource) = .ok p) ∨
    parseFree (Example.unlines Example.freeSource) = .error .parse ∨
    parseFree (Example.unlines Example.freeSource) = .error .inconsistency := by
  refine C56_free_partial _ _ Example.freeText_contents (by decide +kernel) fun line hl words hw => ?_
  have h1 := splitWhitespace_words hw
  have h2 : ∀ line ∈ Example.freeLines, (splitWhitespace line).head? ≠ some "SC".toList := by decide +kernel
  exact h2 line hl (by rw [h1]; rfl)

/-! ### C57 -/

/-- **C57**: whatever the text, a program that is read from it has indices that refer to its rows and columns, and
its conversion does not abort. -/
theorem C57_accepted (f : Format) (text : Text) (p : Mps) (h : f.parse text = .ok p) :
    p.Accepted ∧ ((∃ G, p.toGeneralForm = .ok G) ∨ p.toGeneralForm = .error .inconsistency) := by
  have ha : p.Accepted := by
    cases f with
    | free => exact parseLines_accepted h
    | fixed => exact parseLines_accepted h
  refine ⟨ha, ?_⟩
  match hG : p.toGeneralForm with
  | .ok G => exact Or.inl ⟨G, rfl⟩
  | .error e =>
    rcases toGeneralForm_error hG with ⟨rfl, -⟩ | ⟨-, ⟨q, h4, h5⟩ | ⟨j, a, b, h4⟩ | ⟨q, h4, h5⟩⟩
    · exact Or.inr rfl
    · obtain ⟨g, hg, hq⟩ := List.mem_flatMap.1 h4
      exact absurd (ha.bounds g hg q hq).1 (not_lt.2 h5)
    · obtain ⟨g, hg, hq⟩ := List.mem_flatMap.1 h4
      exact absurd rfl ((ha.bounds g hg _ hq).2 a b)
    · obtain ⟨g, hg, hq⟩ := List.mem_flatMap.1 h4
      exact absurd ((ha.rhss g hg).2 q hq) (not_lt.2 h5)

/-- Texts are accepted from which programs are read that are not well-formed: with zero coefficients, with several
entries in the cost row for a column, and with several columns of the same name, the last of which has the
bounds of all. -/
theorem C57_not_wellFormed :
    (∃ p, parseFree (Example.tiny' [" X R 0".toList] []) = .ok p ∧
      p.columns = [⟨"X".toList, .continuous, [(0, 0)]⟩]) ∧
    (∃ p, parseFree (Example.tiny' [" X C 1 C 2".toList, " X R 1".toList] []) = .ok p ∧
      p.costValues = [(0, 1), (0, 2)]) ∧
    ∃ p, parseFree (Example.tiny' [" X R 1".toList, " Y R 1".toList, " X R 2".toList]
        ["BOUNDS".toList, " UP B X 3".toList]) = .ok p ∧
      p.columns = [⟨"X".toList, .continuous, [(0, 1)]⟩, ⟨"Y".toList, .continuous, [(0, 1)]⟩,
        ⟨"X".toList, .continuous, [(0, 2)]⟩] ∧ p.bounds = [⟨"B".toList, [(2, .upperContinuous 3)]⟩] := by
  refine ⟨⟨_, rfl, by decide +kernel⟩, ⟨_, rfl, by decide +kernel⟩, _, rfl, by decide +kernel, by decide +kernel⟩

example : ∃ p, parseFree (Example.unlines Example.freeSource) = .ok p ∧ p.Accepted := by
  obtain ⟨p, h, -⟩ := (C55_reading .free Example.file _ _ Example.freeText_contents Example.freeText_written
    Example.file_proper).1 Example.file_consistent
  exact ⟨p, h, (C57_accepted .free _ p h).1⟩

/-! ### C58 -/

/-- Importing a file reads its contents in the free format if the extension is known, and fails otherwise. -/
theorem C58_import (contents : Option Text) (extension : Option (Option Text)) (p : Mps) :
    importFile contents extension = .ok p ↔ ∃ text, contents = some text ∧
      (extension = some (some "mps".toList) ∨ extension = some (some "SIF".toList)) ∧ parseFree text = .ok p := by
  match contents with
  | none => simp [importFile]
  | some text =>
    match extension with
    | none => simp [importFile]
    | some none => simp [importFile]
    | some (some e) =>
      simp only [importFile, Option.some.injEq, exists_eq_left']
      by_cases he : e = "mps".toList ∨ e = "SIF".toList
      · rw [if_pos he]
        cases parseFree text with
        | ok q => exact ⟨fun h => ⟨he, by cases h; rfl⟩, fun h => by cases h.2; rfl⟩
        | error e => exact ⟨fun h => (nomatch h), fun h => (nomatch h.2)⟩
      · rw [if_neg he]
        exact ⟨fun h => (nomatch h), fun h => absurd h.1 he⟩

/-- **C58**, partial: a text in which a file is written that does not contradict itself is rejected by the conversion
exactly if there is a conflict in the file or, by a defect, the right-hand side of an equality with a positive
range is given more than once. Missing: files that are not `Sound`. -/
theorem C58_rejected_partial (f : Format) (F : File) (text : Text) (lines : List Text) (ht : Contents text lines)
    (hw : F.Written f.layout lines) (hp : F.Proper) (hc : F.Consistent) (hs : F.Sound) :
    ∃ p, f.parse text = .ok p ∧
      ((∃ G, p.toGeneralForm = .ok G) ∨ p.toGeneralForm = .error .inconsistency) ∧
      (p.toGeneralForm = .error .inconsistency ↔ F.Conflict ∨ F.RepeatedRhs) := by
  obtain ⟨p, h1, h2⟩ := (C55_reading f F text lines ht hw hp).1 hc
  exact ⟨p, h1, rejected_iff h2 hc hs⟩

/-- **C58**, partial: an optimum that is found for a text is an optimum of the linear program of the file that is
written there, and gives the value of each column by its name, in their order. Missing: files that are not
`Sound`, and the objective value for maximisation. -/
theorem C58_optimum_partial (f : Format) (F : File) (text : Text) (lines : List Text) (ht : Contents text lines)
    (hw : F.Written f.layout lines) (hp : F.Proper) (hc : F.Consistent) (hs : F.Sound)
    (p : Mps) (h1 : f.parse text = .ok p) (G : GeneralForm) (h2 : p.toGeneralForm = .ok G)
    (inv : InverseName) (rule : RuleName) (fuel : ℕ) (solution : GeneralForm.Solution)
    (h3 : G.solve inv rule fuel = .ok (.finiteOptimum solution)) :
    ∃ x, F.Best x ∧ solution.values = (F.blocks.map fun b => (String.ofList b.name, x b.name)) ∧
      (F.sense.getD .minimize = .minimize → solution.objectiveValue = F.objectiveValue x) := by
  obtain ⟨p', h1', hd⟩ := (C55_reading f F text lines ht hw hp).1 hc
  cases h1.symm.trans h1'
  obtain ⟨x, x1, x2, x3⟩ := C52_optimum_partial p G h2 (wellFormed hd hc hs) (rangesMeant hd hc hs)
    (bounds_meant hd hc hs) inv rule fuel solution h3
  obtain ⟨y, rfl⟩ := point_of hd hs.names x
  refine ⟨y, best_of hd hc hs.names x1, ?_, fun hm => ?_⟩
  · rw [x2, ← values_eq hd y]
  · rw [x3 (hd.objective.trans hm), objective_eq hd hc.cost]

/-- **C58**, partial: if the linear program of a text is said to be unbounded, the file that is written there has
points of arbitrarily good objective value. -/
theorem C58_unbounded_partial (f : Format) (F : File) (text : Text) (lines : List Text) (ht : Contents text lines)
    (hw : F.Written f.layout lines) (hp : F.Proper) (hc : F.Consistent) (hs : F.Sound)
    (p : Mps) (h1 : f.parse text = .ok p) (G : GeneralForm) (h2 : p.toGeneralForm = .ok G)
    (inv : InverseName) (rule : RuleName) (fuel : ℕ) (h3 : G.solve inv rule fuel = .ok .unbounded) (M : ℚ) :
    ∃ x, F.Feasible x ∧
      match F.sense.getD .minimize with
      | .minimize => F.objectiveValue x < M
      | .maximize => M < F.objectiveValue x := by
  obtain ⟨p', h1', hd⟩ := (C55_reading f F text lines ht hw hp).1 hc
  cases h1.symm.trans h1'
  obtain ⟨x, x1, x2⟩ := C52_unbounded_partial p G h2 (wellFormed hd hc hs) (rangesMeant hd hc hs)
    (bounds_meant hd hc hs) inv rule fuel h3 M
  obtain ⟨y, rfl⟩ := point_of hd hs.names x
  refine ⟨y, (describes_feasible hd hc hs.names y).1 x1, ?_⟩
  rw [objective_eq hd hc.cost, hd.objective] at x2
  exact x2

/-- **C58**, partial: if the linear program of a text is said to be infeasible, the one of the file that is written
there is. -/
theorem C58_infeasible_partial (f : Format) (F : File) (text : Text) (lines : List Text) (ht : Contents text lines)
    (hw : F.Written f.layout lines) (hp : F.Proper) (hc : F.Consistent) (hs : F.Sound)
    (p : Mps) (h1 : f.parse text = .ok p) (G : GeneralForm) (h2 : p.toGeneralForm = .ok G)
    (inv : InverseName) (rule : RuleName) (fuel : ℕ) (h3 : G.solve inv rule fuel = .ok .infeasible)
    (x : Text → ℚ) : ¬F.Feasible x := by
  obtain ⟨p', h1', hd⟩ := (C55_reading f F text lines ht hw hp).1 hc
  cases h1.symm.trans h1'
  intro hx
  exact C52_infeasible_partial p G h2 (wellFormed hd hc hs) (rangesMeant hd hc hs) (bounds_meant hd hc hs) inv rule
    fuel h3 _ ((describes_feasible hd hc hs.names x).2 hx)

/-- The example is read, converted and solved. -/
example : ∃ x, Example.file.Best x ∧
    [("X", (0 : ℚ)), ("Y", 6), ("Z", -1)] =
      (Example.file.blocks.map fun b => (String.ofList b.name, x b.name)) ∧ -15 = Example.file.objectiveValue x := by
  obtain ⟨x, h1, h2, h3⟩ := C58_optimum_partial .free Example.file _ _ Example.freeText_contents
    Example.freeText_written Example.file_proper Example.file_consistent Example.file_sound
    Example.result Example.result_parse Example.resultGeneral (by decide +kernel) .lu
    .steepestDescentAlongObjective 30 ⟨-15, [("X", 0), ("Y", 6), ("Z", -1)]⟩ (by decide +kernel)
  exact ⟨x, h1, h2, h3 rfl⟩

/-- With a free variable, the small example is unbounded. -/
example (M : ℚ) : ∃ x, (Example.small false (some [⟨"D".toList, [⟨.fr, "X".toList⟩]⟩])).Feasible x ∧
    (Example.small false (some [⟨"D".toList, [⟨.fr, "X".toList⟩]⟩])).objectiveValue x < M := by
  refine C58_unbounded_partial .free _ _ _
    (Example.contents_unlines (Example.smallLines false ["BOUNDS".toList, " FR D X".toList]) (by decide +kernel))
    ?_ ?_ ?_ ?_ _ rfl (.new .minimize ⟨[[(0, 1)]], 1, 1⟩ [.less] [1]
    [⟨.continuous, 1, none, none, 0, false⟩] ["X"] 0) (by decide +kernel) .lu
    .steepestDescentAlongObjective 30 (by decide +kernel) M
  · have : (Example.smallLines false ["BOUNDS".toList, " FR D X".toList]).filter keep =
        Example.smallLines false ["BOUNDS".toList, " FR D X".toList] := by decide +kernel
    rw [this]
    exact Example.small_written false ⟨_, rfl, [[" FR D X".toList]],
      .cons (.cons ⟨by decide +kernel, [], Example.words_of (by decide +kernel)⟩ .nil) .nil, rfl⟩
  · exact Example.small_proper false ⟨Example.ne_nil_of (by decide +kernel), .singleton _⟩ (by decide +kernel)
  · exact Example.small_consistent false (by decide +kernel)
  · refine Example.small_sound false fun b hb l hl => ?_
    cases List.mem_singleton.1 hb
    cases List.mem_singleton.1 hl
    trivial

/-- With `x ≤ -1` and `x ≥ 0`, it is infeasible. -/
example (x : Text → ℚ) : ¬(Example.small true none).Feasible x := by
  refine C58_infeasible_partial .free _ _ _
    (Example.contents_unlines (Example.smallLines true []) (by decide +kernel))
    ?_ ?_ ?_ ?_ _ rfl (.new .minimize ⟨[[(0, 1)]], 1, 1⟩ [.less] [-1]
    [⟨.continuous, 1, some 0, none, 0, false⟩] ["X"] 0) (by decide +kernel) .lu
    .steepestDescentAlongObjective 30 (by decide +kernel) x
  · have : (Example.smallLines true []).filter keep = Example.smallLines true [] := by decide +kernel
    rw [this]
    exact Example.small_written true rfl
  · exact Example.small_proper true ⟨fun b hb => (nomatch hb), .nil⟩ fun b hb => (nomatch hb)
  · exact Example.small_consistent true fun b hb => (nomatch hb)
  · exact Example.small_sound true fun b hb => (nomatch hb)

/-- With two bounds that contradict one another, it is rejected. -/
example : ∃ p, parseFree (Example.unlines (Example.smallLines false
      ["BOUNDS".toList, " FR D X".toList, " UP D X 3".toList])) = .ok p ∧
    p.toGeneralForm = .error .inconsistency := by
  have hw : (Example.small false (some [⟨"D".toList, [⟨.fr, "X".toList⟩, ⟨.up ⟨false, [3], none⟩, "X".toList⟩]⟩])).Written
      freeLayout ((Example.smallLines false ["BOUNDS".toList, " FR D X".toList, " UP D X 3".toList]).filter keep) := by
    have : (Example.smallLines false ["BOUNDS".toList, " FR D X".toList, " UP D X 3".toList]).filter keep =
        Example.smallLines false ["BOUNDS".toList, " FR D X".toList, " UP D X 3".toList] := by decide +kernel
    rw [this]
    exact Example.small_written false ⟨_, rfl, [[" FR D X".toList, " UP D X 3".toList]],
      .cons (.cons ⟨by decide +kernel, [], Example.words_of (by decide +kernel)⟩
        (.cons ⟨by decide +kernel, [], Example.words_of (by decide +kernel)⟩ .nil)) .nil, rfl⟩
  have hs : (Example.small false
      (some [⟨"D".toList, [⟨.fr, "X".toList⟩, ⟨.up ⟨false, [3], none⟩, "X".toList⟩]⟩])).Sound := by
    refine Example.small_sound false fun b hb l hl => ?_
    cases List.mem_singleton.1 hb
    rcases List.mem_cons.1 hl with rfl | hl
    · trivial
    · cases List.mem_singleton.1 hl
      show (0 : ℚ) ≤ Numeral.value _
      decide +kernel
  obtain ⟨p, h1, -, h2⟩ := C58_rejected_partial .free _ _ _ (Example.contents_unlines _ (by decide +kernel)) hw
    (Example.small_proper false ⟨Example.ne_nil_of (by decide +kernel), .singleton _⟩ (by decide +kernel))
    (Example.small_consistent false (by decide +kernel)) hs
  refine ⟨p, h1, h2.2 (Or.inl (Or.inl ⟨"X".toList, .upperContinuous 3, ?_, ?_, fun h => (nomatch h)⟩))⟩
  · exact ⟨_, List.mem_cons_self, _, List.mem_cons_self, rfl, rfl⟩
  · refine ⟨_, List.mem_cons_self, _, List.mem_cons_of_mem _ List.mem_cons_self, rfl, ?_⟩
    decide +kernel

end Mps

end Relp
