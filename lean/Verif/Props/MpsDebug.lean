import Verif.Proof.MpsDebugFile
import Verif.Props.MpsParse
import Verif.Props.Pipeline
import Verif.Props.DebugForm

/-!
# Properties of reading and converting MPS files in a debug build (C72)

Model/MpsDebug.lean has the checks of a debug build. Spec/MpsDebug.lean says what they ask of a file.
-/

namespace Relp

namespace Mps

open Spec

/-- The function that reads a text in a debug build. -/
def Format.parseDebug : Format → Text → Import Mps
  | .free => parseFreeDebug
  | .fixed => parseFixedDebug

/-- **C72.** A debug build reads a text as a release build does, or aborts. -/
theorem C72_read (f : Format) (text : Text) :
    f.parseDebug text = .error .panic ∨ f.parseDebug text = f.parse text := by
  cases f with
  | free => exact parseLines_below _
  | fixed => exact parseLines_below _

/-- **C72.** A debug build converts a program as a release build does, or aborts. -/
theorem C72_convert (p : Mps) :
    p.toGeneralFormDebug = .error .panic ∨ p.toGeneralFormDebug = p.toGeneralForm := toGeneralForm_below p

/-- **C72.** An answer of a debug build for a text is the answer of a release build. -/
theorem C72_solve (f : Format) (inv : InverseName) (rule : RuleName) (presolveFuel fuel : ℕ) (text : Text)
    (answer : LinearProgramType)
    (h : solveTextDebug f.parseDebug inv rule presolveFuel fuel text = some answer) :
    solveText f.parse inv rule presolveFuel fuel text = some answer := by
  unfold solveTextDebug at h
  unfold solveText
  rcases C72_read f text with h1 | h1
  · rw [h1] at h
    cases h
  · rw [h1] at h
    cases hp : f.parse text with
    | error e => rw [hp] at h; cases h
    | ok p =>
      rw [hp] at h
      simp only at h ⊢
      rcases C72_convert p with h2 | h2
      · rw [h2] at h
        cases h
      · rw [h2] at h
        cases hG : p.toGeneralForm with
        | error e => rw [hG] at h; cases h
        | ok G =>
          rw [hG] at h
          exact GeneralForm.presolveAndSolveDebug_some h

/-- **C72.** A debug build reads a decimal numeral exactly if it fits in 64 bits, and then as the number that it
denotes. (A release build reads others as another number, see `C51_not_overflow`.) -/
theorem C72_number (n : Numeral) (hp : n.Proper) (v : ℚ) :
    Number.parseDebug n.text = .ok v ↔ n.Fits ∧ v = n.value := Number.parseDebug_text hp v

/-- A numeral that is read, and one that is not. -/
example : Number.parseDebug "-12.50".toList = .ok (-25 / 2) ∧
    Number.parseDebug "20000000000.0000000000".toList = .error .panic := by
  decide +kernel

/-- **C72.** A program that is read is converted in a debug build if it is in a release build, its columns have
different names, no coefficient is zero and a row with a range has at most one right-hand side; and to the same
problem. -/
theorem C72_checks (f : Format) (text : Text) (p : Mps) (h : f.parse text = .ok p) (G : GeneralForm) :
    p.toGeneralFormDebug = .ok G ↔ p.toGeneralForm = .ok G ∧ p.Checked := by
  have ha := (C57_accepted f text p h).1
  constructor
  · intro hG
    exact ⟨(toGeneralForm_below p).elim hG, toGeneralFormDebug_checked ha hG⟩
  · rintro ⟨hG, hc⟩
    rw [toGeneralFormDebug_eq ha hc, hG]

/-- **C72**, partial: a debug build reads the text in which a file is written, if markers change the type of
variables and columns have different names. Missing: other files, see `C72_not_markers` and `C72_not_names`. -/
theorem C72_written_partial (f : Format) (F : File) (text : Text) (lines : List Text) (ht : Contents text lines)
    (hw : F.Written f.layout lines) (hp : F.Proper) (p : Mps) :
    f.parseDebug text = .ok p ↔
      f.parse text = .ok p ∧ Alternating false F.columns ∧ (F.blocks.map (·.name)).Nodup := by
  have hl : ∀ line ∈ lines, line ≠ [] := by
    rw [← intoLines_contents ht, intoLines_eq]
    intro line hm
    exact ((keep_iff line).1 (List.mem_filter.1 hm).2).1
  have h1 : f.parseDebug text = runFileDebug F := by
    cases f with
    | free =>
      show parseLinesDebug free (intoLines text) = _
      rw [intoLines_contents ht]
      exact parseLinesDebug_written free_reads hw hl hp
    | fixed =>
      show parseLinesDebug fixed (intoLines text) = _
      rw [intoLines_contents ht]
      exact parseLinesDebug_written fixed_reads hw hl hp
  have h2 := parse_written ht hw hp
  rw [h1, runFileDebug_iff fun h => (C57_accepted f text p (h2.trans h)).1, h2]
  refine and_congr_right fun h => and_congr_right fun _ => ?_
  rcases runFile_spec F with ⟨-, p', h3, h4⟩ | ⟨-, e, h3, -⟩
  · cases h.symm.trans h3
    rw [names_eq h4]
  · rw [h3] at h
    cases h

/-- **C72**, partial: the text in which a file is written is read and converted in a debug build if it is in a
release build and the file is `Checked`, and to the same problem. Missing: other files, see `C72_not_markers`,
`C72_not_names`, `C72_not_zero` and `C72_not_repeated`. -/
theorem C72_file_partial (f : Format) (F : File) (text : Text) (lines : List Text) (ht : Contents text lines)
    (hw : F.Written f.layout lines) (hp : F.Proper) (hc : F.Consistent) (G : GeneralForm) :
    (∃ p, f.parseDebug text = .ok p ∧ p.toGeneralFormDebug = .ok G) ↔
      (∃ p, f.parse text = .ok p ∧ p.toGeneralForm = .ok G) ∧ F.Checked := by
  obtain ⟨p, h1, h2⟩ := (C55_reading f F text lines ht hw hp).1 hc
  have h3 := checked_iff h2 hc
  constructor
  · rintro ⟨q, k1, k2⟩
    obtain ⟨k3, k4, k5⟩ := (C72_written_partial f F text lines ht hw hp q).1 k1
    cases h1.symm.trans k3
    obtain ⟨k6, k7⟩ := (C72_checks f text p h1 G).1 k2
    obtain ⟨-, c2, c3⟩ := h3.1 k7
    exact ⟨⟨p, h1, k6⟩, k4, k5, c2, c3⟩
  · rintro ⟨⟨q, k1, k2⟩, c1, c2, c3, c4⟩
    cases h1.symm.trans k1
    exact ⟨p, (C72_written_partial f F text lines ht hw hp p).2 ⟨h1, c1, c2⟩,
      (C72_checks f text p h1 G).2 ⟨k2, h3.2 ⟨c2, c3, c4⟩⟩⟩

/-- **C72**, partial: a debug build gives exactly the answer of a release build to the text in which a file is
written, with `BasisInverseRows`, if the file is `Checked`, all steps of presolving are safe and no slack
variable that is removed is fixed by its bounds at that time. Missing: other files and other runs of presolving,
see above and `C64_not_equal`. -/
theorem C72_answer_partial (f : Format) (F : File) (text : Text) (lines : List Text) (ht : Contents text lines)
    (hw : F.Written f.layout lines) (hp : F.Proper) (hc : F.Consistent) (hs : F.Sound) (hk : F.Checked)
    (rule : RuleName) (presolveFuel fuel : ℕ)
    (hd : ∀ p G, f.parse text = .ok p → p.toGeneralForm = .ok G → ∀ s, Presolve.Index.new G = .ok s →
      Presolve.SafeRun G presolveFuel s 0 ∧ Presolve.UnfixedRun G presolveFuel s 0) :
    solveTextDebug f.parseDebug .rows rule presolveFuel fuel text =
      solveText f.parse .rows rule presolveFuel fuel text := by
  obtain ⟨p, h1, h2⟩ := (C55_reading f F text lines ht hw hp).1 hc
  have h3 := (C72_written_partial f F text lines ht hw hp p).2 ⟨h1, hk.markers, hk.names⟩
  unfold solveTextDebug solveText
  rw [h1, h3]
  simp only []
  cases hG : p.toGeneralForm with
  | error e =>
    rcases C72_convert p with h | h
    · rw [h]
    · rw [h, hG]
  | ok G =>
    rw [(C72_checks f text p h1 G).2 ⟨hG, (checked_iff h2 hc).2 ⟨hk.names, hk.nonzero, hk.rhsOnce⟩⟩]
    have hwf := wellFormed h2 hc hs
    have hpr := toGeneralForm_proper hG (rangesMeant h2 hc hs) (bounds_meant h2 hc hs)
    exact C68_presolve_debug_partial (toGeneralForm_fresh hG hwf) hpr rule presolveFuel fuel
      (fun s h => (hd p G h1 hG s h).1) fun s h => (hd p G h1 hG s h).2

/-- The file of the example is checked. -/
theorem Example.file_checked : Example.file.Checked where
  markers := by simp [Alternating, Example.file]
  names := Example.file_sound.names
  nonzero := Example.file_sound.nonzero
  rhsOnce row r hr _ := by
    obtain ⟨g, hg, e, he, rfl, -⟩ := hr
    have : ∀ g ∈ Example.file.ranges.getD [], ∀ e ∈ g.entries,
        (((Example.file.rhs.getD []).flatMap Block.entries).filter fun d => d.row = e.row).length ≤ 1 := by
      decide +kernel
    exact this g hg e he

/-- The example is read and converted in a debug build. -/
example : ∃ p G, parseFreeDebug (Example.unlines Example.freeSource) = .ok p ∧ p.toGeneralFormDebug = .ok G := by
  have hG : Example.result.toGeneralForm = .ok Example.resultGeneral := by decide +kernel
  obtain ⟨p, h1, h2⟩ := (C72_file_partial .free Example.file _ _ Example.freeText_contents Example.freeText_written
    Example.file_proper Example.file_consistent Example.resultGeneral).2
    ⟨⟨_, Example.result_parse, hG⟩, Example.file_checked⟩
  exact ⟨p, _, h1, h2⟩

/-- A debug build gives the answer of a release build for it. -/
example : solveTextDebug parseFreeDebug .rows .steepestDescentAlongObjective 100 30
      (Example.unlines Example.freeSource) =
    solveText parseFree .rows .steepestDescentAlongObjective 100 30 (Example.unlines Example.freeSource) := by
  have hG : Example.result.toGeneralForm = .ok Example.resultGeneral := by decide +kernel
  have h := Presolve.debugSafe_spec (G := Example.resultGeneral) (fuel := 100) (by decide +kernel)
  refine C72_answer_partial .free Example.file _ _ Example.freeText_contents Example.freeText_written
    Example.file_proper Example.file_consistent Example.file_sound Example.file_checked
    .steepestDescentAlongObjective 100 30 fun p G hp hG' s hs => ?_
  cases hp.symm.trans Example.result_parse
  cases hG'.symm.trans hG
  exact ⟨h.1 s hs, h.2 s hs⟩

/-- A result that is not an error. -/
theorem importOk_of {α : Type} {x : Import α} (h : (match x with | .ok _ => true | .error _ => false) = true) :
    ∃ a, x = .ok a := by
  cases x with
  | ok a => exact ⟨a, rfl⟩
  | error e => cases h

/-- **C72 is false** for a file with a marker that does not change the type of variables, which a release build
reads. -/
theorem C72_not_markers : ∃ p, parseFree (Example.tiny' [" M 'MARKER' 'INTORG'".toList, " X R 1".toList,
      " M 'MARKER' 'INTORG'".toList, " Y R 1".toList] []) = .ok p ∧ (∃ G, p.toGeneralForm = .ok G) ∧
    parseFreeDebug (Example.tiny' [" M 'MARKER' 'INTORG'".toList, " X R 1".toList, " M 'MARKER' 'INTORG'".toList,
      " Y R 1".toList] []) = .error .panic :=
  ⟨_, rfl, ⟨_, rfl⟩, by decide +kernel⟩

/-- **C72 is false** for a file with a column that is continued later, which a release build reads as another
column of this name. -/
theorem C72_not_names : ∃ p, parseFree (Example.tiny' [" X R 1".toList, " Y R 1".toList, " X R 2".toList] []) = .ok p ∧
    (∃ G, p.toGeneralForm = .ok G) ∧
    parseFreeDebug (Example.tiny' [" X R 1".toList, " Y R 1".toList, " X R 2".toList] []) = .error .panic :=
  ⟨_, rfl, ⟨_, rfl⟩, by decide +kernel⟩

/-- **C72 is false** for a file with a coefficient that is zero. -/
theorem C72_not_zero : ∃ p, parseFree (Example.tiny' [" X R 0".toList] []) = .ok p ∧ (∃ G, p.toGeneralForm = .ok G) ∧
    parseFreeDebug (Example.tiny' [" X R 0".toList] []) = .ok p ∧ p.toGeneralFormDebug = .error .panic :=
  ⟨_, rfl, ⟨_, rfl⟩, by decide +kernel, by decide +kernel⟩

/-- **C72 is false** for a file in which a row with a range has its right-hand side in two groups. -/
theorem C72_not_repeated : ∃ p, parseFree (Example.tiny' [" X R 1".toList]
      ["RHS".toList, " A R 3".toList, " B R 3".toList, "RANGES".toList, " G R 2".toList]) = .ok p ∧
    (∃ G, p.toGeneralForm = .ok G) ∧
    parseFreeDebug (Example.tiny' [" X R 1".toList]
      ["RHS".toList, " A R 3".toList, " B R 3".toList, "RANGES".toList, " G R 2".toList]) = .ok p ∧
    p.toGeneralFormDebug = .error .panic :=
  ⟨_, rfl, importOk_of (by decide +kernel), by decide +kernel, by decide +kernel⟩

end Mps

end Relp
