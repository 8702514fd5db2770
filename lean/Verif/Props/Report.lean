import Verif.Model.Report
import Verif.Props.MpsParse

/-!
# Properties: the messages of import errors (C74)

**C74.** Every error that importing a file gives can be displayed and its causes can be listed, and this tells
what is wrong and on which line. This is false: displaying an inconsistency never ends, and lines are not told.
-/

namespace Relp.Report

open Mps

/-- **C74**, partial: an error of importing a file that is not an inconsistency is displayed, and its text tells
its description. Missing: inconsistencies, see `C74_not_inconsistency`, and lines, see `C74_not_line`. -/
theorem C74_shown_partial (e : ImportReport) (h : e.kind ≠ .text .inconsistency) (fuel : ℕ) :
    ∃ text, e.display fuel = some text ∧
      match e with
      | .fileExtension message => text = message
      | .io error => text = error.text
      | .parse error => ∃ before after, text = before ++ error.description ++ after
      | .linearProgram _ => True := by
  cases e with
  | fileExtension message => exact ⟨_, rfl, rfl⟩
  | io error => exact ⟨_, rfl, rfl⟩
  | parse error => exact ⟨_, rfl, _, _, rfl⟩
  | linearProgram d => exact absurd rfl h

example : ∃ text, (ImportReport.parse (.located "Line too short." 3 "NA")).display 1 = some text ∧
    ∃ before after, text = before ++ "Line too short." ++ after :=
  C74_shown_partial (.parse (.located "Line too short." 3 "NA")) (by decide) 1

/-- An error of importing a file tells that the file could not be read exactly if it could not, and that its
extension is not supported exactly if it was read and its extension is not one of the two. -/
theorem C74_kind (contents : Option Text) (extension : Option (Option Text)) (e : ImportReport)
    (h : importFile contents extension = .error e.kind) :
    ((∃ error, e = .io error) ↔ contents = none) ∧
      ((∃ message, e = .fileExtension message) ↔ contents ≠ none ∧
        extension ≠ some (some "mps".toList) ∧ extension ≠ some (some "SIF".toList)) := by
  unfold importFile at h
  cases contents with
  | none => cases e <;> simp_all [ImportReport.kind]
  | some text =>
    match extension with
    | none => cases e <;> simp_all [ImportReport.kind]
    | some none => cases e <;> simp_all [ImportReport.kind]
    | some (some x) =>
      dsimp only at h
      split at h
      · next hx =>
        split at h
        · cases h
        · cases e <;> simp_all [ImportReport.kind] <;> exact hx.resolve_left
      · cases e <;> simp_all [ImportReport.kind]

example : importFile (some []) (some (some "lp".toList)) = .error (ImportReport.fileExtension "lp?").kind :=
  by decide +kernel

/-- **C74**, partial: the causes of an error that comes from another crate are told, that error first if it was
wrapped. Missing: errors that were wrapped by `wrap`, see `C74_not_cause`. -/
theorem C74_causes_partial (description : String) (cause : Other) :
    (ImportReport.io cause).causes = cause.causes ∧
      (ImportReport.parse (.wrappedOther description cause)).causes = cause.text :: cause.causes := ⟨rfl, rfl⟩

example : "invalid float literal" ∈
    (ImportReport.parse (.wrappedOther "no number" ⟨"invalid float literal", []⟩)).causes := by
  rw [(C74_causes_partial _ _).2]
  exact List.mem_cons_self

/-- **C74 is false**: displaying an inconsistency never ends. -/
theorem C74_not_inconsistency (e : ImportReport) (h : e.kind = .text .inconsistency) (fuel : ℕ) :
    e.display fuel = none := by
  have hd : ∀ (fuel : ℕ) (d : String), displayInconsistency fuel d = none := by
    intro fuel
    induction fuel with
    | zero => exact fun _ => rfl
    | succ n ih => intro d; simp [displayInconsistency, ih]
  cases e with
  | linearProgram d => exact hd fuel d
  | fileExtension _ => cases h
  | io _ => cases h
  | parse _ => cases h

/-- Nor does listing the causes of an inconsistency, as converting a program gives it. -/
theorem C74_not_causes (description : String) (fuel : ℕ) : causesInconsistency fuel description = none := by
  induction fuel with
  | zero => rfl
  | succ n ih =>
    unfold causesInconsistency
    rw [ih]
    split
    · rename_i h; cases h
    · rfl

/-- A file whose import error can not be displayed: two rows have the same name. -/
theorem C74_not_file : ∃ text, importFile (some text) (some (some "mps".toList)) = .error (.text .inconsistency) ∧
    ∀ (e : ImportReport) (fuel : ℕ),
      importFile (some text) (some (some "mps".toList)) = .error e.kind → e.display fuel = none := by
  have h : importFile (some "NAME X\nROWS\n N C\n L R\n L R\nCOLUMNS\n A R 1\nENDATA\n".toList)
      (some (some "mps".toList)) = .error (.text .inconsistency) := by
    decide +kernel
  exact ⟨_, h, fun e fuel he => C74_not_inconsistency e (Except.error.inj (h.symm.trans he)).symm fuel⟩

/-- **C74 is false**: neither the text nor the causes of an error tell the line that it was found at. -/
theorem C74_not_line (description : String) (number number' : ℕ) (line line' : String) (fuel : ℕ) :
    (ImportReport.parse (.located description number line)).display fuel =
        (ImportReport.parse (.located description number' line')).display fuel ∧
      (ImportReport.parse (.located description number line)).causes =
        (ImportReport.parse (.located description number' line')).causes := ⟨rfl, rfl⟩

/-- Nor do they tell the error that an error was made from by `wrap`. -/
theorem C74_not_cause (description : String) (cause cause' : Parse) (fuel : ℕ) :
    (ImportReport.parse (.wrapped description cause)).display fuel =
        (ImportReport.parse (.wrapped description cause')).display fuel ∧
      (ImportReport.parse (.wrapped description cause)).causes =
        (ImportReport.parse (.wrapped description cause')).causes := ⟨rfl, rfl⟩

/-- The errors that an error was made from by `wrap`, itself first. -/
inductive MadeFrom : Parse → Parse → Prop
  | self (e : Parse) : MadeFrom e e
  | wrapped {description : String} {cause e : Parse} : MadeFrom cause e → MadeFrom (.wrapped description cause) e

/-- `trace`, which is private and not called, would tell both: it lists the texts of all errors that an error
was made from, and the line. -/
theorem C74_trace (e cause : Parse) (h : MadeFrom e cause) :
    cause.display ∈ e.trace ∧ ∀ description number line, cause = .located description number line →
      "Caused at line " ++ toString number ++ ": \t" ++ line ∈ e.trace := by
  induction h with
  | self e =>
    cases e with
    | new d => exact ⟨by simp [Parse.trace], nofun⟩
    | located d n l =>
      refine ⟨by simp [Parse.trace], ?_⟩
      rintro _ _ _ ⟨⟩
      simp [Parse.trace]
    | wrapped d c => exact ⟨by simp [Parse.trace], nofun⟩
    | wrappedOther d c => exact ⟨by simp [Parse.trace], nofun⟩
  | wrapped _ ih =>
    refine ⟨?_, fun d n l hl => ?_⟩
    · exact List.mem_append_left _ ih.1
    · exact List.mem_append_left _ (ih.2 d n l hl)

example : "Caused at line 7: \t X R 1" ∈
    (Parse.wrapped "could not read" (.located "no number" 7 " X R 1")).trace :=
  (C74_trace _ _ (.wrapped (.self (.located "no number" 7 " X R 1")))).2 _ 7 _ rfl

end Relp.Report
