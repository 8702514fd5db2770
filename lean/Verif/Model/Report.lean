import Verif.Model.MpsParse

/-!
# Model of the messages of import errors

`/repo/src/io/error.rs`. The rest of the model leaves out the messages; here are the errors with them, and
what a user of the crate can get out of an error: its text (`Display`) and its cause (`Error::source`).

`fuel` bounds the number of nested calls: `none` means that more are needed. A call that gives `none` for every
`fuel` overflows the call stack.
-/

namespace Relp.Report

/-- An error of another crate, such as `io::Error`: its text, and its causes, the direct one first. That there
are finitely many is an assumption on the other crate. -/
structure Other where
  text : String
  causes : List String
  deriving DecidableEq

/-- `Parse` (io/error.rs:73-76) with `Source` (io/error.rs:191-196). The constructors are `new` (118-120),
`with_location` (132-141), `wrap` (144-149) and `wrap_other` (161-166). -/
inductive Parse
  | new (description : String)
  | located (description : String) (number : ℕ) (line : String)
  | wrapped (description : String) (cause : Parse)
  | wrappedOther (description : String) (cause : Other)
  deriving DecidableEq

/-- The field `description` of `Parse` (io/error.rs:74). -/
def Parse.description : Parse → String
  | .new d => d
  | .located d _ _ => d
  | .wrapped d _ => d
  | .wrappedOther d _ => d

/-- `Import` (io/error.rs:15-33); for `Inconsistency` (io/error.rs:208-210) its description. -/
inductive ImportReport
  | fileExtension (message : String)
  | io (error : Other)
  | parse (error : Parse)
  | linearProgram (description : String)
  deriving DecidableEq

/-- `fmt` of `Parse` (io/error.rs:81-83). -/
def Parse.display (e : Parse) : String := "ParseError: " ++ e.description ++ "\n"

/-- `fmt` of `Inconsistency` (io/error.rs:228-230): it writes a text and itself. -/
def displayInconsistency : ℕ → (description : String) → Option String
  | 0, _ => none
  | fuel + 1, description => (displayInconsistency fuel description).map fun text => "ProgramError: " ++ text

/-- `fmt` of `Import` (io/error.rs:47-54). -/
def ImportReport.display (fuel : ℕ) : ImportReport → Option String
  | .fileExtension message => some message
  | .io error => some error.text
  | .parse error => some error.display
  | .linearProgram description => displayInconsistency fuel description

/-- `source` of `Parse` (io/error.rs:92-96), and the causes of that, as texts. -/
def Parse.causes : Parse → List String
  | .wrappedOther _ cause => cause.text :: cause.causes
  | _ => []

/-- The texts of the causes that are found by calling `source` until there is none, for `Inconsistency`
(io/error.rs:234-236), which gives itself as its cause. -/
def causesInconsistency : ℕ → (description : String) → Option (List String)
  | 0, _ => none
  | fuel + 1, description =>
    match displayInconsistency fuel description, causesInconsistency fuel description with
    | some text, some causes => some (text :: causes)
    | _, _ => none

/-- The same for `Import` (io/error.rs:58-65). -/
def ImportReport.causes : ImportReport → List String
  | .fileExtension _ => []
  | .io error => error.causes
  | .parse error => error.causes
  | .linearProgram _ => []

/-- The error without messages, as in the rest of the model. -/
def ImportReport.kind : ImportReport → Mps.FileError
  | .fileExtension _ => .fileExtension
  | .io _ => .io
  | .parse _ => .text .parse
  | .linearProgram _ => .text .inconsistency

/-- `trace` (io/error.rs:169-184), which the crate does not call. -/
def Parse.trace : Parse → List String
  | .new d => [(Parse.new d).display]
  | .located d number line =>
    ["Caused at line " ++ toString number ++ ": \t" ++ line, (Parse.located d number line).display]
  | .wrapped d cause => cause.trace ++ [(Parse.wrapped d cause).display]
  | .wrappedOther d cause => [cause.text, (Parse.wrappedOther d cause).display]

end Relp.Report
