import Verif.Model.SolveGeneral
import Verif.Model.MpsParse

/-!
# From the text of a file to a solution

All stages in a row, as the tests on the files of the usual collections run them.
-/

namespace Relp

namespace Mps

/-- `solve` (tests/netlib/mod.rs:47-70, tests/unicamp/mod.rs:47-88, tests/miplib/mod.rs:49-75): the text is
read, converted, presolved and solved, and the values of all variables are computed. Nothing if a stage gives
an error (the tests call `unwrap`), the code aborts or the fuel is used up; other verdicts than an optimum, for
which the tests panic, are passed on, and so are verdicts of `presolve`, as in tests/unicamp/mod.rs:60-74. -/
def solveText (parse : Text → Import Mps) (inv : InverseName) (rule : RuleName) (presolveFuel fuel : ℕ)
    (text : Text) : Option LinearProgramType :=
  match parse text with
  | .error _ => none
  | .ok p =>
    match p.toGeneralForm with
    | .error _ => none
    | .ok G => G.presolveAndSolve inv rule presolveFuel fuel

end Mps

end Relp
