import Verif.Spec.LP
import Verif.Model.Solve
import Mathlib.Algebra.Notation.Pi.Basic

/-!
# Specification: what the solver is given

The linear program that a matrix provider describes, and what a caller of `solve_relaxation` has to
provide: valid sparse columns, a non-negative right-hand side, and, if initial basis columns are
offered, unit columns.
-/

namespace Relp

open Matrix

/-- The matrix with the given sparse columns. -/
def columnsMatrix {m n : ℕ} (columns : Fin n → Sparse m) : Matrix (Fin m) (Fin n) ℚ :=
  Matrix.of fun i k => SVec.val (columns k) i

/-- The linear program that a provider describes. -/
def Provider.toLP {m n : ℕ} (P : Provider m n) : Spec.LP m n where
  A := columnsMatrix P.column
  b := P.rhs
  c := P.cost

/-- The linear program of phase one: artificial variable `k`, of cost one, is added to row
`columnToRow k`; the other variables cost nothing. -/
def Provider.phaseOneLP {m n nrArtificial : ℕ} (P : Provider m n)
    (columnToRow : Fin nrArtificial → Fin m) : Spec.LP m (nrArtificial + n) where
  A := Matrix.of fun i => Fin.addCases (fun k => if columnToRow k = i then 1 else 0)
    fun j => P.toLP.A i j
  b := P.rhs
  c := Fin.addCases (fun _ => 1) fun _ => 0

/-- What the solver needs to know about a provider: stored columns are well-formed, the right-hand
side is non-negative, and for redundant rows the columns are filtered correctly (this last part holds
by definition for providers that use the plain deletion of stored tuples). -/
structure Provider.Ok {m n : ℕ} (P : Provider m n) : Prop where
  wf : ∀ j, SVec.WF (P.column j)
  rhs_nonneg : ∀ i, 0 ≤ P.rhs i
  filter : ∀ rows, P.toLP.Redundant rows →
    ∀ j, P.filteredColumn rows j = removeSparseIndices rows (P.column j)

/-- The columns that a provider offers as initial basis are unit columns, in the order of the rows. -/
structure PivotsOk {m n : ℕ} (P : Provider m n) (pivots : List (Fin m × Fin n)) : Prop where
  sorted : (pivots.map (·.1)).Pairwise (· < ·)
  unit : ∀ p ∈ pivots, SVec.val (P.column p.2) = Pi.single p.1 1

/-- The columns that a provider offers as full initial basis are a set of unit columns, one for
each of the rows. -/
structure FullPivotsOk {m n : ℕ} (P : Provider m n) (pivots : List (Fin m × Fin n)) : Prop where
  length : pivots.length = m
  nodup : (pivots.map (·.1)).Nodup
  unit : ∀ p ∈ pivots, SVec.val (P.column p.2) = Pi.single p.1 1

/-- What the initial basis offered by a provider has to be. -/
def StartOk {m n : ℕ} (P : Provider m n) : InitialBasis m n → Prop
  | .none => True
  | .partially pivots => PivotsOk P pivots
  | .fully pivots => FullPivotsOk P pivots

end Relp
