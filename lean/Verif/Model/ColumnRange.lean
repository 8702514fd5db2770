import Verif.Model.MatrixData
import Verif.Model.Rows
import Verif.Model.Run

/-!
# Model of starting from a given basis, and of the column range problem

Models `/repo/examples/column_range.rs`, and the way in which it uses `Carry::from_basis`,
`Tableau::new_with_inverse_maintainer` and `phase_two::primal`.
-/

namespace Relp

/-- Create a `Carry` from the columns of a basis (`from_basis`, carry/mod.rs:444-478), create a tableau with
it (`new_with_inverse_maintainer`, non_artificial.rs:95-108) and apply `phase_two::primal`
(phase_two.rs:22-59). This is what column_range.rs:179-189 does; `basis i` is the `i`-th of the basis
columns. -/
def primalFromBasis (BI : ℕ → Type) [BasisInverse BI] (R : ℕ → Type) [PivotRule R] (fuel : ℕ) {m n : ℕ}
    (P : Provider m n) (basis : Fin m → Fin n) : Res (OptimizationResult n) := do
  let carry ← (Carry.fromBasis P basis : Res (Carry BI m n))
  phaseTwo R fuel {
    carry
    basisColumns := Finset.univ.image basis
    kind := Tableau.nonArtificialKind P }

namespace ColumnRange

variable {m n : ℕ}

/-- `input_matrix` (column_range.rs:43-47), a `[[Option<i32>; n]; m]`. -/
abbrev Input (m n : ℕ) := Fin m → Fin n → Option ℤ

/-- How the program ends without a result. -/
inductive Abort
  /-- `input_matrix[0]` without any row (column_range.rs:50) -/
  | noRow
  /-- `unwrap()` for a column without value (column_range.rs:53) -/
  | noValue
  /-- the solver does not return -/
  | solver (fault : Fault)
  /-- `panic!("We started with a feasible solution, and has at least value 0.")`
  (column_range.rs:201) -/
  | notOptimal
  deriving DecidableEq

/-- `column_extreme` (column_range.rs:52-54). -/
def columnExtreme (f : List ℤ → Option ℤ) (input : Input m n) : Except Abort (List ℤ) :=
  (List.finRange n).mapM fun j =>
    match f ((List.finRange m).filterMap fun i => input i j) with
    | some v => .ok v
    | none => .error .noValue

/-- `variables` (column_range.rs:59-88). -/
def problemVars (m n : ℕ) : List Variable :=
  (List.replicate m ⟨.continuous, 0, some 0, none, 0, false⟩) ++
    (List.replicate n ⟨.continuous, -1, some 0, none, 0, false⟩) ++
    List.replicate n ⟨.continuous, 1, some 0, none, 0, false⟩

/-- The variables of the two loops. -/
structure State where
  /-- `row_major_constraints` -/
  rows : List (SVec ℕ)
  b : List ℚ
  /-- `basis_columns` -/
  basis : List ℕ
  /-- `nr_upper_bounded_constraints`, in the second loop `nr_lower_bounded_constraints` -/
  count : ℕ
  /-- `had_a_min`, in the second loop `had_a_max` -/
  had : List Bool

/-- What the loops do with a value (column_range.rs:107-131, 141-154). `offset + j` is the variable of the
column, `slack + count` that of the slack. -/
def add (offset slack : ℕ) (extreme : List ℤ) (s : State) (i : Fin m) (j : Fin n) (value : ℤ) : State :=
  let isFirst := value = extreme.getD j 0 ∧ ¬ s.had.getD j false
  { rows := s.rows ++ [[(i.val, 1), (offset + j.val, 1)]]
    b := s.b ++ [(value : ℚ)]
    basis := s.basis ++ [if isFirst then offset + j.val else slack + s.count]
    count := s.count + 1
    had := if isFirst then s.had.set j true else s.had }

/-- The two loops (column_range.rs:105-134 and 139-157). -/
def loop (offset slack : ℕ) (extreme : List ℤ) (input : Input m n) (s : State) : State :=
  (List.finRange n).foldl (fun s j => (List.finRange m).foldl (fun s i =>
    match input i j with
    | some value => add offset slack extreme s i j value
    | none => s) s) s

/-- The transposition (column_range.rs:160-165). -/
def transpose (nrColumns : ℕ) (rows : List (SVec ℕ)) : List (SVec ℕ) :=
  rows.zipIdx.foldl (fun columns p =>
    p.1.foldl (fun columns q => columns.modify q.1 (· ++ [(p.2, q.2)])) columns)
    (List.replicate nrColumns [])

/-- `matrix` (column_range.rs:166-176). -/
def matrix (m n nrUpper nrLower : ℕ) (rows : List (SVec ℕ)) (b : List ℚ) : MatrixData where
  constraints := ⟨transpose (m + 2 * n) rows, m + 2 * n, nrUpper + nrLower⟩
  b := b
  ranges := []
  nrEquality := 0
  nrRange := 0
  nrUpper := nrUpper
  nrLower := nrLower
  vars := problemVars m n

/-- The `match` on the result (column_range.rs:190-202). -/
def amounts (m : ℕ) (M : MatrixData) : Res (OptimizationResult M.nrColumns) → Except Abort (List ℚ)
  | .ok (.finiteOptimum x) =>
    .ok ((List.range m).map fun i => ((M.reconstructSolution x.toVector).get i).getD 0)
  | .ok _ => .error .notOptimal
  | .error fault => .error (.solver fault)

/-- The end of `main` (column_range.rs:178-202), with the rule that it uses. The vector of basis columns has
an element for each row; an index that is not that of a column would be out of bounds in `from_basis`. -/
def solve (fuel m : ℕ) (M : MatrixData) (basis : List ℕ) : Except Abort (List ℚ) :=
  if h : basis.length = M.nrRows ∧ ∀ c ∈ basis, c < M.nrColumns then
    amounts m M (primalFromBasis BasisInverseRows FirstProfitable fuel M.toProvider
      fun i => ⟨basis[i.val]'(by rw [h.1]; exact i.2), h.2 _ (List.getElem_mem _)⟩)
  else .error (.solver (.panic .indexOutOfBounds))

/-- `main` (column_range.rs:39-203), for any input; the result is what it prints. -/
def main (fuel : ℕ) (input : Input m n) : Except Abort (List ℚ) := do
  if m = 0 then .error .noRow
  let columnMin ← columnExtreme List.min? input
  let columnMax ← columnExtreme List.max? input
  let upper := loop m (m + 2 * n) columnMin input ⟨[], [], [], 0, List.replicate n false⟩
  let lower := loop (m + n) (m + 2 * n + upper.count) columnMax input
    { upper with count := 0, had := List.replicate n false }
  solve fuel m (matrix m n upper.count lower.count lower.rows lower.b) lower.basis

end ColumnRange

end Relp
