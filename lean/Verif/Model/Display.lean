import Verif.Model.Tableau
import Verif.Model.Rows
import Verif.Model.Vector

/-!
# Model of the texts that tableaus, basis inverses and vectors are displayed as

A line is a list of characters, and a text is a list of lines: `writeln!` ends a line. How a number is written is
up to the number type, so it is a parameter: `text`. The program measures texts in bytes (`String::len`) and pads
them in characters; these are the same for the texts of numbers, which are digits, a sign and a slash.
-/

namespace Relp.Display

/-- A line of text. -/
abbrev Line := List Char

/-- Reasons to abort. -/
inductive Failure
  /-- `assert!` (tableau/mod.rs:365) -/
  | assertion
  /-- `max().unwrap()` without any element (tableau/mod.rs:390, 396, basis_inverse_rows.rs:255) -/
  | emptyMaximum
  /-- `self.m() - 1` for no rows (basis_inverse_rows.rs:253), where overflow is checked -/
  | underflow
  /-- `generate_column` aborts -/
  | column (fault : Fault)
  deriving DecidableEq

/-- `to_string` of a `usize`. -/
def digits (n : ℕ) : Line := Nat.toDigits 10 n

/-- `{:>width$}`. -/
def alignRight (width : ℕ) (text : Line) : Line := List.replicate (width - text.length) ' ' ++ text

/-- `{:^width$}`: of the blanks, the smaller half is put before the text. -/
def center (width : ℕ) (text : Line) : Line :=
  List.replicate ((width - text.length) / 2) ' ' ++ text ++
    List.replicate (width - text.length - (width - text.length) / 2) ' '

/-- `.map(String::len).max().unwrap()` (tableau/mod.rs:390 and 396, basis_inverse_rows.rs:255). -/
def maxLength : List Line → Except Failure ℕ
  | [] => .error .emptyMaximum
  | line :: lines => .ok (lines.foldl (fun w l => max w l.length) line.length)

/-- The loops that write the cells of one line, each after a blank (tableau/mod.rs:401-403, 415-417, 426-428,
basis_inverse_rows.rs:260-262, 273-275). -/
def cells (widths : List ℕ) (texts : List Line) : Line :=
  (widths.zip texts).flatMap fun p => ' ' :: center p.1 p.2

/-! ### Tableau -/

/-- One line of the table of a tableau (tableau/mod.rs:399-404, 413-418 and 424-429). -/
def tableauLine (counter : Line) (bWidth : ℕ) (b : Line) (widths : List ℕ) (texts : List Line) : Line :=
  alignRight 4 counter ++ [' ', '|', ' '] ++ center bWidth b ++ [' ', '|'] ++ cells widths texts

/-- The width of a column (tableau/mod.rs:388-394). -/
def columnWidth (column : List Line) (j : ℕ) (cost : Line) : Except Failure ℕ := do
  let width ← maxLength column
  pure (max (max width (digits j).length) cost.length)

/-- `{:?}` of a `Vec` of pairs (tableau/mod.rs:437). -/
def debugPairs (pairs : List (ℕ × ℕ)) : Line :=
  ['['] ++ List.intercalate [',', ' ']
    (pairs.map fun p => ['('] ++ digits p.1 ++ [',', ' '] ++ digits p.2 ++ [')']) ++ [']']

/-- `{:?}` of a `Vec` of numbers (carry/mod.rs:724). -/
def debugIndices (indices : List ℕ) : Line :=
  ['['] ++ List.intercalate [',', ' '] (indices.map digits) ++ [']']

section

variable (text : ℚ → Line)

/-- `fmt` of `Dense` (dense.rs:195-200). -/
def dense (v : List ℚ) : List Line := v.map text ++ [[]]

/-- `fmt` of `Sparse` (sparse.rs:388-397). -/
def sparse (v : SVec ℕ) : Line :=
  ['['] ++ v.flatMap (fun p =>
    ['('] ++ digits p.1 ++ [' '] ++ text p.2 ++ [')'] ++ if p.1 < v.length - 1 then [',', ' '] else []) ++ [']']

/-- `fmt` of `Full` (permutation/full.rs:123-132). -/
def permutation (forward : List ℕ) : Line :=
  ['('] ++ (match forward with
    | [] => []
    | i :: rest => digits i ++ rest.flatMap fun i => [',', ' '] ++ digits i) ++ [')']

variable {BI : ℕ → Type} [BasisInverse BI] {m N : ℕ}

/-- `fmt` of `Carry` (carry/mod.rs:720-733). -/
def carry (inverse : BI m → Except Failure (List Line)) (c : Carry BI m N) : Except Failure (List Line) := do
  let lines ← inverse c.basisInverse
  pure (["Column ordering:".toList, debugIndices ((List.ofFn c.basisIndices).map (·.val)), "Minus PI:".toList] ++
    dense text (List.ofFn c.minusPi) ++ ["B^-1:".toList] ++ lines ++ [[]])

/-- The cell for a row of a generated column (tableau/mod.rs:379-382). -/
def cell (column : Sparse m) (i : Fin m) : Line :=
  match SVec.get? column i with
  | none => []
  | some value => text value

/-- `generate_column` for all columns (tableau/mod.rs:376-385). -/
def generateColumns (t : Tableau BI m N) : Except Failure (Fin N → Sparse m) :=
  match tabulateM fun j => t.generateColumn j with
  | .error fault => .error (.column fault)
  | .ok columns => .ok fun j => BasisInverse.infoColumn (columns j)

/-- The lines of the table in `fmt` of `Tableau` (tableau/mod.rs:368-430). -/
def table (t : Tableau BI m N) : Except Failure (List Line) := do
  let objective := text (-t.objectiveFunctionValue)
  let cost := (List.finRange N).map fun j => text (t.relativeCost j)
  let b := List.ofFn fun i => text (t.carry.b i)
  let columns ← generateColumns t
  let widths ← (List.finRange N).mapM fun j =>
    columnWidth ((List.finRange m).map (cell text (columns j))) j (text (t.relativeCost j))
  let bWidth ← maxLength b
  let bWidth := max bWidth objective.length
  let separator := List.replicate (4 + 1 + 1 + (1 + bWidth + 1) + 1 + (widths.map (1 + ·)).sum) '-'
  pure ([tableauLine [] bWidth ['b'] widths ((List.range N).map digits),
      separator,
      tableauLine "cost".toList bWidth objective widths cost,
      separator] ++
    (List.finRange m).map fun i : Fin m =>
      tableauLine (digits i) bWidth (text (t.carry.b i)) widths
        ((List.finRange N).map fun j => cell text (columns j) i))

/-- `fmt` of `Tableau` (tableau/mod.rs:364-440). -/
def tableau (inverse : BI m → Except Failure (List Line)) (t : Tableau BI m N) :
    Except Failure (List Line) := do
  if 4 < (digits m).length then throw .assertion
  let table ← table text t
  let rest ← carry text inverse t.carry
  pure (["=== Tableau ===".toList] ++ table ++ [[], "=== Basis Columns ===".toList,
    debugPairs ((List.finRange m).map fun i => (i.val, (t.carry.basisIndices i).val)),
    "=== Basis Inverse ===".toList] ++ rest)

/-! ### Basis inverses -/

/-- The cell for an entry of a basis inverse (basis_inverse_rows.rs:247-250). -/
def entry (row : Sparse m) (j : Fin m) : Line :=
  match SVec.get? row j with
  | none => ['0']
  | some value => text value

/-- `fmt` of `BasisInverseRows` (basis_inverse_rows.rs:245-279). -/
def inverseRows (bi : BasisInverseRows m) : Except Failure (List Line) := do
  if m = 0 then throw .underflow
  let counterWidth := (digits (m - 1)).length
  let widths ← (List.finRange m).mapM fun j : Fin m => do
    let width ← maxLength ((List.finRange m).map fun i => entry text (bi.rows i) j)
    pure (max (digits j).length width)
  pure ([alignRight counterWidth [] ++ [' ', '|'] ++ cells widths ((List.range m).map digits),
      List.replicate (counterWidth + 1 + 1 + (widths.map (1 + ·)).sum) '-'] ++
    ((List.finRange m).map fun i : Fin m =>
      alignRight counterWidth (digits i) ++ [' ', '|'] ++
        cells widths ((List.finRange m).map (entry text (bi.rows i)))) ++ [[]])

/-- The cell for an entry of the lower triangular matrix (lower_upper/mod.rs:454-463). -/
def lowerEntry (lu : LU m) (i j : Fin m) : Line :=
  if i < j then []
  else if i = j then ['1']
  else if h : j.val < m - 1 then entry text (lu.lowerColumn j h) i
  else []

/-- The cell for an entry of the upper triangular matrix (lower_upper/mod.rs:481-491). -/
def upperEntry (lu : LU m) (i j : Fin m) : Line :=
  if j < i then []
  else if i = j then text (lu.upperDiagonal j)
  else if h : 0 < j.val then entry text (lu.upperColumn j h) i
  else []

/-- A table in `fmt` of `LUDecomposition` (lower_upper/mod.rs:442-467 and 470-495). -/
def triangular (entries : Fin m → Fin m → Line) : List Line :=
  [alignRight 3 [] ++ [' ', '|'] ++ (List.range m).flatMap fun j => center 10 (digits j),
    List.replicate (3 + 1 + 1 + m * 10) '-'] ++
  (List.finRange m).map fun i : Fin m =>
    alignRight 3 (digits i) ++ [' ', '|'] ++ (List.finRange m).flatMap fun j => center 10 (entries i j)

/-- `fmt` of `LUDecomposition` (lower_upper/mod.rs:438-510); `rest` are the lines of the permutations and updates
(498-508), which are written with derived `Debug` implementations. -/
def inverseLU (rest : List Line) (lu : LU m) : List Line :=
  ["Lower:".toList] ++ triangular (lowerEntry text lu) ++ [[], "Upper:".toList] ++
    triangular (upperEntry text lu) ++ [[]] ++ rest

end

end Relp.Display
