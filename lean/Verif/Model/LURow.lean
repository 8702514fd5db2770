import Verif.Model.LU

/-!
# A single value of a triangular solve

`left_multiply_by_upper_inverse_row` of lower_upper/mod.rs. It is not called in the code: `generate_element` computes
the entire column (see the comment at lower_upper/mod.rs:245).
-/

namespace Relp

namespace LU

variable {m : ℕ}

/-- `left_multiply_by_upper_inverse_row` (lower_upper/mod.rs:323-337). -/
def leftUpperRow (lu : LU m) (targetRow : Fin m) : ℕ → Sparse m → Res (Option ℚ)
  | fuel, rhs =>
    match rhs.getLast?, fuel with
    | none, _ => .ok none
    | some _, 0 => .error .outOfFuel
    | some (row, value), fuel + 1 =>
      if row < targetRow then .ok none
      else if lu.upperDiagonal row = 0 then panic .divisionByZero
      else if row = targetRow then .ok (some (value / lu.upperDiagonal row))
      else leftUpperRow lu targetRow fuel (lu.updateRhs row (value / lu.upperDiagonal row) rhs.dropLast)

end LU

end Relp
