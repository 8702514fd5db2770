import Verif.Spec.Mps
import Verif.Spec.MpsMeaning

/-!
# Specification: what a debug build asks of an MPS file

Follows the comments at the checks in convert.rs and parse/mod.rs.
-/

namespace Relp.Mps

/-- Columns have different names, no coefficient is zero, and a row with a range that is not zero has at most one
right-hand side. -/
structure Checked (p : Mps) : Prop where
  names : (p.columns.map (·.name)).Nodup
  nonzero : ∀ c ∈ p.columns, ∀ q ∈ c.values, q.2 ≠ 0
  rhsOnce : ∀ i r, (i, r) ∈ flatten p.ranges → r ≠ 0 →
    ((flatten p.rhss).filter fun q => q.1 = i).length ≤ 1

end Relp.Mps

namespace Relp.Spec

/-- Each marker changes whether variables are integer; `integer` is whether they are before. -/
def Alternating : (integer : Bool) → List ColumnItem → Prop
  | _, [] => True
  | integer, .marker i :: items => i ≠ integer ∧ Alternating i items
  | integer, .column _ :: items => Alternating integer items

/-- What a debug build asks of a file, in addition to what a release build does: markers change the type of
variables, columns have different names, no coefficient of a constraint is zero, and a row with a range that is not
zero has at most one right-hand side. -/
structure File.Checked (F : File) : Prop where
  markers : Alternating false F.columns
  names : (F.blocks.map (·.name)).Nodup
  nonzero : ∀ b ∈ F.blocks, ∀ e ∈ b.entries, F.IsConstraint e.row → e.number.value ≠ 0
  rhsOnce : ∀ row r, F.IsRange row r → r ≠ 0 →
    (((F.rhs.getD []).flatMap Block.entries).filter fun e => e.row = row).length ≤ 1

end Relp.Spec
