import Verif.Model.Basic

/-!
# What it means that a text is shown at a place in a line

For the properties of displayed texts (C78).
-/

namespace Relp.Spec

/-- The part of the line from position `start`, of the given width, is the text with blanks around it. -/
def ShownAt (line : List Char) (start width : ℕ) (text : List Char) : Prop :=
  start + width ≤ line.length ∧
    ∃ before after, (line.drop start).take width =
      List.replicate before ' ' ++ text ++ List.replicate after ' '

/-- The columns of a table, given by their first positions and widths, come one after the other, with at least
one position between them. -/
def Separated {N : ℕ} (start width : Fin N → ℕ) : Prop :=
  ∀ j k : Fin N, j < k → start j + width j < start k

end Relp.Spec
