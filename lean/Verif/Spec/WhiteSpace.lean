/-!
# Specification: whitespace

The characters that separate words, by the property `White_Space` of Unicode (`PropList.txt`).
-/

namespace Relp.Spec

/-- The code points of whitespace: tab, line feed, vertical tab, form feed, carriage return, space, next line,
no-break space, Ogham space mark, the spaces of general punctuation, line separator, paragraph separator, narrow
no-break space, medium mathematical space and ideographic space. -/
def whiteSpace : List Nat :=
  [0x9, 0xA, 0xB, 0xC, 0xD, 0x20, 0x85, 0xA0, 0x1680, 0x2000, 0x2001, 0x2002, 0x2003, 0x2004, 0x2005, 0x2006,
    0x2007, 0x2008, 0x2009, 0x200A, 0x2028, 0x2029, 0x202F, 0x205F, 0x3000]

/-- A character is whitespace. -/
def WhiteSpace (c : Char) : Prop := c.toNat ∈ whiteSpace

end Relp.Spec
