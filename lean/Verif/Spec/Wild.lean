/-
Specification of wildcard patterns.
-/
namespace PBat.Spec

/-- A character encoded in UTF-8: an ASCII character, or a leading byte and the bytes following it. -/
def Glyph (g : List Char) : Prop :=
  (∃ c : Char, g = [c] ∧ c.toNat < 0x80) ∨
    ∃ (c : Char) (l : List Char), g = c :: l ∧ 0xC0 ≤ c.toNat ∧ ∀ d ∈ l, 0x80 ≤ d.toNat ∧ d.toNat < 0xC0

/-- Equality of characters, without regard to case if `ci`. -/
def SameLetter (ci : Bool) (c d : Char) : Prop := c = d ∨ (ci = true ∧ c.toLower = d.toLower)

/-- The meaning of patterns: `*` stands for any text, `?` for one character, and other characters for themselves. -/
inductive Wild (ci : Bool) : List Char → List (List Char) → Prop
  | nil : Wild ci [] []
  | empty {p s} : Wild ci p s → Wild ci ('*' :: p) s
  | more {p g s} : Wild ci ('*' :: p) s → Wild ci ('*' :: p) (g :: s)
  | one {p g s} : Wild ci p s → Wild ci ('?' :: p) (g :: s)
  | char {p c d s} : c ≠ '*' → c ≠ '?' → SameLetter ci c d → Wild ci p s → Wild ci (c :: p) ([d] :: s)

end PBat.Spec
