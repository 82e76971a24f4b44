import Verif.Model.Cu8Write
/-
C95: what the conversion of a text should give.
-/
namespace PBat.Spec
open PBat.Cu8 (Coder Next)

/-- A character, its bytes in both encodings, or a byte that is not part of any. -/
inductive CuItem where
  | glyph (src out : List Nat)
  | junk (b : Nat)

/-- The bytes before the conversion. -/
def CuItem.src : CuItem → List Nat
  | .glyph s _ => s
  | .junk b => [b]

/-- The bytes after the conversion. -/
def CuItem.out : CuItem → List Nat
  | .glyph _ o => o
  | .junk _ => []

/-- The conversion finds the character, whatever follows. -/
def CuItem.Known (cd : Coder) : CuItem → Prop
  | .glyph s o => s ≠ [] ∧ o.length ≤ 8 ∧ ∀ rest, cd (s ++ rest) = .char s.length o
  | .junk b => ∀ rest, cd (b :: rest) = .invalid

/-- The bytes of a text. -/
def cuSrc (t : List CuItem) : List Nat := t.flatMap (·.src)
/-- The text converted. -/
def cuOut (t : List CuItem) : List Nat := t.flatMap (·.out)

/-- The end of a text is the beginning of a character. -/
def Cut (cd : Coder) (tail : List Nat) : Prop := tail = [] ∨ (tail ≠ [] ∧ cd tail = .incomplete)

end PBat.Spec
