import Verif.Model.Cu8Read
/-
C94: what reading a text with buffers of given sizes should give.
-/
namespace PBat.Spec
open PBat.Cu8 (Codec Dec)

/-- A character: its bytes in the file and in UTF-8. -/
structure CuGlyph where
  file : List Nat
  utf8 : List Nat

/-- The encoding reads the character: its bytes are a character, the first of them alone are not. -/
structure Encodes (cd : Codec) (g : CuGlyph) : Prop where
  whole : cd g.file = .char g.utf8
  parts : ∀ p, p ≠ [] → p ≠ g.file → p <+: g.file → cd p = .incomplete
  file : g.file ≠ []
  short : g.file.length ≤ 8
  utf8 : g.utf8 ≠ []
  size : g.utf8.length ≤ 4
  newline : 10 ∈ g.utf8 → g.utf8 = [10]

/-- The bytes of the file. -/
def cuFile (t : List CuGlyph) : List Nat := t.flatMap (·.file)
/-- The text. -/
def cuText (t : List CuGlyph) : List Nat := t.flatMap (·.utf8)

/-- `n` bytes of the text at most, up to the end of the line. -/
def oneLine : Nat → List Nat → List Nat
  | 0, _ => []
  | _, [] => []
  | n + 1, b :: t => if b = 10 then [b] else b :: oneLine n t

/-- What the standard says of `fgets` with buffers of the given sizes: at most one byte less than the size, nothing beyond
the end of the line, `none` at the end of the text. -/
def linesOf : List Nat → List Nat → List (Option (List Nat))
  | [], _ => []
  | s :: ss, text =>
    if text = [] then none :: linesOf ss text
    else some (oneLine (s - 1) text) :: linesOf ss (text.drop (oneLine (s - 1) text).length)

end PBat.Spec
