import Verif.Spec.TextRun
import Verif.Spec.CmdList
/-
Specification of the first word of a command, and of what a line beginning with IF does.
-/
namespace PBat.Spec.Txt
open PBat PBat.Spec

/-- Behind blanks and `@` the command begins with the word `k`, in any case; `y` is the text behind it. -/
def FirstWord (k : List Char) (c y : List Char) : Prop := ∃ w v, c = w ++ (v ++ y) ∧ Lead w ∧ fold v = k ∧ CmdEnd y

/-- What a line beginning with IF does, given the value of its condition, with or without ELSE: `code` is what is chosen.  With ELSE, the first
block runs without the redirections and the rest of the line. -/
inductive IfEffect (q : Char → Bool) {ν W τ : Type} (h : PBat.Prog.Host ν W τ) (first : Piece × List Piece) (more : List (Link × Piece × List Piece)) (s : τ × τ × τ)
    (x : W × Script) (e : Int) (yes : List Char) : Option (List Char) → Prop → W × Script → Abort → Prop
  | runs {P : Prop} {x' e' a} : P → Does q h (.parts ((.seq, (first.1.1, '(' :: (yes ++ [')'])), first.2) :: more)) s x e x' e' a →
      IfEffect q h first more s x e yes none P x' a
  | nothing {P : Prop} : ¬ P → IfEffect q h first more s x e yes none P x .no
  | alone {P : Prop} {no x' e' a} : P → Does q h (.command ('(' :: (yes ++ [')']))) s x e x' e' a →
      IfEffect q h first more s x e yes (some no) P x' a
  | otherwise {P : Prop} {no x' e' a} : ¬ P → Does q h (.parts ((.seq, (first.1.1, '(' :: (no ++ [')'])), first.2) :: more)) s x e x' e' a →
      IfEffect q h first more s x e yes (some no) P x' a

end PBat.Spec.Txt
