import Verif.Model.ErrorMsg
import Verif.Spec.Prompt
/-
Specification of error messages.
-/
namespace PBat.Spec

/-- A message that names what is wrong: a text with a hole, `%%` being written for a per cent sign. -/
structure Hole where
  before : List Char
  after : List Char

/-- How texts are written in the table. -/
def percents : List Char → List Char
  | [] => []
  | c :: t => if c = '%' then '%' :: '%' :: percents t else c :: percents t

/-- The message of the table. -/
def Hole.format (h : Hole) : List Char := percents h.before ++ ['%', 's'] ++ percents h.after

/-- The message a user reads. -/
def Hole.fill (h : Hole) (s : List Char) : List Char := h.before ++ s ++ h.after

/-- The message a user reads: its text, and the reason if it has one. -/
def errorText (m : List Char) (reason : Option (List Char)) : List Char :=
  m ++ ['\n'] ++ match reason with
    | none => []
    | some r => '\t' :: "Reason: ".toList ++ r ++ ['\n']

/-- Bright red, a digit of the table of colours. -/
def brightRed : Colour := some 12

end PBat.Spec
