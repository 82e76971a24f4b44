import Verif.Spec.Block
/-
Specification of scripts.
-/
namespace PBat.Spec

/-- A line without its leading blanks. -/
def lineBody (l : List Char) : List Char := l.dropWhile (fun c => decide (Blank c))

/-- Labels: lines beginning with one colon. -/
def isLabel (l : List Char) : Bool := (lineBody l).head? == some ':' && (lineBody l)[1]? != some ':'

/-- Commands: lines which are not blank and do not begin with a colon. -/
def isCommand (l : List Char) : Bool := lineBody l != [] && (lineBody l).head? != some ':'

/-- A first line `#!`. -/
def isShebang (l : List Char) : Bool := (lineBody l).take 2 == ['#', '!']

/-- The lines after a `#!` line. -/
def effective : List (List Char) → List (List Char)
  | [] => []
  | l :: r => if isShebang l then r else l :: r

/-- A command ends with a line feed. -/
def terminated (t : List Char) : List Char := if '\n' ∈ t then t else t ++ ['\n']

/-- The commands of a script, in order. -/
def commands (ls : List (List Char)) : List (List Char) := (ls.filter isCommand).map (fun l => terminated (lineBody l))

/-- The name of a label, with its colon: the line without blanks on both sides. -/
def labelName (l : List Char) : List Char := ((lineBody l).reverse.dropWhile (fun c => decide (Blank c))).reverse

/-- A label has a given name: they agree up to case, and the label may go on after a blank. -/
def LabelMatches (label name : List Char) : Prop :=
  ∃ n rest, label = n ++ rest ∧ n.map Char.toLower = name.map Char.toLower ∧ ∀ c, rest.head? = some c → Blank c

/-- A whole command line without its final line feed: commands joined by operators; blocks may contain line feeds. -/
inductive Whole (strict : Bool) : List Char → Prop
  | last {g l} : Line strict g l → Whole strict l
  | cons {g l c b} : Line strict g l → c = '&' ∨ c = '|' ∨ (g = true ∧ Margin c) → Whole strict b → Whole strict (l ++ c :: b)

end PBat.Spec
