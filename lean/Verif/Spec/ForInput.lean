import Verif.Spec.For
import Verif.Spec.ForLine
import Verif.Spec.Replace
/-
Specification of the inputs of FOR /F, from `man/en_US/for.tea`.
-/
namespace PBat.Spec

/-- The lines of the content of a file: they end with a line feed, or with a carriage return and a line feed. -/
def ContentLines (s : List Char) (ls : List (List Char)) : Prop :=
  (∀ i, s[i]? = some '\r' → s[i + 1]? = some '\n') ∧ TextLines (normNL s) ls

/-- Lines of spaces and tabulations are left out when CMDLYCORRECT is set. -/
def inputLines (cc : Bool) (ls : List (List Char)) : List (List Char) :=
  ls.filter (fun l => !cc || l.any (fun c => c != ' ' && c != '\t'))

/-- The lines the body sees: those after the first `skip` which do not begin with one of `eol`; empty lines are not left out. -/
def wanted (skip : Nat) (eol : List Char) (ls : List (List Char)) : List (List Char) :=
  (ls.drop skip).filter (fun l => match l with | [] => true | c :: _ => decide (c ∉ eol))

/-- Lines the code treats as documented: no empty line unless there are no end-of-line characters, and lines left out by CMDLYCORRECT
hold no comma or semicolon. -/
def PlainLines (cc : Bool) (eol : List Char) (ls : List (List Char)) : Prop :=
  (eol = [] ∨ ∀ l ∈ inputLines cc ls, l ≠ []) ∧ (cc = true → ∀ l ∈ ls, (∀ c ∈ l, Blank c) → ∀ c ∈ l, c = ' ' ∨ c = '\t')

end PBat.Spec
