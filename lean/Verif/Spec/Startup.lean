import Verif.Spec.Exec
/-
Specification of the command line of the interpreter.
-/
namespace PBat.Spec

/-- The documented ways of writing modes: `/A` or `/A:` and letters. -/
inductive ModesWord : List Char → List Char → Prop
  | plain {a ls : List Char} : a = ['a'] ∨ a = ['A'] → ls.head? ≠ some ':' → ModesWord ('/' :: a ++ ls) ls
  | colon {a ls : List Char} : a = ['a'] ∨ a = ['A'] → ModesWord ('/' :: a ++ ':' :: ls) ls

/-- Words that set modes. -/
inductive ModesWords : List (List Char) → List (List Char) → Prop
  | nil : ModesWords [] []
  | cons {w ls ws lss} : ModesWord w ls → ModesWords ws lss → ModesWords (w :: ws) (ls :: lss)

/-- A mode is asked for: its letter, in lower or upper case, is among the letters. -/
def ModeAsked (l : Char) (lss : List (List Char)) : Prop := ∃ ls ∈ lss, ∃ c ∈ ls, c.toLower = l

instance (l lss) : Decidable (ModeAsked l lss) := by unfold ModeAsked; infer_instance

/-- Words that can be put in a command line without change: not empty, without the characters of `q` and quotes; commas and semicolons only
beside blanks, since only words with blanks are put in quotes. -/
def PlainWord (q : Char → Bool) (a : List Char) : Prop :=
  a ≠ [] ∧ (∀ c ∈ a, q c = false ∧ c ≠ '"') ∧ ((∃ c ∈ a, c = ' ' ∨ c = '\t' ∨ c = '\n') ∨ ∀ c ∈ a, c ≠ ',' ∧ c ≠ ';')

instance (q a) : Decidable (PlainWord q a) := by unfold PlainWord; infer_instance

end PBat.Spec
