import Verif.Spec.Call
/-
Specification of running programs and scripts by name.
-/
namespace PBat.Spec

/-- Texts in which expansion finds nothing: no caret, no percent sign, no exclamation mark. -/
def Still (a : List Char) : Prop := ∀ c ∈ a, c ≠ '^' ∧ c ≠ '%' ∧ c ≠ '!'

instance (a) : Decidable (Still a) := by unfold Still; infer_instance

/-- Command lines: blanks and `@`, the name of the command and its arguments. -/
inductive CommandLine (q : Char → Bool) : List Char → List Char → List Char → List (List Char) → Prop
  | intro {lead x name tail as} : (∀ c ∈ lead, Blank c ∨ c = '@') → Written q x name → x.head? ≠ some '@' →
      (tail = [] ∨ ∃ b r, tail = b :: r ∧ Blank b) → ParamLine q tail as → CommandLine q (lead ++ x ++ tail) name tail as

/-- How a process ends, as the system tells it to its father (`waitpid`): it returned a code, or was killed by a signal, possibly with a
memory dump. -/
inductive Ends
  | code (n : Nat)
  | killed (signal : Nat) (dump : Bool)

/-- The value of `waitpid`. -/
def Ends.status : Ends → Nat
  | .code n => n % 256 * 256
  | .killed s d => s % 128 + if d then 128 else 0

/-- The text after its leading blanks. -/
def LessBlanks (t s : List Char) : Prop := ∃ w, t = w ++ s ∧ (∀ c ∈ w, Blank c) ∧ ∀ c, s.head? = some c → ¬ Blank c

end PBat.Spec
