import Verif.Spec.Words
/-
Specification of GOTO as a command of a script.
-/
namespace PBat.Spec.Txt
open PBat PBat.Spec

/-- The command is GOTO, in any case, with the name `n`: behind blanks, or behind a colon, or both.  Blanks may follow. -/
def GotoText (n c : List Char) : Prop :=
  ∃ w g b m v, c = w ++ (g ++ (b ++ m ++ v)) ∧ Lead w ∧ fold g = "goto".toList ∧ (∀ c ∈ b, Blank c) ∧ b.head? ≠ some ';' ∧
    (m = n ∧ b ≠ [] ∨ m = ':' :: n) ∧ ∀ c ∈ v, Blank c

/-- A name of one word, which no option begins with; delayed expansion, `ex`, leaves it as it is. -/
def GotoWord (ex : List Char → Res (List Char)) (n : List Char) : Prop :=
  n ≠ [] ∧ (∀ c ∈ n, ¬ Blank c ∧ c ≠ ':') ∧ (∀ c, n.head? = some c → c ∉ "/\"^!%".toList) ∧ ex n = .ok n ∧ ex (':' :: n) = .ok (':' :: n)

/-- `b` are the lines of the script behind the first label named `n`, and `a` those before it. -/
def Labelled (ls : List (List Char)) (n : List Char) (a b : List (List Char)) : Prop :=
  ∃ l, effective ls = a ++ l :: b ∧ isLabel l = true ∧ LabelMatches (labelName l) (':' :: n) ∧
    ∀ x ∈ a, isLabel x = true → ¬ LabelMatches (labelName x) (':' :: n)

/-- The rows of a block run one after the other, none of them leaves the block. -/
inductive Ran (q : Char → Bool) {ν W τ : Type} (h : PBat.Prog.Host ν W τ) (s : τ × τ × τ) : W × Script → Int → List (List Char) → W × Script → Int → Prop
  | nil {x e} : Ran q h s x e [] x e
  | cons {l ls x e x' e' a x'' e''} : Does q h (.line l) s x e x' e' a → a = .no ∨ a = .line → Ran q h s x' e' ls x'' e'' →
      Ran q h s x e (l :: ls) x'' e''

end PBat.Spec.Txt
