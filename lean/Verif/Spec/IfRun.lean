import Verif.Spec.BlockRun
/-
Specification of the commands of IF: the lines written for a true and for a false condition, from `man/en_US/if.tea`.
-/
namespace PBat.Spec

/-- What IF governs: a block, or one command; with its lines. -/
inductive Branch (strict : Bool) : List Char → List (List Char) → Prop
  | block {w b v rs} : (∀ c ∈ w, Blank c) → Rows strict true rs b → (∀ c ∈ v, Blank c) → Branch strict (w ++ '(' :: (b ++ ')' :: v)) rs
  | command {w g l} : (∀ c ∈ w, Blank c) → Line strict g l → (∀ c, l.head? = some c → ¬ Blank c ∧ c ≠ '(') → Branch strict (w ++ l) [l]

/-- The text behind a condition: commands, or a block, ELSE and commands. -/
inductive IfText (strict : Bool) : List Char → List (List Char) → Option (List (List Char)) → Prop
  | one {s yes} : Branch strict s yes → IfText strict s yes none
  | both {w b v e t yes no} : (∀ c ∈ w, Blank c) → Rows strict true yes b → (∀ c ∈ v, Blank c) → e.map Char.toLower = "else".toList →
      (t = [] ∨ ∃ c r, t = c :: r ∧ Blank c) → Branch strict t no →
      IfText strict (w ++ '(' :: (b ++ ')' :: (v ++ (e ++ t)))) yes (some no)

/-- The lines that are not blank, without the blanks at their beginning. -/
def branchLines (rs : List (List Char)) : List (List Char) := (rs.filter fun r => decide (Nonblank r)).map unindent

/-- No line consists of `@`. -/
def NoAts (rs : List (List Char)) : Prop := ∀ r ∈ rs, Nonblank r → ∃ c ∈ r, ¬ Blank c ∧ c ≠ '@'

end PBat.Spec
