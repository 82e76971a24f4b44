import Verif.Spec.Args
import Verif.Spec.Env
/-
Specification of SET, from `man/en_US/set.tea`.
-/
namespace PBat.Spec

/-- The text `t` assigns `v` to `n`: the name ends at the first equal sign; if the text begins with a quote and has another one, it is what lies
between the first and the last quote that counts. -/
inductive SetsTo : List Char → List Char → List Char → Prop
  | plain {n v} : '=' ∉ n → ((n ++ '=' :: v).head? = some '"' → '"' ∉ (n ++ '=' :: v).tail) → SetsTo (n ++ '=' :: v) n v
  | quoted {n v j} : '=' ∉ n → '"' ∉ j → SetsTo ('"' :: (n ++ '=' :: v ++ '"' :: j)) n v

/-- Characters that begin neither a switch nor something to expand. -/
def Ordinary (c : Char) : Prop := ¬ Blank c ∧ c ∉ ['/', '"', '^', '%', '!']

instance (c : Char) : Decidable (Ordinary c) := by unfold Ordinary; infer_instance

/-- The text begins with an ordinary character, possibly after a quote. -/
def Begins (s : List Char) : Prop := (∃ c r, s = c :: r ∧ Ordinary c) ∨ ∃ c r, s = '"' :: c :: r ∧ c ∉ ['/', '"', '^', '%', '!']

/-- The expansion keeps a character without meaning at the beginning of a text, and a text without anything to expand. -/
structure Keeps (ex : List Char → Res (List Char)) : Prop where
  first : ∀ c t, c ∉ ['^', '%', '!'] → ∃ u, ex (c :: t) = .ok (c :: u)
  plain : ∀ t, (∀ c ∈ t, c ∉ ['^', '%', '!']) → ex t = .ok t

/-- The variables of the map `M` the name of which begins with `p`, up to case, each listed once as name and content. -/
structure Lists (M : Map) (p : List Char) (vars : List (List Char × List Char)) : Prop where
  once : (vars.map fun x => fold x.1).Nodup
  all : ∀ k c, (∃ n, (n, c) ∈ vars ∧ fold n = k) ↔ M k = some c ∧ fold p <+: k
  sorted : vars.Pairwise fun a b => ¬ (fold b.1).map Char.toNat < (fold a.1).map Char.toNat

/-- A line of the listing. -/
def listLine (x : List Char × List Char) : List Char := x.1 ++ '=' :: x.2 ++ ['\n']

/-- The answer typed: the next line of the input, without its end; nothing at the end of input. -/
inductive Answer : List (List Char) → List Char → List (List Char) → Prop
  | line {a r rest} : '\n' ∉ a → Answer ((a ++ '\n' :: r) :: rest) a rest
  | last {a} : '\n' ∉ a → Answer [a] a []
  | ended : Answer [] [] []

end PBat.Spec
