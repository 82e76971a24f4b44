import Verif.Spec.Str
/-
Specification of parameter extraction.
-/
namespace PBat.Spec

/-- The blanks between parameters. -/
def Blank (c : Char) : Prop := c = ' ' ∨ c = '\t' ∨ c = ',' ∨ c = ';' ∨ c = '\n'

instance (c) : Decidable (Blank c) := by unfold Blank; infer_instance

/-- The end of the parameter at the beginning of `s`: the first unescaped delimiter outside quotes, the end of the
text if there is none. -/
def ParamEnd (p : Char → Bool) (s raw rest : List Char) : Prop :=
  s = raw ++ rest ∧
    IsFirst (fun i => Hit (fun c => p c && c != '"') s i ∧ OutQuotes s i) (if rest = [] then none else some raw.length)

/-- The value of a parameter: an opening quote is removed, and with it a closing quote (at the end of the line only
if it is not escaped). -/
inductive ParamText (atEnd : Bool) : List Char → List Char → Prop
  | bare {raw} : raw.head? ≠ some '"' → ParamText atEnd raw raw
  | quoted {m} : (atEnd = true → Free m m.length) → ParamText atEnd ('"' :: (m ++ ['"'])) m
  | opened {m} : (∀ x, m = x ++ ['"'] → atEnd = true ∧ ¬ Free x x.length) → ParamText atEnd ('"' :: m) m

/-- Ways of writing an argument: in quotes with the characters of `q` escaped, or as a bare word without blanks,
quotes or characters of `q`. -/
inductive Written (q : Char → Bool) : List Char → List Char → Prop
  | quoted {a} : Written q ('"' :: (escape q a ++ ['"'])) a
  | word {a} : a ≠ [] → (∀ c ∈ a, ¬ Blank c) → '"' ∉ a → (∀ c ∈ a, q c = false) → Written q a a

/-- Lines of written arguments separated by blanks. -/
inductive ParamLine (q : Char → Bool) : List Char → List (List Char) → Prop
  | none {w} : (∀ c ∈ w, Blank c) → ParamLine q w []
  | last {w x a} : (∀ c ∈ w, Blank c) → Written q x a → ParamLine q (w ++ x) [a]
  | cons {w x a b rest as} : (∀ c ∈ w, Blank c) → Written q x a → Blank b → ParamLine q rest as →
      ParamLine q (w ++ x ++ b :: rest) (a :: as)

end PBat.Spec

namespace PBat.Spec

/-- Lines beginning with written arguments, followed by any rest that begins with a blank. -/
inductive ParamPrefix (q : Char → Bool) : List Char → List (List Char) → List Char → Prop
  | last {w x a rest} : (∀ c ∈ w, Blank c) → Written q x a → (rest = [] ∨ ∃ b r, rest = b :: r ∧ Blank b) →
      ParamPrefix q (w ++ x ++ rest) [a] rest
  | cons {w x a b r as rest} : (∀ c ∈ w, Blank c) → Written q x a → Blank b → ParamPrefix q (b :: r) as rest →
      ParamPrefix q (w ++ x ++ b :: r) (a :: as) rest

end PBat.Spec
