/-
Specifications for escaping, searching and quoting, written on positions of the text and without any
helper of the model.
-/
namespace PBat.Spec

/-- Number of consecutive carets immediately before position `i`. -/
def caretsBefore (s : List Char) (i : Nat) : Nat :=
  ((s.take i).reverse.takeWhile (· == '^')).length

/-- Position `i` is not escaped: an even number of carets immediately precedes it. -/
def Free (s : List Char) (i : Nat) : Prop := caretsBefore s i % 2 = 0

instance (s : List Char) (i : Nat) : Decidable (Free s i) := by unfold Free; infer_instance

/-- `i` is the position of an unescaped character satisfying `p`. -/
def Hit (p : Char → Bool) (s : List Char) (i : Nat) : Prop :=
  (∃ c, s[i]? = some c ∧ p c = true) ∧ Free s i

/-- Position `i` holds an unescaped double quote. -/
def QuoteAt (s : List Char) (i : Nat) : Prop := s[i]? = some '"' ∧ Free s i

instance (s : List Char) (i : Nat) : Decidable (QuoteAt s i) := by unfold QuoteAt; infer_instance

/-- Number of unescaped double quotes before position `i`. -/
def quotesBefore (s : List Char) (i : Nat) : Nat :=
  ((List.range i).filter (fun j => decide (QuoteAt s j))).length

/-- Position `i` lies outside every quoted section; the delimiting quotes belong to the section, and an
unclosed section extends to the end of the text. -/
def OutQuotes (s : List Char) (i : Nat) : Prop := quotesBefore s i % 2 = 0 ∧ ¬ QuoteAt s i

instance (s : List Char) (i : Nat) : Decidable (OutQuotes s i) := by unfold OutQuotes; infer_instance

/-- `r` is the least position with property `P`, `none` iff there is none. -/
def IsFirst (P : Nat → Prop) : Option Nat → Prop
  | none => ∀ i, ¬ P i
  | some i => P i ∧ ∀ j, j < i → ¬ P j

/-- `r` is the greatest position with property `P`, `none` iff there is none. -/
def IsLast (P : Nat → Prop) : Option Nat → Prop
  | none => ∀ i, ¬ P i
  | some i => P i ∧ ∀ j, i < j → ¬ P j

/-- Removing escapes, as documented: a caret is dropped and the character after it is kept. -/
def unescape : List Char → List Char
  | [] => []
  | [c] => if c = '^' then [] else [c]
  | c :: d :: r => if c = '^' then d :: unescape r else c :: unescape (d :: r)

/-- Escaping: a caret before each character selected by `q`. -/
def escape (q : Char → Bool) : List Char → List Char
  | [] => []
  | c :: cs => if q c then '^' :: c :: escape q cs else c :: escape q cs

end PBat.Spec
