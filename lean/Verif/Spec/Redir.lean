import Verif.Spec.Block
/-
Specification of redirections: a command is text with redirections in between.
-/
namespace PBat.Spec

/-- What a command is made of: text, a redirection of an output (`err`: of the error output; `app`: at the end of the file), of
the input, and the redirection of an output to the other one. -/
inductive RedirItem where
  | text (t : List Char)
  | out (err app : Bool) (name : List Char)
  | inp (name : List Char)
  | errToOut
  | outToErr
  deriving DecidableEq

/-- The signs of redirection. -/
def Sign (c : Char) : Bool := c == '<' || c == '>'

/-- Text that ends outside quotes and escapes and has, outside quotes, no unescaped sign. -/
structure NoSign (t : List Char) : Prop where
  none : ∀ i, ¬ (Hit Sign t i ∧ OutQuotes t i)
  even : quotesBefore t t.length % 2 = 0
  free : Free t t.length

/-- Text that can be followed by `>` without a number: it does not end in an unescaped `1` or `2`. -/
def NoNumber (t : List Char) : Prop := ∀ u c, t = u ++ [c] → Free u u.length → c ≠ '1' ∧ c ≠ '2'

/-- How a redirection to or from a file is written, before the name. -/
inductive SignText : List Char → (List Char → RedirItem) → Prop
  | inp : SignText ['<'] .inp
  | out {app} : SignText ('>' :: if app then ['>'] else []) (.out false app)
  | out1 {app} : SignText ('1' :: '>' :: if app then ['>'] else []) (.out false app)
  | out2 {app} : SignText ('2' :: '>' :: if app then ['>'] else []) (.out true app)

/-- A blank or a character that ends a name. -/
def EndsName (c : Char) : Prop := Blank c ∨ c = '&' ∨ c = '|' ∨ c = '>' ∨ c = '<' ∨ c = ')'

/-- Lines of text and redirections; names are written as parameters are (`q` holds the characters that are escaped). -/
inductive RedirLine (q : Char → Bool) : List Char → List RedirItem → Prop
  | last {t} : (∀ i, ¬ (Hit Sign t i ∧ OutQuotes t i)) → RedirLine q t [.text t]
  | file {t s d w x a rest items} : NoSign t → SignText s d → (s.head? = some '>' → NoNumber t) → (∀ c ∈ w, Blank c) → Written q x a →
      (∀ c, rest.head? = some c → EndsName c) → RedirLine q rest items → RedirLine q (t ++ (s ++ (w ++ (x ++ rest)))) (.text t :: d a :: items)
  | errToOut {t rest items} : NoSign t → RedirLine q rest items → RedirLine q (t ++ ("2>&1".toList ++ rest)) (.text t :: .errToOut :: items)
  | outToErr {t rest items} : NoSign t → RedirLine q rest items → RedirLine q (t ++ ("1>&2".toList ++ rest)) (.text t :: .outToErr :: items)

/-- The text of the command without its redirections. -/
def textOf : List RedirItem → List Char
  | [] => []
  | .text t :: is => t ++ textOf is
  | _ :: is => textOf is

/-- The files the standard output (`err = false`) or the error output is redirected to. -/
def outsOf (err : Bool) : List RedirItem → List (Bool × List Char)
  | [] => []
  | .out e app n :: is => if e = err then (app, n) :: outsOf err is else outsOf err is
  | _ :: is => outsOf err is

/-- The files the input is redirected from. -/
def insOf : List RedirItem → List (List Char)
  | [] => []
  | .inp n :: is => n :: insOf is
  | _ :: is => insOf is

/-- The redirections between outputs: `true` for the error output to the standard output. -/
def mergesOf : List RedirItem → List Bool
  | [] => []
  | .errToOut :: is => true :: mergesOf is
  | .outToErr :: is => false :: mergesOf is
  | _ :: is => mergesOf is

/-- Nothing is redirected twice. -/
def Once (is : List RedirItem) : Prop :=
  (outsOf false is).length ≤ 1 ∧ (outsOf true is).length ≤ 1 ∧ (insOf is).length ≤ 1 ∧ (mergesOf is).length ≤ 1

instance (is) : Decidable (Once is) := by unfold Once; infer_instance

/-- The command has no blocks: no opening parenthesis, or it is neither a block nor IF, FOR or DEF, and is alone on its line. -/
def NoBlocks (s : List Char) : Prop :=
  '(' ∉ s ∨ ((∀ w t, s = w ++ t → (∀ c ∈ w, Blank c ∨ c = '@') → t.head? ≠ some '(' ∧ ¬ BlockWord t) ∧
    '&' ∉ s ∧ '|' ∉ s ∧ '\n' ∉ s)

/-- What follows the first block of a command: further blocks, text, and redirections. -/
inductive RedirTail (q : Char → Bool) : List Char → List RedirItem → Prop
  | line {c items} : RedirLine q c items → (∀ i, ¬ (Hit (fun c => c == '(' || c == ')') c i ∧ OutQuotes c i)) → RedirTail q c items
  | block {t b c items} : Closed Struct t → NoSign t → Body false b → RedirTail q c items →
      RedirTail q (t ++ '(' :: (b ++ ')' :: c)) (.text (t ++ '(' :: (b ++ [')'])) :: items)

/-- Commands with redirections. -/
inductive RedirCommand (q : Char → Bool) : List Char → List RedirItem → Prop
  | plain {s items} : RedirLine q s items → NoBlocks s → RedirCommand q s items
  | group {w b c items} : (∀ c ∈ w, Margin c) → Body false b → RedirTail q c items →
      RedirCommand q (w ++ '(' :: (b ++ ')' :: c)) (.text (w ++ '(' :: (b ++ [')'])) :: items)
  | clause {w t b c items} : (∀ c ∈ w, Margin c) → BlockWord t → Closed Struct t → NoSign t → Body false b → RedirTail q c items →
      RedirCommand q (w ++ t ++ '(' :: (b ++ ')' :: c)) (.text (w ++ t ++ '(' :: (b ++ [')'])) :: items)

end PBat.Spec
