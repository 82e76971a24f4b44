import Verif.Spec.Args
/-
Specification of blocks: the grammar at the head of `pbat/core/pBat_ParseBlock.c`, and the parenthesis that balances an
opening one.
-/
namespace PBat.Spec

/-- Text that ends outside quotes and escapes and has, outside quotes, no unescaped character of `p`; and no
unescaped line feed at all. -/
structure Closed (p : Char → Bool) (s : List Char) : Prop where
  none : ∀ i, ¬ (Hit p s i ∧ OutQuotes s i)
  line : ∀ i, ¬ Hit (· == '\n') s i
  even : quotesBefore s s.length % 2 = 0
  free : Free s s.length

/-- `)`, `&` and `|`. -/
def Stop (c : Char) : Bool := c == ')' || c == '&' || c == '|'

/-- `(`, `)`, `&` and `|`. -/
def Struct (c : Char) : Bool := c == '(' || Stop c

/-- What may precede a command on its line. -/
def Margin (c : Char) : Prop := (Blank c ∧ c ≠ '\n') ∨ c = '@'

/-- The text begins with the word `if`, `for` or `def` in any case, followed by a blank. -/
def BlockWord (s : List Char) : Prop :=
  ∃ k b r, s = k ++ b :: r ∧ Blank b ∧
    (k.map Char.toLower = "if".toList ∨ k.map Char.toLower = "for".toList ∨ k.map Char.toLower = "def".toList)

mutual
/-- The inside of a block: commands separated by `&`, `|` or line feeds; after a nested block a blank is a
separator too.  If `strict`, the text of plain commands contains no parentheses outside quotes and escapes. -/
inductive Body (strict : Bool) : List Char → Prop
  | last {g l} : Line strict g l → Body strict l
  | cons {g l c b} : Line strict g l → c = '&' ∨ c = '|' ∨ c = '\n' ∨ (g = true ∧ Blank c) → Body strict b →
      Body strict (l ++ c :: b)

/-- One command: a nested block (`g`), a plain command, or a command with blocks among its parameters. -/
inductive Line (strict : Bool) : Bool → List Char → Prop
  | group {w b} : (∀ c ∈ w, Margin c) → Body strict b → Line strict true (w ++ '(' :: (b ++ [')']))
  | plain {w t} : (∀ c ∈ w, Margin c) → (∀ c, t.head? = some c → ¬ Margin c ∧ c ≠ '(') → ¬ BlockWord (t ++ ['\n']) →
      Closed (if strict then Struct else Stop) t → Line strict false (w ++ t)
  | clause {w t} : (∀ c ∈ w, Margin c) → BlockWord t → Clause strict t → Line strict false (w ++ t)

/-- The text of IF, FOR and DEF: text and blocks. -/
inductive Clause (strict : Bool) : List Char → Prop
  | text {t} : Closed Struct t → Clause strict t
  | block {t b c} : Closed Struct t → Body strict b → Clause strict c → Clause strict (t ++ '(' :: (b ++ ')' :: c))
end

/-- The text from the parenthesis on that closes `depth + 1` open ones, skipping escapes and quoted sections. -/
def closing (depth : Nat) (quoted : Bool) : List Char → Option (List Char)
  | [] => none
  | '^' :: [] => none
  | '^' :: _ :: r => closing depth quoted r
  | c :: r =>
    if c = '"' then closing depth (!quoted) r
    else if quoted then closing depth quoted r
    else if c = '(' then closing (depth + 1) quoted r
    else if c = ')' then if depth = 0 then some (c :: r) else closing (depth - 1) quoted r
    else closing depth quoted r

end PBat.Spec
