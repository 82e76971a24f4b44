/-
Specification of the program TEA, as described in man/en_US/tea.tea and man/en_US/tea_syntax.tea.
-/
namespace PBat.Spec

/-! ### Lines -/

/-- The place where two parts of a paragraph meet. -/
def joint : Char := Char.ofNat 1

/-- The parts of a paragraph put together. -/
def joined (cs : List (List Char)) : List Char := List.intercalate [joint] cs

/-- What is seen of a text. -/
def seen (t : List Char) : List Char := t.filter (· ≠ joint)

/-- Characters of words. -/
def WordChar (c : Char) : Prop := c ≠ ' ' ∧ c ≠ '\n'

instance (c : Char) : Decidable (WordChar c) := inferInstanceAs (Decidable (_ ∧ _))

/-- The length of the word a text begins with; a place where parts meet counts for one. -/
def firstWord (t : List Char) : Nat := (t.takeWhile fun c => decide (WordChar c)).length

/-- No word has `n` characters. -/
def ShortWords (n : Nat) (t : List Char) : Prop := ∀ a u b, t = a ++ u ++ b → (∀ c ∈ u, WordChar c) → u.length < n

/-- A text in lines of a width: the first after a margin `m`, the others after a margin `nl`.  Lines end only where there is a blank, and only when the next word
does not fit. -/
inductive Wrapped (width nl : Nat) : Nat → List Char → List Char → Prop
  | last {m l} : m + (seen l).length ≤ width → Wrapped width nl m l (List.replicate m ' ' ++ seen l)
  | cut {m l rest out} : m + (seen l).length ≤ width → (seen l = [] ∨ (seen l).getLast? = some ' ') → width ≤ m + (seen l).length + firstWord rest →
      Wrapped width nl nl rest out → Wrapped width nl m (l ++ rest) (List.replicate m ' ' ++ seen l ++ '\n' :: out)

/-- Lines of a text, each after a margin and in as many lines as it needs. -/
inductive StaticLaid (width margin nl : Nat) : Nat → List Char → List Char → Prop
  | one {m t o} : '\n' ∉ t → Wrapped width nl m t o → StaticLaid width margin nl m t o
  | more {m t o ts os} : '\n' ∉ t → Wrapped width nl m t o → StaticLaid width margin nl margin ts os →
      StaticLaid width margin nl m (t ++ '\n' :: ts) (o ++ '\n' :: os)

/-- The blocks of a page: a title, code, and a paragraph, which may be of a list (`mark`), in parts. -/
inductive DocBlock where
  | heading (t : List Char)
  | code (level : Nat) (t : List Char)
  | par (level : Nat) (mark : Bool) (parts : List (List Char))
  deriving DecidableEq

/-- A text without an end of line before it. -/
def lessNl (t : List Char) : List Char := if t.head? = some '\n' then t.drop 1 else t

/-- How a block is shown: titles in capital letters. -/
inductive BlockLaid : DocBlock → List Char → Prop
  | heading {t o} : StaticLaid 79 0 0 0 (lessNl (t.map Char.toUpper)) o → BlockLaid (.heading t) o
  | code {l t o} : StaticLaid 79 (8 + 4 * l) (6 + 4 * l) (8 + 4 * l) (lessNl t) o → BlockLaid (.code l t) o
  | par {l mark parts o} : Wrapped 79 (4 * (l + 1)) (4 * (l + 1) - (if l ≠ 0 ∧ mark = true then 2 else 0)) (joined parts) o → BlockLaid (.par l mark parts) o

/-- How a page is shown: an empty line after each block. -/
inductive PageLaid : List DocBlock → List Char → Prop
  | nil : PageLaid [] []
  | cons {b bs o os} : BlockLaid b o → PageLaid bs os → PageLaid (b :: bs) (o ++ '\n' :: '\n' :: os)

end PBat.Spec
