/-
Specification of the counts of `WC`.
-/
namespace PBat.Spec

/-- Characters that separate words. -/
def WordEnd (c : Char) : Prop := c = '\n' ∨ c = ' ' ∨ c = '\t' ∨ c = '\r' ∨ c = ',' ∨ c = '.' ∨ c = ';'

instance (c) : Decidable (WordEnd c) := by unfold WordEnd; infer_instance

/-- The number of line feeds. -/
def lineCount (s : List Char) : Nat := s.count '\n'

/-- The number of characters of a text in UTF-8: of bytes that do not continue a character. -/
def charCount (s : List Char) : Nat := (s.filter (fun c => !(decide (0x80 ≤ c.toNat) && decide (c.toNat < 0xC0)))).length

/-- Position `i` begins a word: it holds a character of a word and the position before does not. -/
def BeginsWord (s : List Char) (i : Nat) : Prop :=
  (∃ c, s[i]? = some c ∧ ¬ WordEnd c) ∧ (i = 0 ∨ ∃ c, s[i - 1]? = some c ∧ WordEnd c)

instance (s i) : Decidable (BeginsWord s i) := by
  unfold BeginsWord
  have h1 : Decidable (∃ c, s[i]? = some c ∧ ¬ WordEnd c) :=
    match h : s[i]? with
    | none => isFalse (by simp)
    | some c => decidable_of_iff (¬ WordEnd c) (by simp)
  have h2 : Decidable (∃ c, s[i - 1]? = some c ∧ WordEnd c) :=
    match h : s[i - 1]? with
    | none => isFalse (by simp)
    | some c => decidable_of_iff (WordEnd c) (by simp)
  infer_instance

/-- The number of words. -/
def wordCount (s : List Char) : Nat := ((List.range s.length).filter (fun i => decide (BeginsWord s i))).length

/-- The results of reading a content: non-empty pieces that make it up, then the end of the file. -/
def Splits (s : List Char) (reads : List (Option (List Char))) : Prop :=
  ∃ (chunks : List (List Char)) (rest : List (Option (List Char))), reads = chunks.map some ++ rest ∧ (∀ c ∈ chunks, c ≠ []) ∧
    chunks.flatten = s ∧ (rest = [] ∨ ∃ r, rest = some [] :: r)

/-- What the user writes after WC. -/
inductive WcItem where
  | lines | bytes | chars | words
  | file (n : List Char)
  deriving DecidableEq

/-- The texts of the items; names beginning with `/` are longer than options. -/
inductive WcText : List Char → WcItem → Prop
  | lines {c} : c = 'L' ∨ c = 'l' → WcText ['/', c] .lines
  | bytes {c} : c = 'C' ∨ c = 'c' → WcText ['/', c] .bytes
  | chars {c} : c = 'M' ∨ c = 'm' → WcText ['/', c] .chars
  | words {c} : c = 'W' ∨ c = 'w' → WcText ['/', c] .words
  | rel {n} : n.head? ≠ some '/' → WcText n (.file n)
  | abs {a b n} : a ≠ '/' → WcText ('/' :: a :: b :: n) (.file ('/' :: a :: b :: n))

/-- The names among the items. -/
def wcNames (items : List WcItem) : List (List Char) := items.filterMap fun | .file n => some n | _ => none

end PBat.Spec
