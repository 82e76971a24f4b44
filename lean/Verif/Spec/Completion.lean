import Verif.Spec.LineEdit

/-!
What completion of file names is: the word before the cursor grows to the longest text all the
files that begin with it have in common.
-/

namespace PBat.Spec

/-- `c` begins every name, and is the longest text that does. -/
def LongestCommon (files : List (List Nat)) (c : List Nat) : Prop :=
  (∀ f ∈ files, c <+: f) ∧ ∀ c', (∀ f ∈ files, c' <+: f) → c' <+: c

/-- What separates words on the command line: tab, blank, `&`, `|`. -/
def wordEnds : List Nat := [9, 32, 38, 124]

/-- A word without quotes. -/
def BareWord (w : List Nat) : Prop := ∀ c ∈ w, c ≠ 0 ∧ c ≠ 34 ∧ c ∉ wordEnds

/-- What stands before a word. -/
def BeforeWord (a : List Nat) : Prop := a = [] ∨ ∃ a' c, a = a' ++ [c] ∧ c ∈ wordEnds

/-- The name of a file without the directories. -/
def LastPart (f b : List Nat) : Prop :=
  (∀ c ∈ b, c ≠ 47 ∧ c ≠ 92) ∧ (f = b ∨ ∃ d c, f = d ++ c :: b ∧ (c = 47 ∨ c = 92))

/-- A list in rows of `k`. -/
def rows {α} (k : Nat) (l : List α) : List (List α) :=
  if _ : l = [] ∨ k = 0 then [] else l.take k :: rows k (l.drop k)
termination_by l.length
decreasing_by
  rename_i h
  have : l ≠ [] := fun e => h (.inl e)
  have := List.length_pos_iff.2 this
  simp only [List.length_drop]; omega

/-- A row of a table with cells `w` wide. -/
def row (w : Nat) (cells : List (List Nat)) : List Nat :=
  (cells.map fun s => s ++ List.replicate (w - s.length) 32).flatten ++ [13, 10]

end PBat.Spec
