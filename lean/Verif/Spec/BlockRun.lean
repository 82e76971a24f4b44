import Verif.Spec.Block
/-
Specification of the lines of a block: a line ends where its line feed is written, outside of nested blocks.
-/
namespace PBat.Spec

/-- Something is written there. -/
def Nonblank (s : List Char) : Prop := ∃ x ∈ s, ¬ Blank x

instance (s) : Decidable (Nonblank s) := by unfold Nonblank; infer_instance

/-- A line of a block: commands joined by `&` and `|` (or `&&` and `||`), nested blocks also by blanks.  If `tight`, the line does not end
with blanks after an operator or after a nested block. -/
inductive Row (strict tight : Bool) : List Char → Prop
  | one {g l} : Line strict g l → Row strict tight l
  | op {g l c b} : Line strict g l → c = '&' ∨ c = '|' → (tight = true → b = [] ∨ Nonblank b) → Row strict tight b →
      Row strict tight (l ++ c :: b)
  | blank {l c b} : Line strict true l → Blank c → c ≠ '\n' → (tight = true → Nonblank b) → Row strict tight b →
      Row strict tight (l ++ c :: b)

/-- The text of a block and its lines, each but the last one followed by a line feed.  If `tight`, all but the last are. -/
inductive Rows (strict tight : Bool) : List (List Char) → List Char → Prop
  | last {r} : Row strict false r → Rows strict tight [r] r
  | cons {r rs t} : Row strict tight r → Rows strict tight rs t → Rows strict tight (r :: rs) (r ++ '\n' :: t)

/-- The text without the blanks at its beginning. -/
def unindent (s : List Char) : List Char := s.dropWhile fun c => decide (Blank c)

end PBat.Spec
