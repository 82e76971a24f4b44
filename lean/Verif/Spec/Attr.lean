/-
Specification of attribute filters.
-/
namespace PBat.Spec

/-- The attributes a filter can mention: empty (`I`), archive, read-only, hidden, system, directory. -/
inductive Attr where
  | void | archive | readonly | hidden | system | dir
  deriving DecidableEq, Repr

/-- The letters of the attributes. -/
inductive AttrLetter : Char → Attr → Prop
  | void : AttrLetter 'I' .void
  | archive : AttrLetter 'A' .archive
  | readonly : AttrLetter 'R' .readonly
  | hidden : AttrLetter 'H' .hidden
  | system : AttrLetter 'S' .system
  | dir : AttrLetter 'D' .dir

/-- The text of a filter, and what it asks: each attribute mentioned must be present (`true`) or, after a minus sign, absent (`false`). -/
inductive AttrText : List Char → List (Attr × Bool) → Prop
  | nil : AttrText [] []
  | present {c d a s l} : AttrLetter d a → c.toUpper = d → AttrText s l → AttrText (c :: s) ((a, true) :: l)
  | absent {c d a s l} : AttrLetter d a → c.toUpper = d → AttrText s l → AttrText ('-' :: c :: s) ((a, false) :: l)

/-- A chain of cells linked by `next`, from `p` to the end. -/
inductive Chain (next : Nat → Option Nat) : Option Nat → List Nat → Prop
  | nil : Chain next none []
  | cons {p l} : Chain next (next p) l → Chain next (some p) (p :: l)

end PBat.Spec
