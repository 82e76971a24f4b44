/-
Specification of path walking and of the directory stack.
-/
namespace PBat.Spec

/-- The components of a text: the pieces between separators. -/
def parts : List Char → List (List Char)
  | [] => [[]]
  | c :: r =>
    if c = '/' then [] :: parts r
    else match parts r with
      | [] => [[c]]
      | p :: ps => (c :: p) :: ps

/-- Walking components from the place `st` (innermost directory first): empty components and `.` stay, `..` goes up
(and stays at the root), a name goes down. -/
def walkDirs (st : List (List Char)) : List (List Char) → List (List Char)
  | [] => st
  | c :: cs =>
    if c = [] ∨ c = ['.'] then walkDirs st cs
    else if c = ['.', '.'] then walkDirs st.tail cs
    else walkDirs (c :: st) cs

/-- Walking the components meets `..` while at the root. -/
def Climbs (st : List (List Char)) : List (List Char) → Prop
  | [] => False
  | c :: cs =>
    if c = [] ∨ c = ['.'] then Climbs st cs
    else if c = ['.', '.'] then st = [] ∨ Climbs st.tail cs
    else Climbs (c :: st) cs

instance : ∀ st cs, Decidable (Climbs st cs)
  | _, [] => instDecidableFalse
  | st, c :: cs => by
    have := fun st => instDecidableClimbs st cs
    unfold Climbs
    infer_instance

/-- A proper name of a directory entry. -/
def Name (c : List Char) : Prop := c ≠ [] ∧ c ≠ ['.'] ∧ c ≠ ['.', '.'] ∧ '/' ∉ c

instance (c) : Decidable (Name c) := by unfold Name; infer_instance

/-- The path through the given names. -/
def pathOf (names : List (List Char)) : List Char := names.flatMap ('/' :: ·)

/-- The state of a mathematical directory stack. -/
structure Dirs where
  cur : List Char
  stack : List (List Char)
deriving DecidableEq

end PBat.Spec
