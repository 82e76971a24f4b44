import Verif.Model.Mkdir
/-
Specification of MD: a tree of directories and files.
-/
namespace PBat.Spec

/-- The names between the separators of a path. -/
def compsGo : List Char → List Char → List (List Char)
  | cur, [] => if cur = [] then [] else [cur]
  | cur, c :: s => if c = '/' then (if cur = [] then compsGo [] s else cur :: compsGo [] s) else compsGo (cur ++ [c]) s

/-- The names in an absolute path: `/a//b/` has the names `a`, `b`. -/
def comps (p : List Char) : List (List Char) := compsGo [] p

/-- A file system: its directories (other than the root, which is always there) and the other things that have a name. -/
structure Tree where
  dirs : List (List (List Char))
  files : List (List (List Char))

/-- What contains a directory is a directory. -/
def Tree.Ok (t : Tree) : Prop := ∀ c ∈ t.dirs, c ≠ [] ∧ (c.dropLast ≠ [] → c.dropLast ∈ t.dirs)

/-- Is this a directory? -/
def Tree.IsDir (t : Tree) (c : List (List Char)) : Prop := c = [] ∨ c ∈ t.dirs

instance (t : Tree) (c : List (List Char)) : Decidable (t.IsDir c) := inferInstanceAs (Decidable (_ ∨ _))

/-- The system calls on a tree.  `may` says which directories the user has the right to make. -/
def treeMk (may : List (List Char) → Bool) : MkSys Tree where
  isDir t p := decide (t.IsDir (comps p))
  mkdir t p :=
    if ¬ t.IsDir (comps p) ∧ comps p ∉ t.files ∧ t.IsDir (comps p).dropLast ∧ may (comps p) = true then
      ({ t with dirs := t.dirs ++ [comps p] }, true)
    else (t, false)

/-- The directory is there, or can be made if its parent is there. -/
def Possible (may : List (List Char) → Bool) (t : Tree) (c : List (List Char)) : Prop :=
  t.IsDir c ∨ (c ∉ t.files ∧ may c = true)

end PBat.Spec
