import Verif.Spec.Dir
/-
Specification of the directories of the drives on Windows, after man/en_US/cd.tea.
-/
namespace PBat.Spec.Win

/-- The components of a path: the pieces between separators, which are `/` and `\`. -/
def comps (p : List Char) : List (List Char) := parts (p.map fun c => if c = '\\' then '/' else c)

/-- A proper name of a directory entry on Windows. -/
def NameW (c : List Char) : Prop := Name c ∧ '\\' ∉ c

instance (c) : Decidable (NameW c) := by unfold NameW; infer_instance

/-- The text of the directory through the given names on the drive `d`. -/
def dirText (d : Char) (names : List (List Char)) : List Char := d :: ':' :: names.flatMap ('\\' :: ·)

/-- The place designated by a text `X:…`: names, innermost first. -/
def placeOf (t : List Char) : List (List Char) := walkDirs [] (comps (t.drop 2))

/-- The directories of the drives: the current drive and the directory associated with each drive (innermost name
first).  Drives are letters in lower case. -/
structure Drives where
  cur : Char
  dirs : Char → Option (List (List Char))

/-- What the manual describes: a relative path, or a path on the drive `d` with or without `/d`. -/
inductive Ask
  | rel (p : List Char)
  | abs (force : Bool) (d : Char) (r : List Char)

/-- Associating a directory with a drive. -/
def assoc (dirs : Char → Option (List (List Char))) (d : Char) (place : List (List Char)) :
    Char → Option (List (List Char)) := fun k => if k = d then some place else dirs k

/-- The effect of a command.  `there` tells which directories exist. -/
def ask (there : Char → List (List Char) → Bool) (a : Drives) : Ask → Drives
  | .rel p =>
    let place := walkDirs ((a.dirs a.cur).getD []) (comps p)
    if there a.cur place then ⟨a.cur, assoc a.dirs a.cur place⟩ else a
  | .abs force d r =>
    let place := walkDirs [] (comps r)
    if d.toLower = a.cur ∨ force = true then
      if there d.toLower place then ⟨d.toLower, assoc a.dirs d.toLower place⟩ else a
    else ⟨a.cur, assoc a.dirs d.toLower place⟩

/-- The commands do not go above the root of a drive, nor write a path in a way of another kind. -/
def Plain (a : Drives) : Ask → Prop
  | .rel p => (∀ c, p.head? = some c → c ≠ '/' ∧ c ≠ '\\') ∧ p[1]? ≠ some ':' ∧ ¬ Climbs ((a.dirs a.cur).getD []) (comps p)
  | .abs _ d r => d.isAlpha = true ∧ (∃ c, r.head? = some c ∧ (c = '/' ∨ c = '\\')) ∧ ¬ Climbs [] (comps r)

/-- The text of a command. -/
def askText : Ask → List Char
  | .rel p => p
  | .abs _ d r => d :: ':' :: r

/-- Whether a command has `/d`. -/
def askForce : Ask → Bool
  | .rel _ => false
  | .abs force _ _ => force

end PBat.Spec.Win
