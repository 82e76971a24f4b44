import Verif.Spec.Del
import Verif.Spec.Search
import Verif.Model.Rd
/-
Specification of RD.
-/
namespace PBat.Spec

/-- What the user writes after RD. -/
inductive RdItem where
  | below | quiet
  | name (n : List Char)
  deriving DecidableEq

/-- The texts of the items. -/
inductive RdText : List Char → RdItem → Prop
  | below {t} : fold t = "/s".toList → RdText t .below
  | quiet {t} : fold t = "/q".toList → RdText t .quiet
  | name {n} : fold n ≠ "/s".toList → fold n ≠ "/q".toList → n ≠ "/?".toList → RdText n (.name n)

/-- The names among the items. -/
def rdNames (items : List RdItem) : List (List Char) := items.filterMap fun | .name n => some n | _ => none

/-- The files to remove, then the directories. -/
def rdTargets (dir : List Char → Bool) (found : List (List Char)) : List (List Char) :=
  found.filter (fun f => !dir f) ++ found.filter dir

/-- A file is removed as a file, a directory as a directory. -/
def rdOp {W : Type} (sys : RdSys W) (dir : List Char → Bool) (w : W) (f : List Char) : W × Bool :=
  if dir f then sys.rmdir w f else sys.remove w f

/-- `x` is inside the directory `d`. -/
def within (x d : List Char) : Bool := (d ++ ['/']).isPrefixOf x

/-- A tree given by the names of all its files and directories: a file can be removed if it is there, a directory if nothing is inside it. -/
def treeSys (dir : List Char → Bool) : RdSys (List (List Char)) where
  remove w f := if f ∈ w ∧ dir f = false then (w.filter (· ≠ f), true) else (w, false)
  rmdir w d := if d ∈ w ∧ dir d = true ∧ w.all (fun x => !within x d) then (w.filter (· ≠ d), true) else (w, false)

end PBat.Spec
