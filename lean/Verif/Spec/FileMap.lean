import Verif.Spec.Env
/-
Specification of the files named by their full paths.
-/
namespace PBat.Spec

/-- The contents of the files, by name; `none`: there is no such file. -/
abbrev Files := List Char → Option (List Char)

/-- `rename`: the file at `d`, if there is one, is replaced. -/
def Files.rename (f : Files) (s d : List Char) : Files × Bool :=
  match f s with
  | none => (f, false)
  | some x => (fun p => if p = d then some x else if p = s then none else f p, true)

end PBat.Spec
