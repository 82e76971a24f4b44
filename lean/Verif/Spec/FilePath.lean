/-
Specification of the search of programs.
-/
namespace PBat.Spec

/-- `es` are the entries of a list separated by `d`; a final separator ends the last entry and begins no further one. -/
def Entries (d : Char) (s : List Char) (es : List (List Char)) : Prop :=
  (∀ e ∈ es, d ∉ e) ∧ es.flatMap (· ++ [d]) = if s = [] ∨ s.getLast? = some d then s else s ++ [d]

/-- The path of a file in a directory; the empty directory is the one of the process. -/
def inDirectory (dir name : List Char) : List Char :=
  if dir = [] ∨ dir.getLast? = some '/' then dir ++ name else dir ++ ['/'] ++ name

/-- The candidates in a directory: with each extension, then the bare name. -/
def candidatesOf (exts : List (List Char)) (file : List Char) : List (List Char) := exts.map (file ++ ·) ++ [file]

/-- `r` is the first candidate that exists, `none` if none does. -/
def FirstExisting (ex : List Char → Bool) (cs : List (List Char)) : Option (List Char) → Prop
  | none => ∀ c ∈ cs, ex c = false
  | some r => ∃ pre post, cs = pre ++ r :: post ∧ ex r = true ∧ ∀ c ∈ pre, ex c = false

end PBat.Spec
