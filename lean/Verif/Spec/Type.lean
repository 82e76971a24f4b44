import Verif.Model.Type
/-
Specification of TYPE, from `man/en_US/type.tea`.
-/
namespace PBat.Spec

/-- The files the parameters name, directories left out, in the order of the parameters. -/
def typed (d : TypeDisk) (ps : List (List Char)) : List (List Char) := (ps.flatMap d.find).filter fun f => !d.isDir f

/-- A file preceded by its name. -/
def titled (name bytes : List Char) : List Char := "---------- ".toList ++ name ++ '\n' :: bytes

/-- What is to be displayed for files that can be read: the bytes of a single file, or each file after its name. -/
inductive Displays (d : TypeDisk) : List (List Char) → List Char → Prop
  | one {f s} : d.bytes f = some s → Displays d [f] s
  | several {fs ss} : 2 ≤ fs.length → fs.map d.bytes = ss.map some → Displays d fs (List.zipWith titled fs ss).flatten

end PBat.Spec
