import Verif.Model.Env
/-
Model of the environment handed to programs on Unix: `pBat_ApplyEnv` (pbat/core/pBat_Env.c) in the child made by `pBat_RunFile`
(pbat/core/pBat_Exec.c:295-298), with `setenv` and `getenv` of the C library.

The environment of the process (`environ`) is the list of its strings `NAME=VALUE`; the interpreter never changes its own.
Simplification: `setenv` does not fail for want of memory.
-/
namespace PBat

/-- The string is an entry for this name. -/
def isEntry (n s : List Char) : Bool := (n ++ ['=']).isPrefixOf s

/-- `getenv`. C library: the first entry. -/
def getenv (p : List (List Char)) (n : List Char) : Option (List Char) :=
  (p.find? (isEntry n)).map (·.drop (n.length + 1))

/-- Replacing the first entry, or adding one at the end. -/
def putEntry (n v : List Char) : List (List Char) → List (List Char)
  | [] => [n ++ '=' :: v]
  | s :: p => if isEntry n s then (n ++ '=' :: v) :: p else s :: putEntry n v p

/-- `setenv` with `overwrite`. C library: a name that is empty or has an equal sign is refused. -/
def setenv (p : List (List Char)) (n v : List Char) : List (List Char) :=
  if n = [] ∨ '=' ∈ n then p else putEntry n v p

/-- The loop of `pBat_ApplyEnv`, pbat/core/pBat_Env.c:401-421. -/
def applyVars (p : List (List Char)) : List Var → List (List Char)
  | [] => p
  | v :: vs =>
    match v.name with
    | none => applyVars p vs
    | some n => applyVars (setenv p n.txt v.content) vs

/-- `pBat_ApplyEnv`, pbat/core/pBat_Env.c:401-421: the environment of the program. -/
def applyEnv (e : EnvBuf) (p : List (List Char)) : List (List Char) := applyVars p e.vars

end PBat
