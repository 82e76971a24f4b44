import Verif.Model.Str
import Verif.Model.Mem
/-
Model of `pbat/core/pBat_SplitPath.c`.
-/
namespace PBat

/-- The tests of pbat/core/pBat_SplitPath.c:33-35: a character, a colon and a separator. -/
def driveOf : List Char → Option Char
  | d :: ':' :: c :: _ => if c = '\\' ∨ c = '/' then some d else none
  | _ => none

/-- `strncpy` into a buffer of `max` bytes that is then read as a string: without room for the terminator the reader runs past the buffer. -/
def copyName (max : Nat) (s : List Char) : Res (List Char) := if s.length < max then .ok s else .ub

/-- What `pBat_SplitPath` stores. -/
structure PathParts where
  drive : List Char
  dir : List Char
  name : List Char
  ext : List Char
  deriving DecidableEq, Repr

/-- pbat/core/pBat_SplitPath.c:72-99: name and extension. -/
def splitName (max : Nat) (drive dir token : List Char) : Res PathParts :=
  match searchLastTok (· == '.') token with
  | some i => do
    let name ← copyName max (token.take i)
    pure ⟨drive, dir, name, ('.' :: token.drop (i + 1)).take (max - 1)⟩
  | none => do
    let name ← copyName max token
    pure ⟨drive, dir, name, []⟩

/-- The number of characters of the directory, pbat/core/pBat_SplitPath.c:51-53. -/
def dirLen (token : List Char) : Nat :=
  match searchLastTok (fun c => c == '\\' || c == '/') token with
  | some i => i + 1
  | none => 0

/-- pbat/core/pBat_SplitPath.c:51-99: the parts after the drive. -/
def splitToken (max : Nat) (drive token : List Char) : Res PathParts := do
  let dir ← copyName max (token.take (dirLen token))
  splitName max drive dir (token.drop (dirLen token))

/-- `pBat_SplitPath`, pbat/core/pBat_SplitPath.c:26-102, all four buffers given, of `max` (`FILENAME_MAX`) bytes each; buffers are read back as
strings.  The temporary terminators put into the path are undone and not modelled. -/
def splitPath (max : Nat) (path : List Char) : Res PathParts :=
  match driveOf path with
  | some d => splitToken max [d, ':'] (path.drop 3)
  | none => splitToken max [] path

end PBat
