import Verif.Model.Exit
import Verif.Model.FilePath
import Verif.Model.Replace
import Verif.Model.LibC
/-
Model of the names of files: `pbat/core/pBat_OsStream.c` and the functions of `pbat/core/pBat_FilePath.c` that complete names (not
Windows).  `long` has 64 bits.
-/
namespace PBat

/-- The text `strtol(s, &end, 10)` leaves at `end`.  C library. -/
def strtol10Rest (s : List Char) : List Char :=
  let r := s.dropWhile isSpace
  let ds := if r.head? = some '-' ∨ r.head? = some '+' then r.drop 1 else r
  match ds with
  | [] => s
  | d :: _ => if digitVal d < 10 then (scanBase 10 0 ds).2 else s

/-- Lines 63-66 and 72-75 of pbat/core/pBat_OsStream.c: the device with the number in `s`.  `some none`: there is none; `ub`:
`strtol(…) - 1` overflows. -/
def osPort (dev s : List Char) : Res (Option (List Char)) :=
  if strtol10 s ≤ -2 ^ 63 then .ub
  else
    let i := longToInt (min (2 ^ 63 - 1) (strtol10 s) - 1)
    if strtol10Rest s = [] ∧ 0 ≤ i ∧ i ≤ 10 then .ok (some (dev ++ intText i)) else .ok none

/-- `_pBat_GetOsStreamName`, pbat/core/pBat_OsStream.c:47-80. -/
def osStream (s : List Char) : Res (List Char) :=
  if stricmp s "NUL".toList = 0 then .ok "/dev/null".toList
  else if stricmp s "CON".toList = 0 then .ok "/dev/tty".toList
  else if stricmp s "PRN".toList = 0 then .ok "/dev/lpt0".toList
  else do
    let a ← if prefixI "LPT".toList s then osPort "/dev/lpt".toList (s.drop 3) else Res.ok none
    match a with
    | some d => .ok d
    | none =>
      let b ← if prefixI "COM".toList s then osPort "/dev/ttyS".toList (s.drop 3) else Res.ok none
      match b with
      | some d => .ok d
      | none => .ok s

/-- `pBat_FullPathDup`, pbat/core/pBat_FilePath.c:169-215; allocation does not fail. -/
def fullPathDup (cur p : List Char) : Res (List Char) := do
  let path ← osStream p
  if absolute path then .ok path else .ok (cur ++ '/' :: path)

/-- `pBat_MakeFullPath`, pbat/core/pBat_FilePath.c:66-85, with a buffer of `size` bytes. -/
def fullPathBuf (size : Nat) (cur p : List Char) : Res (List Char) := do
  let path ← osStream p
  if absolute path then .ok (path.take (size - 1)) else .ok ((cur ++ '/' :: path).take (size - 1))

/-- `pBat_GetFileFullPath`, pbat/core/pBat_FilePath.c:34-64: `none` for the result -1. -/
def fullPathFile (exists' : List Char → Bool) (size : Nat) (cur p : List Char) : Res (Option (List Char)) := do
  let path ← osStream p
  if absolute path then
    if exists' path then .ok (some (path.take (size - 1))) else .ok none
  else
    let t := (cur ++ '/' :: path).take (size - 1)
    if exists' t then .ok (some t) else .ok none

/-- `pBat_EsToFullPath`, pbat/core/pBat_FilePath.c:114-167, on the text of the ESTR, of which `cap` bytes are allocated: the text afterwards.
`moves`: `realloc` gives another object; line 162 then reads the former one through `p`.  Allocation does not fail. -/
def esFullPath (moves : Bool) (cap : Nat) (cur p : List Char) : Res (List Char) := do
  let path ← osStream p
  if absolute path then .ok p
  else if path.length + 1 + cur.length + 1 > cap ∧ moves = true then .ub
  else .ok (cur ++ '/' :: path)

end PBat
