import Verif.Model.Env
/-
Model of SETLOCAL/ENDLOCAL: `pbat/core/pBat_EnvStack.c`, `pbat/command/pBat_Setlocal.c`.
The words of the line are those returned by `pBat_GetNextParameter` (C14); the build option
`PBAT_STATIC_CMDLYCORRECT` is off, as in the default configuration.
-/
namespace PBat

/-- The globals `lpeEnv`, `bDelayedExpansion`, `bCmdlyCorrect` and `lpesEnv`,
pbat/core/pBat_EnvStack.h:23-28. -/
structure LocalState where
  env : EnvBuf
  delayed : Bool
  cmdly : Bool
  stack : List (EnvBuf × Bool × Bool)
  deriving DecidableEq, Repr

/-- `pBat_PushEnvStack`, pbat/core/pBat_EnvStack.c:24-42. -/
def pushEnvStack (s : LocalState) (addr : Nat → Int) : LocalState :=
  { s with env := envDup s.env addr, stack := (s.env, s.delayed, s.cmdly) :: s.stack }

/-- `pBat_PopEnvStack`, pbat/core/pBat_EnvStack.c:44-60. -/
def popEnvStack (s : LocalState) : LocalState :=
  match s.stack with
  | [] => s
  | (e, d, c) :: st => { env := e, delayed := d, cmdly := c, stack := st }

/-- The loop of `pBat_CmdSetLocal` over the words, pbat/command/pBat_Setlocal.c:65-125; the last component
is `push`, `none` when the function returns before line 127. -/
def setlocalWords (d c push : Bool) : List (List Char) → Bool × Bool × Option Bool
  | [] => (d, c, some push)
  | w :: ws =>
    if strcmp w "/?".toList = 0 then (d, c, none)
    else if stricmp w "/Q".toList = 0 then setlocalWords d c false ws
    else if stricmp w "ENABLEDELAYEDEXPANSION".toList = 0 then setlocalWords true c push ws
    else if stricmp w "DISABLEDELAYEDEXPANSION".toList = 0 then setlocalWords false c push ws
    else if stricmp w "CMDLYCORRECT".toList = 0 then setlocalWords d true push ws
    else if stricmp w "CMDLYINCORRECT".toList = 0 then setlocalWords d false push ws
    else if stricmp w "ENABLEEXTENSIONS".toList = 0 ∨ stricmp w "DISABLEEXTENSION".toList = 0 then
      setlocalWords d c push ws
    else (d, c, none)

/-- `pBat_CmdSetLocal`, pbat/command/pBat_Setlocal.c:58-131. -/
def cmdSetlocal (s : LocalState) (ws : List (List Char)) (addr : Nat → Int) : LocalState :=
  let (d, c, push) := setlocalWords s.delayed s.cmdly true ws
  let s := { s with delayed := d, cmdly := c }
  if push = some true then pushEnvStack s addr else s

/-- Commands between SETLOCAL and ENDLOCAL; every other command acts on this state through environment
updates. -/
inductive LocalCmd where
  | setlocal (words : List (List Char)) (addr : Nat → Int)
  | endlocal
  | set (name : CPtr) (content : List Char) (cpy : Int)
  | unset (name : CPtr)

/-- One command; `none` is undefined behaviour. ENDLOCAL is pbat/command/pBat_Setlocal.c:138-154. -/
def localStep (L : LibC) (s : LocalState) : LocalCmd → Option LocalState
  | .setlocal ws a => some (cmdSetlocal s ws a)
  | .endlocal => some (popEnvStack s)
  | .set n c a => (setEnvEx L s.env n c a false).map fun e => { s with env := e }
  | .unset n => some { s with env := unSetEnv L s.env n }

/-- A sequence of commands. -/
def localRun (L : LibC) : LocalState → List LocalCmd → Option LocalState
  | s, [] => some s
  | s, c :: cs => (localStep L s c).bind fun s => localRun L s cs

end PBat
