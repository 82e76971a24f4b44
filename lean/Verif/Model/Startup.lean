import Verif.Model.Shift
/-
Model of the command line of the interpreter: `pBat_InitSetModes` and `pBat_GetParameters` (pbat/init/pBat_Init.c).

Simplifications: allocation does not fail; an error that ends the process is the outcome `bad`; the help is the outcome `help`.
-/
namespace PBat

/-- What the command line sets: `lpCmdCSwitch`, `bExitAfterCmd`, `bQuiet`, `bDelayedExpansion`, `bEchoOn`, `bCmdlyCorrect`, `lpFileName` (none
if empty) with what follows it; the values at first are those of pbat/core/pBat_Globals.c:56-65. -/
structure Startup where
  command : Option (List Char) := none
  exits : Bool := true
  quiet : Bool := false
  delayed : Bool := true
  echo : Bool := true
  cmdly : Bool := false
  file : Option (List Char × List (List Char)) := none
  deriving DecidableEq, Repr

/-- How the command line is read. -/
inductive StartupOut where
  | bad
  | help
  | run (s : Startup)
  deriving DecidableEq, Repr

/-- One letter, pbat/init/pBat_Init.c:211-230. -/
def initMode (s : Startup) (c : Char) : Startup :=
  if c.toUpper = 'V' then { s with delayed := true }
  else if c.toUpper = 'E' then { s with echo := false }
  else if c.toUpper = 'C' then { s with cmdly := true }
  else if c.toUpper = 'Q' then { s with quiet := true }
  else s

/-- `pBat_InitSetModes` and its use, pbat/init/pBat_Init.c:203-236, 309-311; `t` is the text after `/A`.  `bQuiet` is set anew. -/
def initModes (s : Startup) (t : List Char) : Startup :=
  match t with
  | ':' :: t => t.foldl initMode { s with quiet := false }
  | t => t.foldl initMode { s with quiet := false }

/-- The text of `/C`, pbat/init/pBat_Init.c:338-351. -/
def joinCommand : List (List Char) → List Char
  | [] => []
  | a :: as =>
    (if a.any fun c => c == ' ' || c == '\t' || c == '\n' then '"' :: (a ++ ['"']) else a) ++ ' ' :: joinCommand as

/-- The loop of `pBat_GetParameters`, pbat/init/pBat_Init.c:300-396; `var` is the environment variable `__PBAT_COMMAND__`, `sw` is
`bGetSwitch`. -/
def getParameters (var : Option (List Char)) (sw : Bool) (s : Startup) : List (List Char) → StartupOut
  | [] => .run s
  | a :: as =>
    if a.head? = some '/' ∧ sw = true then
      match a.drop 1 with
      | [] => .bad
      | c :: t =>
        if c.toUpper = 'A' then getParameters var sw (initModes s t) as
        else if c.toUpper = 'K' ∨ c.toUpper = 'C' then
          match as with
          | [] => .bad
          | b :: bs =>
            if s.command.isSome then .bad
            else if b = ['@'] then
              getParameters var sw { s with exits := if c.toUpper = 'K' then false else s.exits, command := some (var.getD []) } bs
            else .run { s with exits := if c.toUpper = 'K' then false else s.exits, command := some (joinCommand (b :: bs)) }
        else if c = '?' then .help
        else if c = '/' then getParameters var false s as
        else .bad
    else if a = [] then getParameters var false s as
    else .run { s with file := some (a, as) }

/-- `pBat_GetParameters`, pbat/init/pBat_Init.c:290-403. -/
def startup (var : Option (List Char)) : List (List Char) → StartupOut
  | [] => .bad
  | _ :: as => getParameters var true {} as

/-- The arguments of the script, pbat/init/pBat_Init.c:372-400 and pbat/pBat.c:155-169: none if the script is not found (the process
ends).  `find` is `pBat_GetFilePath`. -/
def startupArgs (find : List Char → Option (List Char)) (file : List Char) (as : List (List Char)) : Option (Res LocalBlock) :=
  (find file).map fun p => startArgs p as

end PBat
