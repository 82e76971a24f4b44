import Verif.Model.Call
import Verif.Model.Def
/-
Model of running programs and scripts by name: `pBat_RunExternalCommand` and the retry of `pBat_RunCommand` (pbat/core/pBat_Run.c),
`pbat/core/pBat_Exec.c` (not Windows) and the arguments of a script run without CALL.

The system is arbitrary: what the new process does is given by `os`.  Simplifications: allocation and `pipe` do not fail; the process started
gets the variables and the streams of the interpreter (C38, C11).
-/
namespace PBat

/-- What is asked from `execv`: `info->file`, `info->args` and the directory. -/
structure ExecReq where
  file : List Char
  argv : List (List Char)
  dir : List Char
  deriving DecidableEq, Repr

/-- What becomes of the new process: `fork` fails, `execv` fails, or it ends with a status of `waitpid`. -/
inductive Child where
  | noFork
  | noExec
  | ended (status : Nat)
  deriving DecidableEq, Repr

/-- `WEXITSTATUS`. -/
def exitStatus (s : Nat) : Nat := s / 256 % 256

/-- `pBat_RunFile`, pbat/core/pBat_Exec.c:265-350: `none` if `*error` is set. -/
def runFile {W : Type} (os : ExecReq → W → Child × W) (sep wait : Bool) (q : ExecReq) (w : W) : Option Int × W :=
  if sep then (none, w)
  else
    match os q w with
    | (.noFork, w) => (none, w)
    | (.noExec, w) => (none, w)
    | (.ended s, w) => (some (if wait then (exitStatus s : Int) else 0), w)

/-- `pBat_StartFile`, pbat/core/pBat_Exec.c:539-617: the start script gets the file and its arguments.  The status is returned as it is.  If
the script cannot be run the son ends with `PBAT_COMMAND_ERROR`. -/
def startFile {W : Type} (os : ExecReq → W → Child × W) (wait : Bool) (script : List Char) (q : ExecReq) (w : W) : Option Int × W :=
  match os { q with file := script, argv := script :: q.file :: q.argv.drop 1 } w with
  | (.noFork, w) => (none, w)
  | (.noExec, w) => (some (if wait then 3 * 256 else 0), w)
  | (.ended s, w) => (some (if wait then (s : Int) else 0), w)

/-- The second attempts of `pBat_ExecuteFile`, pbat/core/pBat_Exec.c:56-83; `script` is the variable `PBAT_START_SCRIPT`. -/
def execAgain {W : Type} (os : ExecReq → W → Child × W) (script : Option (List Char)) (sep wait : Bool) (q : ExecReq) (w : W) : Option Int × W :=
  match script with
  | none => if sep then runFile os false wait q w else (none, w)
  | some s => startFile os wait s q w

/-- The end of `pBat_ExecuteFile`, pbat/core/pBat_Exec.c:87-96: the value, whether an error is reported. -/
def execReport {W : Type} (r : Option Int × W) : Int × Bool × W :=
  match r with
  | (some n, w) => (n, false, w)
  | (none, w) => (3, true, w)

/-- `pBat_ExecuteFile`, pbat/core/pBat_Exec.c:39-97. -/
def executeFile {W : Type} (os : ExecReq → W → Child × W) (script : Option (List Char)) (sep wait : Bool) (q : ExecReq) (w : W) : Int × Bool × W :=
  match runFile os sep wait q w with
  | (some n, w) => (n, false, w)
  | (none, w) => execReport (execAgain os script sep wait q w)

/-- What follows the name in the line, pbat/core/pBat_Run.c:723-733; `line` has been expanded already. -/
def batchStar (ex : List Char → Res (List Char)) (line : List Char) : Res (List Char) := do
  let r ← nextParam stdDelims ex line
  .ok (match r with
    | some (_, rest) => skipBlanks rest
    | none => line)

/-- The arguments set by `pBat_LaunchExternalBatch`, pbat/core/pBat_Run.c:696-737: `argv` with the name as first item. -/
def batchArgs (ex : List Char → Res (List Char)) (file line : List Char) (argv : List (List Char)) : Res LocalBlock := do
  let (b, i, rest) := setArgs (fun _ => none) 1 (argv.drop 1)
  let t ← commandLine rest
  let b := emptyArgs (setLocalVar b '+' (some t)) i
  let s ← batchStar ex line
  .ok (setLocalVar (setLocalVar b '*' (some s)) '0' (some file))

/-- The interpreter as far as it matters here: expansion, `pBat_GetFilePath`, the system, `PBAT_START_SCRIPT`, the current directory, and
the run of a script in a clone given its arguments (pbat/core/pBat_Run.c:739-791): the error level it ends with. -/
structure ExecEnv (W : Type) where
  ex : List Char → Res (List Char)
  find : List Char → Option (List Char)
  os : ExecReq → W → Child × W
  start : Option (List Char)
  dir : List Char
  batch : List Char → LocalBlock → W → Res (Int × W)

/-- The result of `pBat_RunExternalCommand`: the file is not found, or the error level, the name in an error message, and the world. -/
inductive Attempt (W : Type) where
  | missing
  | done (level : Int) (report : Option (List Char)) (w : W)

/-- Script or program, pbat/core/pBat_Run.c:644-666. -/
def runFound {W : Type} (e : ExecEnv W) (file line : List Char) (argv : List (List Char)) (w : W) : Res (Attempt W) := do
  let s ← isScript file
  if s then do
    let b ← batchArgs e.ex file line argv
    let r ← e.batch file b w
    .ok (.done r.1 none r.2)
  else
    let r := executeFile e.os e.start false true ⟨file, argv, e.dir⟩ w
    .ok (.done r.1 (if r.2.1 then some file else none) r.2.2)

/-- `pBat_RunExternalCommand`, pbat/core/pBat_Run.c:590-680. -/
def runExternal {W : Type} (e : ExecEnv W) (line : List Char) (w : W) : Res (Attempt W) := do
  let argv ← paramList e.ex line
  match argv with
  | [] => .ok (.done 0 none w)
  | a :: as => do
    let full ← e.ex line
    match e.find a with
    | none => .ok .missing
    | some file => runFound e file full (a :: as) w

/-- What a command comes to: something else than a program is run (with the text), or the error level, the name shown in an error message,
and the world. -/
inductive CommandOut (W : Type) where
  | other (t : Target) (line : List Char)
  | ran (level : Int) (report : Option (List Char)) (w : W)

/-- `strpbrk(lpCmdLine, " \t\n")`, pbat/core/pBat_Run.c:441-444. -/
def shownName (line : List Char) : List Char := line.takeWhile fun c => !(c == ' ' || c == '\t' || c == '\n')

/-- The second search, pbat/core/pBat_Run.c:432-445. -/
def runSecond {W : Type} (e : ExecEnv W) (t : CmdTree CmdBody) (line : List Char) (w : W) : Res (CommandOut W) := do
  let target ← runTarget e.ex line t
  match target with
  | .program => do
    let r ← runExternal e (skipAllBlanks line) w
    match r with
    | .missing => .ok (.ran (-1) (some (shownName (skipAllBlanks line))) w)
    | .done n rep w => .ok (.ran n rep w)
  | o => .ok (.other o line)

/-- `pBat_RunCommand` for programs, pbat/core/pBat_Run.c:400-450: if the file is not found the whole line is expanded and searched again. -/
def runFirst {W : Type} (e : ExecEnv W) (t : CmdTree CmdBody) (line : List Char) (w : W) : Res (CommandOut W) := do
  let target ← runTarget e.ex line t
  match target with
  | .program => do
    let r ← runExternal e (skipAllBlanks line) w
    match r with
    | .missing => do
      let l ← e.ex line
      runSecond e t l w
    | .done n rep w => .ok (.ran n rep w)
  | o => .ok (.other o line)

end PBat
