import Verif.Model.ApplyEnv
import Verif.Model.Del
import Verif.Model.Startup
/-
Model of the interruption (Ctrl-C) on Unix: `pBat_SigHandlerBreak` (pbat/core/pBat_Run.c), installed by pbat/pBat.c:97-101.

Simplifications: the handler runs in the thread interrupted, between two steps of it; `execl` and the functions of strings do not fail; the
text of the question is not modelled.
-/
namespace PBat

/-- What the handler reads: `bIsScript`, `bEchoOn`, `bDelayedExpansion`, `bCmdlyCorrect`, `lppBatExec`, `lpCurrentDir`, `lpeEnv`; and of the
process its environment and its current directory. -/
structure Interrupted where
  script : Bool
  echo : Bool
  delayed : Bool
  cmdly : Bool
  exe : List Char
  dir : List Char
  env : EnvBuf
  environ : List (List Char)
  cwd : List Char

/-- What becomes of the process: it goes on, or it is replaced by a program with arguments, an environment and a current directory. -/
inductive BreakOut where
  | goesOn
  | restarts (argv : List (List Char)) (environ : List (List Char)) (cwd : List Char)
  deriving DecidableEq

/-- The text of the modes, pbat/core/pBat_Run.c:876-887: the second `pBat_EsCpy` replaces the first. -/
def breakModes (i : Interrupted) : List Char :=
  "/a:q".toList ++ (if i.echo then [] else ['e']) ++ (if i.delayed then ['v'] else []) ++ if i.cmdly then ['c'] else []

/-- The end of `pBat_SigHandlerBreak`, pbat/core/pBat_Run.c:874-892; `isDir` tells whether `chdir` succeeds. -/
def breakRestart (isDir : List Char → Bool) (i : Interrupted) : BreakOut :=
  .restarts [i.exe, breakModes i] (applyEnv i.env i.environ) (if isDir i.dir then i.dir else i.cwd)

/-- `pBat_SigHandlerBreak`, pbat/core/pBat_Run.c:858-893. -/
def sigBreak (w : AskWords) (isDir : List Char → Bool) (i : Interrupted) (input : List Char) : Res (BreakOut × List Char) :=
  if i.script then do
    let r ← askConfirmation w false 2 true input
    if r.1 = 2 then .ok (.goesOn, r.2) else .ok (breakRestart isDir i, r.2)
  else .ok (breakRestart isDir i, input)

end PBat
