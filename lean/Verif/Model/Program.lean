import Verif.Model.Run
import Verif.Model.Script
import Verif.Model.Redir
import Verif.Model.Expand
/-
Model of a running script from its text: the reading of lines (`Model/Script.lean`), their expansion (`Model/Expand.lean`), their analysis
(`Model/Parse.lean`, `Model/Redir.lean`) and their execution (`Model/Run.lean`) put together as `pbat/core/pBat_Run.c` does.

Simplifications: those of the parts; the file of the script does not change while it runs (C20 is about that); reading a variable succeeds;
the prompt and the line shown when ECHO is on are an arbitrary effect `echo`, which depends on the state but not on the redirections.
-/
namespace PBat.Prog
open PBat

/-- Everything a script depends on.  `W` is the state apart from the script being run and its position. -/
structure Host (ν W τ : Type) where
  /-- Commands and the system.  `fetch` is not used. -/
  base : Sys (List Char) ν (W × Script) τ
  /-- The arguments of the script, `lpvArguments`. -/
  args : W → LocalBlock
  /-- The variables of FOR, `lpvLocalVars`. -/
  loops : W → LocalBlock
  /-- Modifiers of arguments (C31). -/
  mods : W → List Char → Char → List Char → List Char
  /-- The variables. -/
  vars : W → List Char → Option (List Char)
  /-- Whether delayed expansion is on. -/
  delayed : W → Bool
  /-- `pBat_GetFullPathName` for names of redirections. -/
  full : W → List Char → List Char
  /-- What kind of command a text is. -/
  cls : List Char → Cmd (List Char) ν
  /-- The prompt and the line, pbat/core/pBat_Run.c:85-92. -/
  echo : List Char → W → W
  /-- The condition of IF, given the text behind this word: its outcome and the text behind it (`ifCond` of Model/If.lean).  Only used by
  Model/TextRun.lean. -/
  cond : List Char → W × Script → Int → Test × List Char := fun _ _ _ => (.error 1, [])
  /-- A FOR line up to the word DO, given the text behind FOR: an error, or the text behind DO (`cmdFor` of Model/ForLine.lean).  Only used by
  Model/TextRun.lean, where FOR is a loop whose body is that text as a command. -/
  forBehind : List Char → W × Script → Except Int (List Char) := fun _ _ => .error 1
  /-- The values of a FOR loop, given the text behind FOR: the state after they are found (FOR /F runs commands), and an error or the values. -/
  forValues : List Char → W × Script → (W × Script) × Except Int (List ν) := fun _ x => (x, .error 1)

variable {ν W τ : Type}

/-- `pBat_ReplaceVars` in a state, pbat/core/pBat_Expand.c:155-163. -/
def Host.expand (h : Host ν W τ) (w : W) (t : List Char) : Res (List Char) :=
  replaceVars (h.args w) (h.mods w) (fun n => .ok (h.vars w n)) t

/-- `pBat_DelayedExpand` in a state, pbat/core/pBat_Expand.c:166-184. -/
def Host.delay (h : Host ν W τ) (w : W) (t : List Char) : Res (List Char) :=
  delayedExpand (h.delayed w) (h.loops w) (h.mods w) (fun n => .ok (h.vars w n)) t

/-- The redirections of a node as `pBat_ExecOutput` uses them, pbat/core/pBat_Run.c:246-301. -/
def toRedir (s : Streams) : Redir (List Char) where
  input := s.input
  output := s.output.map fun f => (f, s.outTrunc)
  error := s.error.map fun f => (f, s.errTrunc)
  errToOut := s.merge == .errToOut
  outToErr := s.merge == .outToErr

/-- `pBat_RunLine` up to the call of `pBat_RunParsedLine`, pbat/core/pBat_Run.c:304-320: no nodes if the line begins with a colon or is
refused.  (The analysis always ends, C53.) -/
def Host.nodes (h : Host ν W τ) (w : W) (u : List Char) : List (Node (List Char) ν) :=
  if (skipBlanks u).head? = some ':' then []
  else match parseLine (h.delay w) (h.full w) u with
    | .ok (some l) => l.map fun x => (x.1, toRedir x.2.1, h.cls x.2.2)
    | _ => []

/-- One round of the loop of `pBat_RunBatch` up to the execution of the line, pbat/core/pBat_Run.c:64-94: the loop ends if there is no
further line or if the blocks of the last one are not closed, pbat/core/pBat_Read.c:106-146. -/
def Host.fetch (h : Host ν W τ) (x : W × Script) : Option (List (Node (List Char) ν) × (W × Script)) :=
  match getLine (h.expand x.1) x.2 with
  | .ok (.line u, sc) => some (h.nodes (h.echo u x.1) u, (h.echo u x.1, sc))
  | _ => none

/-- The system in which the lines of the script are those of its text. -/
def Host.sys (h : Host ν W τ) : Sys (List Char) ν (W × Script) τ := { h.base with fetch := h.fetch }

/-- `pBat_RunBatch`, pbat/core/pBat_Run.c:52-107.  The number bounds the lines and the depth of nested runs. -/
def Host.run (h : Host ν W τ) (n : Nat) (st : St (W × Script) τ) : Option (St (W × Script) τ) := runBatch h.sys n st

end PBat.Prog
