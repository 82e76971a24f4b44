import Verif.Model.Exec
/-
Model of START, `pbat/command/pBat_Start.c`.

Simplifications: allocation does not fail; the names fit `FILENAME_MAX`; the title is only told to Windows; a command run in a thread is
given by its text (`pBat_RunLine` in a clone).
-/
namespace PBat

/-- What START depends on beside `ExecEnv`: `pBat_MakeFullPath` and `pBat_EsToFullPath`, the table of commands, `lppBatExec`, `bEchoOn`,
`bCmdlyCorrect`. -/
structure StartEnv (W : Type) extends ExecEnv W where
  full : List Char → List Char
  table : CmdTree CmdBody
  exe : List Char
  echo : Bool
  cmdly : Bool

/-- `info.flags`, `info.dir` and `info.title`, pbat/command/pBat_Start.c:129-132. -/
structure StartFlags where
  wait : Bool := false
  sep : Bool := true
  dir : Option (List Char) := none
  title : Option (List Char) := none
  deriving DecidableEq, Repr

/-- What the scan of the line ends with: help, an error, no command at all, a command for a thread, or a file and the text of its command
line. -/
inductive StartPlan where
  | help
  | error (code : Int)
  | empty (f : StartFlags)
  | thread (f : StartFlags) (text : List Char)
  | file (f : StartFlags) (file text : List Char)
  deriving DecidableEq, Repr

/-- `/WAIT` and `/W`, pbat/command/pBat_Start.c:143-146. -/
def startWait (t : List Char) : Bool := stricmp t "/WAIT".toList = 0 || stricmp t "/W".toList = 0

/-- The options without effect, pbat/command/pBat_Start.c:152-161. -/
def startIgnored (t : List Char) : Bool :=
  ["/NORMAL".toList, "/SHARED".toList, "/SEPARATE".toList, "/HIGH".toList, "/LOW".toList, "/REALTIME".toList, "/ABOVENORMAL".toList,
    "/BELOWNORMAL".toList].any fun o => stricmp t o = 0

/-- The options with an ignored value, pbat/command/pBat_Start.c:162-163. -/
def startSkips (t : List Char) : Bool := stricmp t "/NODE".toList = 0 || stricmp t "/AFFINITY".toList = 0

/-- `lppBatExec` and its modes, pbat/command/pBat_Start.c:229-236, 266-273, 304-311. -/
def startShell {W : Type} (e : StartEnv W) : List Char :=
  e.exe ++ " /a:q".toList ++ (if e.echo then [] else ['e']) ++ if e.cmdly then ['c'] else []

/-- `PATH` first, then an absolute path, pbat/command/pBat_Start.c:258-259. -/
def startPath {W : Type} (e : StartEnv W) (t : List Char) : List Char := (e.find t).getD (e.full t)

/-- An URI, pbat/command/pBat_Start.c:244-246. -/
def startUri (t : List Char) : Bool := t ≠ [] && t[1]? ≠ some ':' && t.contains ':'

/-- The thing to be started, pbat/command/pBat_Start.c:217-289: `t` is its name, `line` the text from it on. -/
def startTarget {W : Type} (e : StartEnv W) (f : StartFlags) (t line : List Char) : Res StartPlan := do
  let p ← e.table.lookup t
  if p.isSome then
    if f.sep then .ok (.file f e.exe (startShell e ++ " /C ".toList ++ line)) else .ok (.thread f line)
  else if startUri t then .ok (.file f t line)
  else do
    let s ← isScript (startPath e t)
    if s then .ok (.file f e.exe (startShell e ++ ' ' :: line)) else .ok (.file f (startPath e t) line)

/-- The loop of `pBat_CmdStart`, pbat/command/pBat_Start.c:136-295.  After `/NODE` or `/AFFINITY` at the end of the line the next parameter
is read at a null pointer. -/
def startScan {W : Type} (e : StartEnv W) (f : StartFlags) (line : List Char) : Res StartPlan :=
  match nextParam stdDelims e.ex line with
  | .ub => .ub
  | .hang => .hang
  | .ok none => .ok (.empty f)
  | .ok (some (t, next)) =>
    if stricmp t "/?".toList = 0 then .ok .help
    else if startWait t then
      if next.length < line.length then startScan e { f with wait := true } next else .hang
    else if stricmp t "/B".toList = 0 then
      if next.length < line.length then startScan e { f with sep := false } next else .hang
    else if startIgnored t then
      if next.length < line.length then startScan e f next else .hang
    else if startSkips t then
      match nextParam stdDelims e.ex next with
      | .ub => .ub
      | .hang => .hang
      | .ok none => .ub
      | .ok (some (_, next2)) => if next2.length < line.length then startScan e f next2 else .hang
    else if stricmp t "/D".toList = 0 then
      if f.dir.isSome then .ok (.error 4)
      else match nextParam stdDelims e.ex next with
        | .ub => .ub
        | .hang => .hang
        | .ok none => .ok (.error 8)
        | .ok (some (d, next2)) =>
          if next2.length < line.length then startScan e { f with dir := some (e.full d) } next2 else .hang
    else if (skipBlanks line).head? = some '"' ∧ f.title = none then
      if next.length < line.length then startScan e { f with title := some t } next else .hang
    else startTarget e f t line
termination_by line.length

/-- What START does: help, an error, a text run as a line in a thread (waited for or not), or a file run (`pBat_ExecuteFile`), with the
status. -/
inductive StartOut (W : Type) where
  | help
  | error (code : Int)
  | thread (text : List Char) (wait : Bool)
  | ran (status : Int) (report : Bool) (w : W)

/-- No command: an interpreter if there is a title, pbat/command/pBat_Start.c:297-313. -/
def startDefault {W : Type} (e : StartEnv W) : StartPlan → StartPlan
  | .empty f => if f.title = none then .error 8 else .file f e.exe (startShell e)
  | p => p

/-- The end of `pBat_CmdStart` for a file, pbat/command/pBat_Start.c:315-365. -/
def startFileRun {W : Type} (e : StartEnv W) (f : StartFlags) (file text : List Char) (w : W) : Res (StartOut W) := do
  let _ ← e.ex text
  let argv ← paramList e.ex text
  match argv with
  | [] => .ok (.error 8)
  | _ =>
    let r := executeFile e.os e.start f.sep f.wait ⟨file, argv, f.dir.getD e.dir⟩ w
    .ok (.ran r.1 r.2.1 r.2.2)

/-- The end of `pBat_CmdStart` for a command, pbat/command/pBat_Start.c:315-362: it is given expanded to the thread. -/
def startThreadRun {W : Type} (e : StartEnv W) (f : StartFlags) (text : List Char) : Res (StartOut W) := do
  let l ← e.ex text
  let argv ← paramList e.ex text
  match argv with
  | [] => .ok (.error 8)
  | _ => .ok (.thread (skipBlanks l) f.wait)

/-- `pBat_CmdStart`, pbat/command/pBat_Start.c:108-385; `line` is the text after `START`. -/
def cmdStart {W : Type} (e : StartEnv W) (line : List Char) (w : W) : Res (StartOut W) := do
  let p ← startScan e {} line
  match startDefault e p with
  | .help => .ok .help
  | .error n => .ok (.error n)
  | .empty _ => .ok (.error 8)
  | .thread f text => startThreadRun e f text
  | .file f file text => startFileRun e f file text w

end PBat
