import Verif.Model.Parse
import Verif.Model.Stream
/-
Model of the execution of parsed lines, `pbat/core/pBat_Run.c`, with the control part of IF, FOR, blocks and CALL.

The effect of ordinary commands, the conditions of IF, the outcome of opening files and what the threads of a pipeline do
are given by an arbitrary `Sys`; theorems hold for all of them.  Simplifications: allocation does not fail; lines which do
not parse have no effect and do not occur; commands defined by DEF count as ordinary commands.
-/
namespace PBat

/-- Values of `bAbortCommand`, pbat/core/pBat_Globals.h:55-60. -/
inductive Abort where
  | no | line | block | level
  deriving DecidableEq, Repr

/-- `PARSED_STREAM`, pbat/core/pBat_Parse.h:31-38; files come with `PARSED_STREAM_MODE_TRUNCATE`. -/
structure Redir (ι : Type) where
  input : Option ι := none
  output : Option (ι × Bool) := none
  error : Option (ι × Bool) := none
  errToOut : Bool := false
  outToErr : Bool := false
  deriving DecidableEq, Repr

/-- Commands.  `ι` names things of the script (commands, conditions, files), `ν` are loop values.  The bodies of blocks,
of IF and of FOR are the lines of their text; they are parsed each time they run.  `call` is CALL of a script or label. -/
inductive Cmd (ι ν : Type) where
  | simple (i : ι)
  | block (lines : List (List (NodeType × Redir ι × Cmd ι ν)))
  | iff (c : ι) (yes : List (List (NodeType × Redir ι × Cmd ι ν)))
      (no : Option (List (List (NodeType × Redir ι × Cmd ι ν))))
  | loop (xs : List ν) (body : List (List (NodeType × Redir ι × Cmd ι ν)))
  | call (i : ι)

/-- `PARSED_LINE` without its link, pbat/core/pBat_Parse.h:40-45. -/
abbrev Node (ι ν : Type) := NodeType × Redir ι × Cmd ι ν

/-- The state of a thread: everything else, `iErrorLevel`, `bAbortCommand` and the streams. -/
structure St (W τ : Type) where
  world : W
  err : Int
  abort : Abort
  io : Io τ

/-- Outcome of the condition of IF, pbat/command/pBat_If.c:55-319: true, false, a syntax error, or an unknown comparison
operator (which returns -1 without clearing the line). -/
inductive Test where
  | yes | no | error (code : Int) | unknown
  deriving DecidableEq, Repr

/-- What the commands and the system do. -/
structure Sys (ι ν W τ : Type) where
  /-- An ordinary command: it sees what its input, output and error streams designate and does not change them. -/
  exec : ι → W → Int → τ × τ × τ → W × Int × Abort
  /-- The condition of IF. -/
  test : ι → W → Int → Test
  /-- Assigns or removes the loop variable. -/
  setVar : Option ν → W → W
  /-- `open`; `none` if it fails.  The flag is truncation, `none` for input. -/
  openFile : ι → Option Bool → W → W × Option τ
  /-- `_pBat_Pipe`: the reading end. -/
  pipe : W → W × τ
  /-- The thread of a member of a pipeline: the command, its input and the reading end of its output. -/
  spawn : Redir ι → Cmd ι ν → Option τ → τ → Abort → W → W
  /-- Entering a called script or label: an error or the new world. -/
  enter : ι → W → Except Int W
  /-- Leaving it, given the world before. -/
  leave : W → W → W
  /-- The next line of the current script. -/
  fetch : W → Option (List (Node ι ν) × W)

variable {ι ν W τ : Type}

/-- The lookahead commands, tested by name in pbat/core/pBat_Run.c:128-130 and 373-374. -/
def Cmd.look : Cmd ι ν → Bool
  | .iff _ _ _ => true
  | .loop _ _ => true
  | _ => false

/-- The condition of an operator, pbat/core/pBat_Run.c:132-156: whether the command is skipped. -/
def skips (ty : NodeType) (err : Int) : Bool :=
  match ty with
  | .pipe => true
  | .none => false
  | .not => err == 0
  | .yes => err != 0

/-- Opens one file of a redirection: nothing changes in the streams if that fails (pbat/core/pBat_Stream.c:96-104). -/
def openRedir (sys : Sys ι ν W τ) (file : Option (ι × Option Bool)) (fd : Fd) (st : St W τ) : St W τ :=
  match file with
  | none => st
  | some (name, mode) =>
    match sys.openFile name mode st.world with
    | (w, none) => { st with world := w }
    | (w, some t) => { st with world := w, io := st.io.openOutput t fd }

/-- `pBat_ExecOutput`, pbat/core/pBat_Run.c:246-301. -/
def execOutput (sys : Sys ι ν W τ) (r : Redir ι) (st : St W τ) : St W τ :=
  let st := openRedir sys (r.input.map (fun f => (f, none))) .inp st
  let st := openRedir sys (r.output.map (fun f => (f.1, some f.2))) .out st
  let st := openRedir sys (r.error.map (fun f => (f.1, some f.2))) .err st
  if r.errToOut then
    { st with io := { st.io.openOutputD none .none with errOut := true } }
  else if r.outToErr then
    { st with io := { st.io.openOutputD none .none with outOwn := false } }
  else st

/-- The pipe loop of `pBat_ExecOperators`, pbat/core/pBat_Run.c:158-196: the members launched, the current node, the rest,
the reading end of the last pipe and the state. -/
def pipeLoop (sys : Sys ι ν W τ) (lastin : Option τ) (node : Node ι ν) (rest : List (Node ι ν)) (st : St W τ) :
    List (Node ι ν) × Node ι ν × List (Node ι ν) × Option τ × St W τ :=
  match rest with
  | [] => ([], node, [], lastin, st)
  | next :: rest' =>
    if next.1 = .pipe then
      let (w, t) := sys.pipe st.world
      let r := pipeLoop sys (some t) next rest' { st with world := sys.spawn node.2.1 node.2.2 lastin t st.abort w }
      (node :: r.1, r.2)
    else ([], node, next :: rest', lastin, st)

theorem pipeLoop_length (sys : Sys ι ν W τ) (lastin : Option τ) (node : Node ι ν) (rest : List (Node ι ν)) (st : St W τ) :
    (pipeLoop sys lastin node rest st).2.2.1.length ≤ rest.length := by
  induction rest generalizing lastin node st with
  | nil => simp [pipeLoop]
  | cons next rest ih =>
    simp only [pipeLoop]
    split
    · exact Nat.le_succ_of_le (ih _ _ _)
    · simp

/-- `pBat_ExecOperators` from the pipe loop on, pbat/core/pBat_Run.c:158-204. -/
def launch (sys : Sys ι ν W τ) (go : Bool) (node : Node ι ν) (rest : List (Node ι ν)) (st : St W τ) :
    List (Node ι ν) × Node ι ν × List (Node ι ν) × St W τ :=
  if go then
    let r := pipeLoop sys none node rest st
    (r.1, r.2.1, r.2.2.1,
      match r.2.2.2.1 with
      | none => r.2.2.2.2
      | some t => { r.2.2.2.2 with io := r.2.2.2.2.io.openOutputD (some t) .inp })
  else ([], node, rest, st)

theorem launch_length (sys : Sys ι ν W τ) (go : Bool) (node : Node ι ν) (rest : List (Node ι ν)) (st : St W τ) :
    (launch sys go node rest st).2.2.1.length ≤ rest.length := by
  unfold launch
  split
  · exact pipeLoop_length sys none node rest st
  · simp

/-- The end of an iteration, pbat/core/pBat_Run.c:348-349 and 379-380. -/
def closeLine (lock : Bool) (st : St W τ) : St W τ :=
  { st with io := (st.io.popUntilLock).setLock lock }

/-- The loop of `pBat_RunParsedLine`, pbat/core/pBat_Run.c:327-385.  `rc` is `pBat_RunCommand`: given the current node and
those after it, it returns the nodes as the command left them, whether `line` is not NULL, and the state.  The result is
the nodes, which FOR uses again, and the state; `none` stands for an execution that does not end. -/
def runNodes (sys : Sys ι ν W τ)
    (rc : Node ι ν → List (Node ι ν) → St W τ → Option (List (Node ι ν) × Bool × St W τ))
    (nodes : List (Node ι ν)) (st : St W τ) : Option (List (Node ι ν) × St W τ) :=
  match nodes with
  | [] => some ([], st)
  | node :: rest =>
    let lock := st.io.lockState
    let skip := skips node.1 st.err
    let look := node.2.2.look
    let r := launch sys (!skip && !look) node rest { st with io := st.io.setLock true }
    let front := r.1
    let cur := r.2.1
    let rest' := r.2.2.1
    let st1 := r.2.2.2
    if skip || st1.abort ≠ .no then
      let st2 := closeLine lock st1
      if st2.abort ≠ .no then some (front ++ cur :: rest', st2)
      else if look then some (front ++ cur :: rest', st2)
      else
        match runNodes sys rc rest' st2 with
        | none => none
        | some (rest'', st3) => some (front ++ cur :: rest'', st3)
    else
      match rc cur rest' (if look then st1 else execOutput sys cur.2.1 st1) with
      | none => none
      | some (after, more, st2) =>
        if !more || look then some (front ++ after, closeLine lock st2)
        else
          match runNodes sys rc rest' (closeLine lock st2) with
          | none => none
          | some (rest'', st3) => some (front ++ after.take 1 ++ rest'', st3)
termination_by nodes.length
decreasing_by
  all_goals
    have := launch_length sys (!skips node.1 st.err && !node.2.2.look) node rest { st with io := st.io.setLock true }
    simp only [List.length_cons]
    omega

/-- The loop of `pBat_RunBlock`, pbat/core/pBat_Run.c:526-579; `rl` runs a line. -/
def runLines (rl : List (Node ι ν) → St W τ → Option (List (Node ι ν) × St W τ)) :
    List (List (Node ι ν)) → St W τ → Option (St W τ)
  | [], st => some st
  | l :: ls, st =>
    match rl l st with
    | none => none
    | some (_, st1) =>
      if st1.abort = .level ∨ st1.abort = .block then some st1
      else runLines rl ls { st1 with abort := .no }

/-- The iterations of FOR, pbat/command/pBat_For.c:366-475, 537-556: the variable is set and the line, whose first command
is now the body, is run; the nodes are used again. -/
def runLoop (sys : Sys ι ν W τ) (rl : List (Node ι ν) → St W τ → Option (List (Node ι ν) × St W τ)) :
    List ν → List (Node ι ν) → St W τ → Option (List (Node ι ν) × St W τ)
  | [], nodes, st => some (nodes, st)
  | x :: xs, nodes, st =>
    match rl nodes { st with world := sys.setVar (some x) st.world } with
    | none => none
    | some (nodes1, st1) => if st1.abort ≠ .no then some (nodes1, st1) else runLoop sys rl xs nodes1 st1

mutual
/-- `pBat_RunParsedLine`, pbat/core/pBat_Run.c:327-385.  The first argument bounds the depth of nested runs. -/
def runLine (sys : Sys ι ν W τ) : Nat → List (Node ι ν) → St W τ → Option (List (Node ι ν) × St W τ)
  | 0, _, _ => none
  | n + 1, nodes, st => runNodes sys (runCmd sys n) nodes st

/-- `pBat_RunBatch`, pbat/core/pBat_Run.c:52-107.  The number also bounds the lines run. -/
def runBatch (sys : Sys ι ν W τ) : Nat → St W τ → Option (St W τ)
  | 0, _ => none
  | n + 1, st =>
    match sys.fetch st.world with
    | none => some st
    | some (l, w) =>
      match runLine sys n l { st with world := w } with
      | none => none
      | some (_, st1) =>
        if st1.abort = .level then some st1 else runBatch sys n { st1 with abort := .no }

/-- `pBat_RunCommand`, pbat/core/pBat_Run.c:387-482, with `pBat_CmdBlock` (pbat/command/pBat_Block.c:43-92) and
`pBat_RunBlock` (pbat/core/pBat_Run.c:505-508, 582), IF (pbat/command/pBat_If.c:321-434), FOR (pbat/command/pBat_For.c:316-360)
with `pBat_LookAHeadMakeParsedLine` (pbat/core/pBat_Run.c:816-850), which puts the body in the place of the command in its
node, and CALL (pbat/command/pBat_Call.c:356-397).  The value returned by the command becomes the error level. -/
def runCmd (sys : Sys ι ν W τ) : Nat → Node ι ν → List (Node ι ν) → St W τ →
    Option (List (Node ι ν) × Bool × St W τ)
  | 0, _, _, _ => none
  | n + 1, (ty, r, .simple i), rest, st =>
    let _ := n
    let o := sys.exec i st.world st.err st.io.streams
    some ((ty, r, .simple i) :: rest, true, { st with world := o.1, err := o.2.1, abort := o.2.2 })
  | n + 1, (ty, r, .block lines), rest, st =>
    let lock := st.io.lockState
    match runLines (runLine sys n) lines { st with io := st.io.setLock true } with
    | none => none
    | some st => some ((ty, r, .block lines) :: rest, true, { st with io := st.io.setLock lock })
  | n + 1, (ty, r, .iff c yes no), rest, st =>
    match sys.test c st.world st.err with
    | .error code => some ((ty, r, .iff c yes no) :: rest, false, { st with err := code })
    | .unknown => some ((ty, r, .iff c yes no) :: rest, true, { st with err := -1 })
    | .yes =>
      match no with
      | none =>
        match runLine sys n ((ty, r, .block yes) :: rest) st with
        | none => none
        | some (nodes, st) => some (nodes, false, { st with err := 0 })
      | some no =>
        match runLine sys n [(.none, {}, .block yes)] st with
        | none => none
        | some (_, st) => some ((ty, r, .iff c yes (some no)) :: rest, false, { st with err := 0 })
    | .no =>
      match no with
      | none => some ((ty, r, .iff c yes none) :: rest, false, { st with err := 0 })
      | some no =>
        match runLine sys n ((ty, r, .block no) :: rest) st with
        | none => none
        | some (nodes, st) => some (nodes, false, { st with err := 0 })
  | n + 1, (ty, r, .loop xs body), rest, st =>
    match runLoop sys (runLine sys n) xs ((ty, r, .block body) :: rest) st with
    | none => none
    | some (nodes, st) => some (nodes, false, { st with err := 0, world := sys.setVar none st.world })
  | n + 1, (ty, r, .call i), rest, st =>
    match sys.enter i st.world with
    | .error code => some ((ty, r, .call i) :: rest, true, { st with err := code })
    | .ok w =>
      let lock := st.io.lockState
      match runBatch sys n { st with world := w, io := st.io.setLock true } with
      | none => none
      | some st' => some ((ty, r, .call i) :: rest, true,
          { st' with abort := .no, io := st'.io.setLock lock, world := sys.leave st.world st'.world })
end

end PBat
