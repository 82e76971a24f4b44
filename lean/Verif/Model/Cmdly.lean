import Verif.Model.Script
import Verif.Model.Args
import Verif.Spec.Replace
/-
Model of the reading of scripts when `CMDLYCORRECT` is set: `pBat_GetLine_Cmdly` (`pbat/core/pBat_Read.c`),
`pBat_JumpToLabel_Cmdly` (`pbat/core/pBat_Jump.c`), the loop of `pBat_RunFile` over them (`pbat/core/pBat_Run.c`) and the options of
`pBat_CmdGoto` (`pbat/command/pBat_Goto.c`).

The script is opened again for each line: a file is its text, a position a number of characters.  `pBat_EsGet` on a stream
returns the lines of its text with the ends of lines normalised (C04, `C04_reads_lines`).  Simplifications: not Windows; texts have no
NUL; allocation does not fail; names of files fit their buffers; `ftell` and `fseek` count characters.
-/
namespace PBat.Cmdly
open Spec (lines normNL)

/-- `INPUT_FILE` as far as this mode uses it, pbat/core/pBat_Read.h: `lpFileName`, `iPos`, `bEof`. -/
structure In where
  file : List Char
  pos : Nat
  eof : Bool
  deriving DecidableEq, Repr

/-- What `pBat_GetLine_Cmdly` returns: 0 and a line, 1, or -1 with `PBAT_NONCLOSED_BLOCKS` or `PBAT_FILE_ERROR`. -/
inductive Got where
  | line (t : List Char)
  | nothing
  | unclosed
  | noFile
  deriving DecidableEq, Repr

/-- The loop of `pBat_GetLine_Cmdly`, pbat/core/pBat_Read.c:189-226, over the lines left in the file.  The result is the text
gathered, `bCorrectBlocks`, and the number of characters read (`none` when the end of the file has been reached).
`lpCh` is set before the expansion (line 191) and read after it (line 196): when the expansion does not fit the buffer of the line, of
`cap` characters, `pBat_EsCpy` has reallocated it and `lpCh` is dangling. `ex` is `pBat_ReplaceVars`. -/
def readLoop (cap : List Char → Nat) (ex : List Char → Res (List Char)) (acc : List Char) (used : Nat) :
    List (List Char) → Res (List Char × Bool × Option Nat)
  | [] => .ok (acc, false, none)
  | raw :: ls =>
    let text := normNL raw
    let k := text.length - (skipAllBlanks text).length
    match ex text with
    | .ub => .ub
    | .hang => .hang
    | .ok t =>
      if cap text ≤ t.length ∨ t.length < k then .ub
      else if t[k]? = none ∨ t[k]? = some ':' ∨ t[k]? = some '\n' then
        if acc = [] then .ok (acc, true, some (used + raw.length)) else readLoop cap ex acc (used + raw.length) ls
      else
        let acc' := acc ++ (if '\n' ∈ t then t else t ++ ['\n'])
        match checkBlocks acc' with
        | .ub => .ub
        | .hang => .hang
        | .ok (some true) => .ok (acc', true, some (used + raw.length))
        | .ok _ => readLoop cap ex acc' (used + raw.length) ls

/-- `pBat_GetLine_Cmdly` for a script, pbat/core/pBat_Read.c:148-260.  `opens` is `fopen` for reading: the text of the file at
that moment. -/
def getLine (opens : List Char → Option (List Char)) (cap : List Char → Nat) (ex : List Char → Res (List Char)) (st : In) :
    Res (Got × In) :=
  match opens st.file with
  | none => .ok (.noFile, { st with eof := true })
  | some f =>
    match readLoop cap ex [] 0 (lines (f.drop st.pos)) with
    | .ub => .ub
    | .hang => .hang
    | .ok (t, correct, n) =>
      let st' := match n with
        | none => { st with eof := true }
        | some n => { st with pos := st.pos + n, eof := false }
      if t = [] then .ok (.nothing, st')
      else if correct = false then .ok (.unclosed, { st' with eof := true })
      else .ok (.line (rmTrailingNl t), st')

/-- The loop of `pBat_RunFile`, pbat/core/pBat_Run.c:63-102, for a script none of whose commands moves the position or leaves the level: the
lines given to `pBat_RunLine`.  `exs n` is the expansion when `n` lines have been run. The guard stands for the progress of
the position, which is proved (`getLine_progress`). -/
def runFile (f : List Char) (cap : List Char → Nat) (exs : Nat → List Char → Res (List Char)) (n : Nat) (st : In) :
    Res (List (List Char)) :=
  if st.eof then .ok []
  else
    match getLine (fun _ => some f) cap (exs n) st with
    | .ub => .ub
    | .hang => .hang
    | .ok (g, st') =>
      if st'.eof = false ∧ ¬ (st.pos < st'.pos ∧ st'.pos ≤ f.length) then .hang
      else
        match g with
        | .line t =>
          if h : st'.eof = false ∧ st.pos < st'.pos ∧ st'.pos ≤ f.length then
            match runFile f cap exs (n + 1) st' with
            | .ub => .ub
            | .hang => .hang
            | .ok r => .ok (t :: r)
          else .ok [t]
        | _ =>
          if h : st'.eof = false ∧ st.pos < st'.pos ∧ st'.pos ≤ f.length then runFile f cap exs n st' else .ok []
termination_by f.length - st.pos
decreasing_by all_goals omega

/-- The test of pbat/core/pBat_Jump.c:138-140: the name is looked for after the blanks of the line, the delimiter at its length from the
start of the line. -/
def labelHere (text name : List Char) : Bool :=
  ((skipBlanks text).take name.length).map Char.toLower == name.map Char.toLower &&
    match text[name.length]? with
    | none => true
    | some c => isDelim c

/-- The loop of `pBat_JumpToLabel_Cmdly`, pbat/core/pBat_Jump.c:135-166: the position after the label, and `feof`. -/
def jumpLoop (name : List Char) (used : Nat) : List (List Char) → Option (Nat × Bool)
  | [] => none
  | raw :: ls =>
    if labelHere (normNL raw) name then some (used + raw.length, decide ('\n' ∉ raw))
    else jumpLoop name (used + raw.length) ls

/-- `pBat_JumpToLabel` with `bCmdlyCorrect`, pbat/core/pBat_Jump.c:38-45, 104-175: `none` is -1.  `st` is `ifIn`. -/
def jump (opens : List Char → Option (List Char)) (st : In) (name : List Char) (file : Option (List Char)) : Option In :=
  if st.file = [] ∧ file = none then none
  else if name.length = 1 then none
  else
    match opens (file.getD st.file) with
    | none => none
    | some f =>
      match jumpLoop name 0 (lines f) with
      | none => none
      | some (n, e) => some { file := file.getD st.file, pos := n, eof := e }

/-- What the options of GOTO lead to: the help, `PBAT_FILE_ERROR`, or a jump to the rest of the line. -/
inductive Opts where
  | help
  | badFile
  | go (quiet : Bool) (file : Option (List Char)) (rest : List Char)
  deriving DecidableEq, Repr

/-- The loop of `pBat_CmdGoto`, pbat/command/pBat_Goto.c:53-88.  `correct` is `bCmdlyCorrect`, `full` is `pBat_GetFileFullPath` (`none` is -1), `ex` is
`pBat_DelayedExpand`. An empty full path is no file (line 113).  The guard stands for the progress along the line. -/
def options (correct : Bool) (ex : List Char → Res (List Char)) (full : List Char → Option (List Char)) (quiet : Bool)
    (file : Option (List Char)) (line : List Char) : Res Opts :=
  match nextParam stdDelims ex line with
  | .ub => .ub
  | .hang => .hang
  | .ok none => .ok (.go quiet file line)
  | .ok (some (arg, next)) =>
    if arg = ['/', '?'] then .ok .help
    else if correct = false ∧ arg.map Char.toLower = ['/', 'q'] then
      if next.length < line.length then options correct ex full true file next else .hang
    else if correct = false ∧ (arg.take 2).map Char.toLower = ['/', 'f'] then
      let pch := arg.drop 2
      let pch := if pch.head? = some ':' then pch.drop 1 else pch
      match full pch with
      | none => .ok .badFile
      | some p =>
        if next.length < line.length then options correct ex full quiet (if p = [] then none else some p) next else .hang
    else .ok (.go quiet file line)
termination_by line.length

/-- What GOTO has done: where the script goes on, what it printed, whether the level is left, and ERRORLEVEL. -/
structure After where
  st : In
  printed : Bool
  leave : Bool
  moved : Bool
  level : Nat
  deriving DecidableEq, Repr

/-- `pBat_CmdGoto` with `bCmdlyCorrect`, pbat/command/pBat_Goto.c:43-128; `line` is the command without `goto`, `level` is
`iErrorLevel`.  `PBAT_LABEL_ERROR` is 6, `PBAT_FILE_ERROR` is 1. -/
def goto (opens : List Char → Option (List Char)) (ex : List Char → Res (List Char)) (full : List Char → Option (List Char))
    (st : In) (level : Nat) (line : List Char) : Res After :=
  match options true ex full false none line with
  | .ub => .ub
  | .hang => .hang
  | .ok .help => .ok { st := st, printed := true, leave := false, moved := false, level := level }
  | .ok .badFile => .ok { st := st, printed := true, leave := false, moved := false, level := 1 }
  | .ok (.go quiet file rest) =>
    match gotoName ex rest with
    | .ub => .ub
    | .hang => .hang
    | .ok name =>
      if name.map Char.toLower = [':', 'e', 'o', 'f'] then
        .ok { st := st, printed := false, leave := true, moved := false, level := level }
      else
        match jump opens st name file with
        | none => .ok { st := st, printed := !quiet, leave := false, moved := false, level := 6 }
        | some st' => .ok { st := st', printed := false, leave := false, moved := true, level := level }

end PBat.Cmdly
