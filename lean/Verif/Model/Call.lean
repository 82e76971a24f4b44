import Verif.Model.Shift
import Verif.Model.Script
import Verif.Model.SplitPath
import Verif.Model.LibC
import Verif.Model.Run
/-
Model of CALL, `pbat/command/pBat_Call.c`, with `pBat_UpdateScript` (`pbat/core/pBat_Read.c`) and `pBat_JumpToLabel`
(`pbat/core/pBat_Jump.c`) on the name of the input file.

What runs (`pBat_RunBatch`, `pBat_RunBlock`) and the rest of the state are parameters, so that theorems hold for every called script.
Simplifications: allocation does not fail; names fit their buffers; when a script cannot be read again, nothing is said of what
becomes of its old lines.
-/
namespace PBat

/-- The part of the state CALL deals with: the name of the input file, the name of the script loaded, the script, `bEof`
(`ifIn`, pbat/core/pBat_Read.h), the loop variables, the arguments, the lock of the stream stack, `bAbortCommand` and `iErrorLevel`. -/
structure CallState where
  name : List Char
  loaded : List Char
  script : Script
  eof : Bool
  loops : LocalBlock
  args : LocalBlock
  locked : Bool
  abort : Abort
  level : Int

/-- What CALL finds on the disk: `pBat_GetFilePath` and `pBat_GetFileFullPath` (C55, C54), the scripts that can be read, and whether
`err` of `pBat_CheckBatchScriptChanges` happens to be nonzero (see `updateScript`). -/
structure CallDisk where
  find : List Char → Option (List Char)
  full : List Char → Option (List Char)
  read : List Char → Option FileText
  junk : Bool

/-- `pBat_UpdateScript`, pbat/core/pBat_Read.c:34-87: `none` for the result -1.  A script that has disappeared is taken as unchanged
(pbat/core/pBat_ReadScript.c:333-335). -/
def updateFrame (d : CallDisk) (f : CallState) : Option CallState :=
  if f.name = [] then some f
  else if f.loaded = [] ∨ f.name ≠ f.loaded then
    (d.read f.name).map fun t => { f with loaded := f.name, script := loadScript t.texts t.size }
  else
    match d.read f.name with
    | none => some f
    | some t => some { f with script := updateScript d.junk f.script t }

/-- `pBat_JumpToLabel`, pbat/core/pBat_Jump.c:32-101, without `bCmdlyCorrect`; `none` for the result -1. -/
def jumpFrame (d : CallDisk) (f : CallState) (label : List Char) (file : Option (List Char)) : Res (Option CallState) :=
  match file with
  | some p =>
    if stricmp f.loaded p ≠ 0 then
      .ok ((d.read p).bind fun t =>
        (jumpOther (loadScript t.texts t.size) label).map fun sc => { f with name := p, loaded := p, script := sc })
    else
      match updateFrame d f with
      | none => .ok none
      | some f => do
        let sc ← jumpHere f.script label
        .ok (some { f with script := sc })
  | none =>
    if f.name = [] then .ok none
    else
      match updateFrame d f with
      | none => .ok none
      | some f => do
        let sc ← jumpHere f.script label
        .ok (some { f with script := sc })

/-- The input of the called script and `%0`, pbat/command/pBat_Call.c:267-292: `none` when the label is not found. -/
def callInput (d : CallDisk) (f : CallState) (path label : Option (List Char)) : Res (Option (CallState × List Char)) :=
  match label with
  | none =>
    let p := path.getD []
    .ok (some ({ f with eof := false, name := p }, p))
  | some l => do
    let r ← jumpFrame d f l path
    .ok (r.map fun g => (g, l))

/-- Running the called script and going back, pbat/command/pBat_Call.c:341-397: new loop variables and arguments, the stream stack
locked; then everything is as before except the error level. -/
def callRun {W : Type} (run : CallState → W → Res (CallState × W)) (f g : CallState) (args : LocalBlock) (w : W) : Res (Int × CallState × W) := do
  let r ← run { g with loops := fun _ => none, args := args, locked := true } w
  .ok (r.1.level, { f with abort := .no, level := r.1.level }, r.2)

/-- `pBat_CmdCallFile`, pbat/command/pBat_Call.c:231-403: the value returned and the state.  `line` is the rest of the line. -/
def callFile {W : Type} (d : CallDisk) (ex : List Char → Res (List Char)) (run : CallState → W → Res (CallState × W))
    (file label : Option (List Char)) (line : List Char) (f : CallState) (w : W) : Res (Int × CallState × W) :=
  match file.map d.full with
  | some none => .ok (1, f, w)
  | path => do
    let r ← callInput d f path.join label
    match r with
    | none => .ok (6, f, w)
    | some (g, zero) => do
      let args ← callArgs ex zero line
      callRun run f g args w

/-- The local variables of `pBat_CmdCall`: `iNbParam`, `bIsExtended`, `lpEsLabel` and `lpEsFile` (empty when not given). -/
structure CallOpts where
  nb : Nat := 0
  ext : Bool := false
  label : List Char := []
  file : List Char := []
  deriving DecidableEq, Repr

/-- The end of the loop of `pBat_CmdCall`. -/
inductive CallScan where
  | disabled
  | help
  | done (o : CallOpts) (rest : List Char)
  deriving DecidableEq, Repr

/-- A parameter that is no switch, pbat/command/pBat_Call.c:113-150. -/
def callTake (o : CallOpts) (t : List Char) : CallOpts :=
  if t.head? = some ':' then { o with nb := o.nb + 1, label := if o.label = [] then t else o.label }
  else { o with nb := o.nb + 1, file := if o.file = [] then t else o.file }

/-- The loop of `pBat_CmdCall`, pbat/command/pBat_Call.c:66-156. -/
def callScan (ex : List Char → Res (List Char)) (cmdly : Bool) (o : CallOpts) (line : List Char) : Res CallScan :=
  match nextParam stdDelims ex line with
  | .ok none => .ok (.done o line)
  | .ok (some (t, rest)) =>
    if stricmp t "/E".toList = 0 ∧ o.nb = 0 then
      if cmdly then .ok .disabled
      else if rest.length < line.length then callScan ex cmdly { o with ext := true } rest else .hang
    else if stricmp t "/?".toList = 0 then .ok .help
    else if (o.nb ≠ 0 ∧ o.ext = false) ∨ o.nb = 2 then .ok (.done o line)
    else if rest.length < line.length then callScan ex cmdly (callTake o t) rest else .hang
  | .ub => .ub
  | .hang => .hang
termination_by line.length

/-- The test of the extension, pbat/command/pBat_Call.c:204-208. -/
def isScript (path : List Char) : Res Bool := do
  let p ← splitPath 4096 path
  .ok (stricmp p.ext ".bat".toList = 0 || stricmp p.ext ".cmd".toList = 0)

/-- `pBat_CmdCallExternal`, pbat/command/pBat_Call.c:405-434: `rv` is `pBat_ReplaceVars`, `runLine` is `pBat_RunBlock`. -/
def callProgram {W : Type} (rv : List Char → Res (List Char)) (runLine : List Char → CallState → W → Res (CallState × W))
    (path text : List Char) (f : CallState) (w : W) : Res (Int × CallState × W) := do
  let t ← rv (path ++ ' ' :: text)
  let r ← runLine t f w
  .ok (r.1.level, r)

/-- Script or program, pbat/command/pBat_Call.c:204-222. -/
def callFound {W : Type} (d : CallDisk) (ex rv : List Char → Res (List Char)) (run : CallState → W → Res (CallState × W))
    (runLine : List Char → CallState → W → Res (CallState × W)) (path rest : List Char) (f : CallState) (w : W) : Res (Int × CallState × W) := do
  let s ← isScript path
  if s then callFile d ex run (some path) none rest f w
  else do
    let t ← ex rest
    callProgram rv runLine path t f w

/-- `pBat_CmdCall`, pbat/command/pBat_Call.c:47-229; `line` is the text after `CALL`.  The help leaves the error level. -/
def cmdCall {W : Type} (d : CallDisk) (ex rv : List Char → Res (List Char)) (cmdly : Bool) (run : CallState → W → Res (CallState × W))
    (runLine : List Char → CallState → W → Res (CallState × W)) (line : List Char) (f : CallState) (w : W) : Res (Int × CallState × W) := do
  let s ← callScan ex cmdly {} (skipBlanks line)
  match s with
  | .disabled => .ok (7, f, w)
  | .help => .ok (f.level, f, w)
  | .done o rest =>
    if o.file = [] ∧ o.label = [] then .ok (8, f, w)
    else if o.label ≠ [] then callFile d ex run (if o.file = [] then none else some o.file) (some o.label) rest f w
    else
      match d.find o.file with
      | none => .ok (3, f, w)
      | some p => callFound d ex rv run runLine p rest f w

end PBat
