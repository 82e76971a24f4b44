import Verif.Model.Block
/-
Model of scripts: `pbat/core/pBat_ReadScript.c`, `pbat/core/pBat_Read.c` and `pbat/core/pBat_Jump.c`.

The linked lists of commands and labels are lists; a pointer into the list of commands is an index (`NULL` is an index past
the end); `following` of a label is the number of commands before it.  Simplifications: allocation does not fail; names
of files fit their buffers; `bCmdlyCorrect` is not set and input is not interactive.
-/
namespace PBat

/-- `struct batch_script_t`, pbat/core/pBat_ReadScript.h:48-58, without the name and the ownership flag. -/
structure Script where
  cmds : List (List Char)
  labels : List (List Char × Nat)
  curr : Nat
  size : Nat
  deriving DecidableEq, Repr

/-- `pBat_RmTrailingNl`, pbat/core/pBat_Read.c:296-311 (not on Windows). -/
def rmTrailingNl (s : List Char) : List Char := if s.getLast? = some '\n' then s.dropLast else s

/-- The loop of `pBat_LoadBatchScript`, pbat/core/pBat_ReadScript.c:179-263, over the texts returned by the successive calls
of `pBat_EsGet` (C04).  `first` is `nb == 1` for the next line.  After reading an unterminated line the buffer has room for
the line feed, so `pch` stays valid at line 236. -/
def loadLoop (first : Bool) (cmds : List (List Char)) (labels : List (List Char × Nat)) :
    List (List Char) → List (List Char) × List (List Char × Nat)
  | [] => (cmds, labels)
  | line :: rest =>
    let pch := skipBlanks line
    if first && pch.head? == some '#' && pch[1]? == some '!' then loadLoop false cmds labels rest
    else if pch.head? = some ':' then
      if pch[1]? = some ':' then loadLoop false cmds labels rest
      else loadLoop false cmds (labels ++ [(stripEndDelims (rmTrailingNl pch), cmds.length)]) rest
    else if pch = [] then loadLoop false cmds labels rest
    else loadLoop false (cmds ++ [if '\n' ∈ pch then pch else pch ++ ['\n']]) labels rest

/-- `pBat_LoadBatchScript`, pbat/core/pBat_ReadScript.c:150-284: `texts` are the lines read, `size` the size of the file. -/
def loadScript (texts : List (List Char)) (size : Nat) : Script :=
  let r := loadLoop true [] [] texts
  { cmds := r.1, labels := r.2, curr := 0, size := size }

/-- A file: its lines as `pBat_EsGet` returns them, and its size. -/
structure FileText where
  texts : List (List Char)
  size : Nat
  deriving DecidableEq, Repr

/-- `pBat_ReloadBatchScript`, pbat/core/pBat_ReadScript.c:286-323: the index of the current line is found again in the new
text, or the script starts again. -/
def reloadScript (sc : Script) (f : FileText) : Script :=
  let i := min sc.curr sc.cmds.length
  let sc' := loadScript f.texts f.size
  { sc' with curr := if i < sc'.cmds.length then i else 0 }

/-- `pBat_UpdateScript` for a loaded script, pbat/core/pBat_Read.c:65-80, with `pBat_CheckBatchScriptChanges`,
pbat/core/pBat_ReadScript.c:326-338.  `junk` is whether the variable `err`, which `pBat_GetScriptSize` does not set when it
succeeds (pbat/core/pBat_ReadScript.c:125-134), happens to be nonzero. -/
def updateScript (junk : Bool) (sc : Script) (f : FileText) : Script :=
  if sc.size ≠ f.size ∧ junk = false then reloadScript sc f else sc

/-- The loop of `pBat_CheckBlocks`, pbat/core/pBat_Read.c:276-294: `some true` is TRUE, `some false` is -1, `none` is FALSE.
The guard stands for the progress of the loop, which is proved (`checkBlocks_total`). -/
def checkBlocks (s : List Char) : Res (Option Bool) :=
  let p := match s with
    | c :: r => if c = '|' ∨ c = '&' then r else s
    | [] => s
  match lineEnd false p with
  | .ok none => .ok none
  | .ok (some []) => .ok (some false)
  | .ok (some (c :: r)) =>
    if c = '\n' then .ok (some true)
    else if (c :: r).length < s.length then checkBlocks (c :: r) else .hang
  | .ub => .ub
  | .hang => .hang
termination_by s.length

/-- The result of `pBat_GetLine`. -/
inductive Got where
  | line (text : List Char)
  | eof
  | unclosed
  deriving DecidableEq, Repr

/-- The loop of `pBat_GetLine`, pbat/core/pBat_Read.c:116-127, from a non-empty list of command lines: the text, the number
of lines read and the last result of `pBat_CheckBlocks`.  `ex` is `pBat_ReplaceVars`. -/
def gather (ex : List Char → Res (List Char)) (acc : List Char) : List (List Char) → Res (List Char × Nat × Option Bool)
  | [] => .ub
  | c :: cs => do
    let t ← ex c
    let ok ← checkBlocks (acc ++ t)
    if ok ≠ some true ∧ cs ≠ [] then do
      let r ← gather ex (acc ++ t) cs
      pure (r.1, r.2.1 + 1, r.2.2)
    else pure (acc ++ t, 1, ok)

/-- `pBat_GetLine`, pbat/core/pBat_Read.c:89-146, once the script is up to date. -/
def getLine (ex : List Char → Res (List Char)) (sc : Script) : Res (Got × Script) :=
  match sc.cmds.drop sc.curr with
  | [] => .ok (.eof, sc)
  | c :: cs => do
    let r ← gather ex [] (c :: cs)
    let sc' := { sc with curr := sc.curr + r.2.1 }
    pure (if r.2.2 = some true then .line (rmTrailingNl r.1) else .unclosed, sc')

/-- The test of pbat/core/pBat_Jump.c:71-75: `strnicmp` on the length of the name, then the end or a delimiter. -/
def labelIs (label name : List Char) : Bool :=
  (label.take name.length).map Char.toLower == name.map Char.toLower &&
    match label[name.length]? with
    | none => true
    | some c => isDelim c

/-- `pBat_JumpToLabel` in the current script (already updated), pbat/core/pBat_Jump.c:62-98.  When no label is found the
local variable `script`, never initialised, is freed (line 80). -/
def jumpHere (sc : Script) (name : List Char) : Res Script :=
  match sc.labels.find? (fun l => labelIs l.1 name) with
  | none => .ub
  | some l => .ok { sc with curr := l.2 }

/-- `pBat_JumpToLabel` to another file that could be loaded as `other`, pbat/core/pBat_Jump.c:48-60, 70-98: `none` is -1. -/
def jumpOther (other : Script) (name : List Char) : Option Script :=
  (other.labels.find? (fun l => labelIs l.1 name)).map (fun l => { other with curr := l.2 })

/-- The name GOTO looks for, pbat/command/pBat_Goto.c:90-104: `rest` is the line after the options, `ex` is
`pBat_DelayedExpand` (`pBat_GetEndOfLine`).  Simplification: the name fits `FILENAME_MAX`. -/
def gotoName (ex : List Char → Res (List Char)) (rest : List Char) : Res (List Char) := do
  let t := stripEndDelims (skipBlanks rest)
  let arg ← ex t
  pure (if t.head? = some ':' then arg else ':' :: arg)

/-- What GOTO does: leave the level, leave the block and continue elsewhere, or fail with `PBAT_LABEL_ERROR`. -/
inductive GotoResult where
  | leave
  | moved (sc : Script)
  | failed
  deriving DecidableEq, Repr

/-- `pBat_CmdGoto` after its options, pbat/command/pBat_Goto.c:90-126.  `f` is the file of the running script and `other` the
script named by `/F`, which could be loaded. -/
def gotoCmd (junk : Bool) (ex : List Char → Res (List Char)) (sc : Script) (f : FileText) (other : Option Script)
    (rest : List Char) : Res GotoResult := do
  let name ← gotoName ex rest
  if name.map Char.toLower = ":eof".toList then pure .leave
  else match other with
    | none => do
      let sc' ← jumpHere (updateScript junk sc f) name
      pure (.moved sc')
    | some o => pure (match jumpOther o name with
      | some sc' => .moved sc'
      | none => .failed)

end PBat
