import Verif.Model.CmdList
import Verif.Model.ExpandDef
/-
Model of DEF, `pbat/command/pBat_Def.c`, over the table of commands (Model/CmdList) and the expansion of macros (Model/ExpandDef).

Simplifications: allocation does not fail; messages of error are not part of the output.
-/
namespace PBat

/-- `lpCommandProc` with `PBAT_DEF_FLAG`, libpbat/libpBat.h:221-235: a procedure of the interpreter or the text of a macro. -/
inductive CmdBody where
  | proc (p : String)
  | text (s : List Char)
  deriving DecidableEq, Repr

/-- How the loop over the options ends, pbat/command/pBat_Def.c:59-85. -/
inductive DefScan where
  | help
  | rest (replace list : Bool) (line : List Char)
  deriving DecidableEq, Repr

/-- The loop over the options, pbat/command/pBat_Def.c:59-85. -/
def defScan (ex : List Char → Res (List Char)) (replace list : Bool) (line : List Char) : Res DefScan :=
  match nextParam stdDelims ex line with
  | .ok none => .ok (.rest replace list line)
  | .ok (some (t, r)) =>
    if t = "/?".toList then .ok .help
    else if stricmp "/f".toList t = 0 then if r.length < line.length then defScan ex true list r else .hang
    else if stricmp "/l".toList t = 0 then if r.length < line.length then defScan ex replace true r else .hang
    else .ok (.rest replace list (skipAllBlanks line))
  | .ub => .ub
  | .hang => .hang
termination_by line.length

/-- One line of the list, pbat/command/pBat_Def.c:176-181. -/
def defItem (p : List Char) (e : CmdEntry CmdBody) : List Char :=
  match e.info with
  | .proc _ => []
  | .text s => if p = [] ∨ prefixI p e.name = true then e.name ++ '=' :: s ++ ['\n'] else []

/-- `pBat_ListDefs`, pbat/command/pBat_Def.c:174-192; the table has commands. -/
def listDefs (p : List Char) : CmdTree CmdBody → List Char
  | .leaf => []
  | .node e l r => defItem p e ++ listDefs p l ++ listDefs p r

/-- What DEF leaves: the table, what is written and the status. -/
structure DefOut where
  table : CmdTree CmdBody
  out : List Char
  status : Nat

/-- The definition itself, pbat/command/pBat_Def.c:93-168: `line` begins with the name. -/
def defSet (lc : LibC) (force : Bool) (line : List Char) (t : CmdTree CmdBody) : Res DefOut :=
  match searchTok (· == '=') line with
  | none => .ok ⟨t, [], 4⟩
  | some i => do
    let r ← defCmd lc force (line.take i) (.text (line.drop (i + 1))) t
    .ok ⟨r.1, [], if r.2 then 0 else if force then 38 else 37⟩

/-- `pBat_CmdDef`, pbat/command/pBat_Def.c:34-172; `line` is the text after `DEF`. -/
def cmdDef (lc : LibC) (ex : List Char → Res (List Char)) (help : List Char) (line : List Char) (t : CmdTree CmdBody) : Res DefOut := do
  let s ← defScan ex false false line
  match s with
  | .help => .ok ⟨t, help, 0⟩
  | .rest force list l => if list then .ok ⟨t, listDefs l t, 0⟩ else defSet lc force l t

/-- What is run. -/
inductive Target where
  | program
  | proc (p : String)
  | again (line : List Char)
  deriving DecidableEq, Repr

/-- The decision of `pBat_RunCommand`, pbat/core/pBat_Run.c:403-474: a program, a procedure, or `pBat_RunCommand` on the text of a
macro. -/
def runTarget (ex : List Char → Res (List Char)) (line : List Char) (t : CmdTree CmdBody) : Res Target := do
  let l := skipAllBlanks line
  let f ← t.lookup l
  match f with
  | none => .ok .program
  | some e =>
    match e.info with
    | .proc p => .ok (.proc p)
    | .text s => do
      let m ← expandDef ex (l.drop e.limit) s
      .ok (.again m)

/-- `lpclCommands` when the interpreter starts, pbat/command/pBat_CommandInfo.c:32-82. -/
def startTable : List (CmdEntry CmdBody) := defaultCmds.map fun e => ⟨e.name, e.limit, .proc e.info⟩

end PBat
