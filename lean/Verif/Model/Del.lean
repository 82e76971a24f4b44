import Verif.Model.Mem
import Verif.Model.Attr
import Verif.Model.Expand
import Verif.Model.If
import Verif.Model.Wild
import Verif.Model.Find
/-
Model of `pbat/command/pBat_Ask.c` (questions) and `pbat/command/pBat_Del.c` (DEL).
The input is the list of the bytes still to be read, assumed without NUL; questions and messages written on the error output are not modelled.
-/
namespace PBat

/-- The answers of the language in use, pbat/lang/pBat_Lang.c:123-130. -/
structure AskWords where
  yes : List Char
  yesA : List Char
  no : List Char
  noA : List Char
  all : List Char
  allA : List Char

/-- The loop of `pBat_AskConfirmationRead`, pbat/command/pBat_Ask.c:64-78, without the limit on the length. `started`: a byte has been read by
this call; `read` leaves `c` as it was at the end of input, so that the loop goes on for ever, or reads `c` uninitialised at its first turn. -/
def askReadLoop : Bool → List Char → Res (List Char × List Char)
  | started, [] => if started then .hang else .ub
  | _, c :: s =>
    if c = '\n' then .ok ([], s)
    else do
      let r ← askReadLoop true s
      .ok (if c = '\r' then r.1 else c :: r.1, r.2)

/-- `pBat_AskConfirmationRead`, pbat/command/pBat_Ask.c:58-85, with a buffer of 30 bytes: the text kept and the input left. -/
def askRead (input : List Char) : Res (List Char × List Char) := do
  let r ← askReadLoop false input
  .ok (r.1.take 29, r.2)

/-- `pBat_AskConfirmation`, pbat/command/pBat_Ask.c:152-204, with the default reader: `yna` is PBAT_ASK_YNA, `dflt` the default flags (0 if
none), `reask` PBAT_ASK_INVALID_REASK. After an invalid answer to be asked again, `iRet` is read uninitialised (93 and 200). -/
def askConfirmation (w : AskWords) (yna : Bool) (dflt : Int) (reask : Bool) (input : List Char) : Res (Int × List Char) := do
  let r ← askRead input
  if stricmp r.1 w.yes = 0 ∨ stricmp r.1 w.yesA = 0 then .ok (1, r.2)
  else if stricmp r.1 w.no = 0 ∨ stricmp r.1 w.noA = 0 then .ok (2, r.2)
  else if yna = true ∧ (stricmp r.1 w.all = 0 ∨ stricmp r.1 w.allA = 0) then .ok (4, r.2)
  else if dflt ≠ 0 ∧ r.1 = [] then .ok (dflt, r.2)
  else if reask = false then .ok (-1, r.2)
  else .ub

/-- The variables set by the parameters of DEL: `param` (pbat/command/pBat_Del.h:26-29), `flag`, `attr` and `name`. -/
structure DelParams where
  ask : Bool
  force : Bool
  recursive : Bool
  quiet : Bool
  attr : BitVec 16
  names : List (List Char)
  deriving DecidableEq

/-- The initial values, pbat/command/pBat_Del.c:57-68. -/
def delInit : DelParams := ⟨false, false, false, false, 0#16, []⟩

/-- The options of `pBat_CmdDel`, pbat/command/pBat_Del.c:92-159, on a parameter whose blanks and quotes are removed; `full` is
`pBat_FullPathDup`. `none`: the help is asked for. -/
def delParam (full : List Char → List Char) (d : DelParams) (t : List Char) : Option DelParams :=
  if stricmp t "/P".toList = 0 then some { d with ask := true }
  else if stricmp t "/F".toList = 0 then some { d with force := true }
  else if stricmp t "/S".toList = 0 then some { d with recursive := true, ask := true }
  else if stricmp t "/Q".toList = 0 then some { d with quiet := true }
  else if prefixI "/A".toList t then
    some { d with attr := makeFileAttributes (if (t.drop 2).head? = some ':' then t.drop 3 else t.drop 2) }
  else if t = "/?".toList then none
  else some { d with names := d.names ++ [full t] }

/-- The loop on the parameters, pbat/command/pBat_Del.c:88-161. -/
def delParams (full : List Char → List Char) : List (List Char) → DelParams → Option DelParams
  | [], d => some d
  | t :: ts, d => (delParam full d t).bind (delParams full ts)

/-- The loop on the names, pbat/command/pBat_Del.c:171-201; `search` is `pBat_GetMatchFileList` with the recursive flag.
`none`: a name found nothing. -/
def delSearch {F : Type} (search : Bool → List Char → List F) (recursive : Bool) : List (List Char) → Option (List F)
  | [] => some []
  | n :: ns =>
    if search recursive n = [] then none
    else (delSearch search recursive ns).map (search recursive n ++ ·)

/-- `strpbrk(name, "*?") != NULL`, pbat/command/pBat_Del.c:183. -/
def hasJoker (n : List Char) : Bool := n.any fun c => c == '*' || c == '?'

/-- The default attributes, pbat/command/pBat_Del.c:204-212, values of libpbat/libpBat.h:437-448. -/
def delAttr (d : DelParams) : BitVec 16 :=
  if d.attr = 0#16 then (if d.force then 0#16 else 0x03#16) ||| (if d.recursive then 0#16 else 0xC00#16) else d.attr

/-- A system on which files are removed: `remove` (true: it succeeded). -/
structure DelSys (W : Type) where
  remove : W → List Char → W × Bool

/-- The loop of `pBat_CmdDel` with `pBat_CmdDelFile`, pbat/command/pBat_Del.c:237-253 and 272-307. `choice` is `*choice`, `ask` is
`param & PBAT_ASK_CONFIRMATION`. On Unix PBAT_FILE_READONLY is 0 (libpbat/libpBat.h:103), so that the two tests of read-only files never hold. -/
def delFiles {W : Type} (sys : DelSys W) (words : AskWords) (ask : Bool) : Int → List (List Char) → W → List Char → Res (W × List Char × Int)
  | _, [], w, input => .ok (w, input, 0)
  | choice, f :: fs, w, input => do
    let r ← if choice = 0 ∧ ask = true then askConfirmation words true 2 true input else Res.ok (choice, input)
    let choice := if choice = 0 ∧ ask = true ∧ r.1 = 4 then 4 else choice
    if r.1 = 4 ∨ r.1 = 1 then do
      let x := sys.remove w f
      let y ← delFiles sys words ask choice fs x.1 r.2
      .ok (y.1, y.2.1, if x.2 then y.2.2 else -1)
    else delFiles sys words ask choice fs w r.2

/-- `pBat_CmdDel` after the reading of its parameters, pbat/command/pBat_Del.c:163-253. A file is its name and its `stat`; the splitting of
the lists is that of `C34_split` (files kept in order). 42 is PBAT_NO_MATCH. -/
def delRun {W : Type} (sys : DelSys W) (words : AskWords) (search : Bool → List Char → List (List Char × FileStat)) (d : DelParams) (w : W)
    (input : List Char) : Res (W × List Char × Int) :=
  if d.names = [] then .ok (w, input, -1)
  else
    match delSearch search d.recursive d.names with
    | none => .ok (w, input, 42)
    | some l =>
      let ask := d.ask || (d.names.any hasJoker && !d.quiet)
      let choice : Int := if d.names.any hasJoker && !d.quiet then 0 else 4
      let l := (l.filter fun f => checkFileAttributes (delAttr d) f.2).filter fun f => checkFileAttributes 0xC00#16 f.2
      delFiles sys words ask choice (l.map (·.1)) w input

/-- `pBat_CmdDel`, pbat/command/pBat_Del.c:47-270, on the list of its parameters (`C14_roundtrip`). -/
def cmdDel {W : Type} (sys : DelSys W) (words : AskWords) (full : List Char → List Char)
    (search : Bool → List Char → List (List Char × FileStat)) (params : List (List Char)) (w : W) (input : List Char) :
    Res (W × List Char × Int) :=
  match delParams full params delInit with
  | none => .ok (w, input, 0)
  | some d => delRun sys words search d w input

end PBat
