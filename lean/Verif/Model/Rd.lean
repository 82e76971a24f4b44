import Verif.Model.Del
/-
Model of `pbat/command/pBat_Rmdir.c` (RD).
-/
namespace PBat

/-- A system on which files and directories are removed: `remove`, `rmdir` (true: it succeeded). -/
structure RdSys (W : Type) where
  remove : W → List Char → W × Bool
  rmdir : W → List Char → W × Bool

/-- The variables `mode`, `param` (with `choice`) and `name`. -/
structure RdParams where
  recursive : Bool
  quiet : Bool
  names : List (List Char)

/-- The loop on the parameters, pbat/command/pBat_Rmdir.c:93-150, on the list of parameters (`C14_roundtrip`); `full` is
`pBat_FullPathDup`.  `none`: the help is asked for. -/
def rdParams (full : List Char → List Char) : List (List Char) → RdParams → Option RdParams
  | [], d => some d
  | t :: ts, d =>
    if t = "/?".toList then none
    else if stricmp t "/S".toList = 0 then rdParams full ts { d with recursive := true }
    else if stricmp t "/Q".toList = 0 then rdParams full ts { d with quiet := true }
    else rdParams full ts { d with names := d.names ++ [full t] }

/-- The loops of pbat/command/pBat_Rmdir.c:206-225 with `pBat_CmdDelFile` (pbat/command/pBat_Del.c:272-307) or `pBat_CmdRmdirFile`
(pbat/command/pBat_Rmdir.c:247-270): `op` is `remove` or `rmdir`, `code` the value returned when it fails.  The two loops share `choice` and
`status`. -/
def rdEach {W : Type} (op : W → List Char → W × Bool) (code : BitVec 32) (words : AskWords) (ask : Bool) :
    List (List Char) → W → List Char → Int → BitVec 32 → Res (W × List Char × Int × BitVec 32)
  | [], w, input, choice, status => .ok (w, input, choice, status)
  | f :: fs, w, input, choice, status => do
    let r ← if choice = 0 ∧ ask = true then askConfirmation words true 2 true input else Res.ok (choice, input)
    let choice := if choice = 0 ∧ ask = true ∧ r.1 = 4 then 4 else choice
    if r.1 = 4 ∨ r.1 = 1 then
      rdEach op code words ask fs (op w f).1 r.2 choice (status ||| if (op w f).2 then 0#32 else code)
    else rdEach op code words ask fs w r.2 choice status

/-- `pBat_CmdRmdir` after the reading of its parameters, pbat/command/pBat_Rmdir.c:152-231.  `search`: the names found by
`pBat_GetMatchFileList`; `stat`: their attributes.  The splitting of the list is that of `C34_split`.  The result of the only directory is not
used (line 156). -/
def rdRun {W : Type} (sys : RdSys W) (words : AskWords) (search : Bool → List Char → List (List Char)) (stat : List Char → FileStat)
    (d : RdParams) (w : W) (input : List Char) : Res (W × List Char × BitVec 32) :=
  match d.recursive, d.names with
  | false, [n] => .ok ((sys.rmdir w n).1, input, 0#32)
  | _, [] => .ok (w, input, 8#32)
  | _, names =>
    match delSearch search d.recursive names with
    | none => .ok (w, input, 42#32)
    | some l => do
      let files := l.filter fun f => !checkFileAttributes 0x400#16 (stat f)
      let dirs := l.filter fun f => checkFileAttributes 0x400#16 (stat f)
      let x ← rdEach sys.remove (-1#32) words (!d.quiet) files w input (if d.quiet then 4 else 0) 0#32
      let y ← rdEach sys.rmdir 51#32 words (!d.quiet) dirs x.1 x.2.1 x.2.2.1 x.2.2.2
      .ok (y.1, y.2.1, y.2.2.2)

/-- `pBat_CmdRmdir`, pbat/command/pBat_Rmdir.c:58-245; the result is the error level. -/
def cmdRd {W : Type} (sys : RdSys W) (words : AskWords) (full : List Char → List Char) (search : Bool → List Char → List (List Char))
    (stat : List Char → FileStat) (params : List (List Char)) (w : W) (input : List Char) : Res (W × List Char × Int) :=
  match rdParams full params ⟨false, false, []⟩ with
  | none => .ok (w, input, 0)
  | some d => do
    let r ← rdRun sys words search stat d w input
    .ok (r.1, r.2.1, r.2.2.toInt)

end PBat
