import Verif.Model.More
import Verif.Model.Num
import Verif.Model.If
/-
Model of the command line of MORE, `pBat_CmdMore` in `pbat/command/pBat_More.c`, the output being no terminal.

Simplifications: a parameter stands for the list of the names `pBat_GetMatchFileList` returns for its full path, in order (C55);
`pBat_AttributesSplitFileList` keeps the files that are not directories, in order (C34); opening a file gives its bytes or fails;
messages of error are their numbers.
-/
namespace PBat

/-- The variables set by the parameters. -/
structure MoreVars where
  opts : MoreOpts := {}
  begin : Int := 0
  files : List (List Char) := []
  deriving DecidableEq, Repr

/-- How the loop over the parameters ends. -/
inductive MoreAsked where
  | help
  | error (code : Nat)
  | run (w : MoreVars)
  deriving DecidableEq, Repr

/-- The loop over the parameters, pbat/command/pBat_More.c:67-154. `find` gives the files of a parameter. -/
def moreWords (find : List Char → List (List Char)) : List (List Char) → MoreVars → MoreAsked
  | [], w => .run w
  | p :: ps, w =>
    if p = "/?".toList then .help
    else if stricmp p "/E".toList = 0 then moreWords find ps w
    else if stricmp p "/C".toList = 0 then moreWords find ps { w with opts := { w.opts with clear := true } }
    else if stricmp p "/P".toList = 0 then moreWords find ps w
    else if stricmp p "/S".toList = 0 then moreWords find ps { w with opts := { w.opts with squeeze := true } }
    else if stricmp p "/U".toList = 0 then moreWords find ps { w with opts := { w.opts with u8 := false } }
    else if stricmp p "/A".toList = 0 then moreWords find ps { w with opts := { w.opts with ansi := false } }
    else if prefixI "/T".toList p then
      let n := if (p.drop 2).head? = some ':' then p.drop 3 else p.drop 2
      if (strtol0 n).2 ≠ [] then .error 44
      else moreWords find ps { w with opts := { w.opts with tab := longToInt (strtol0 n).1 } }
    else if p.head? = some '+' then
      if (strtol0 p).2 ≠ [] then .error 44
      else moreWords find ps { w with begin := longToInt (strtol0 p).1 }
    else if find p = [] then .error 42
    else moreWords find ps { w with files := w.files ++ find p }

/-- The disk as MORE sees it. -/
structure MoreDisk where
  find : List Char → List (List Char)
  isDir : List Char → Bool
  bytes : List Char → Option (List Nat)

/-- The loop over the files, pbat/command/pBat_More.c:216-221, with the opening of each, 240-251 and 309-315: the stream of a file that cannot
be opened is closed although it is null. -/
def moreOver (d : MoreDisk) (o : MoreOpts) (begin : Nat) (t : MoreState) : List (List Char) → Res (List Nat × MoreState)
  | [] => .ok ([], t)
  | f :: fs =>
    match d.bytes f with
    | none => .ub
    | some s =>
      match moreFile o begin t s with
      | .ub => .ub
      | .hang => .hang
      | .ok (a, t) =>
        match moreOver d o begin t fs with
        | .ub => .ub
        | .hang => .hang
        | .ok (b, t) => .ok (a ++ b, t)

/-- What MORE leaves: the help or the rows written, and the status. -/
inductive MoreOut where
  | help
  | text (rows : List Nat) (status : Nat)
  deriving DecidableEq, Repr

/-- `pBat_CmdMore`, pbat/command/pBat_More.c:48-231, on the list of its parameters (C14); `input` is the standard input. A negative number of
rows to skip is counted down past the smallest number, and is taken as it would wrap. -/
def cmdMore (d : MoreDisk) (params : List (List Char)) (t : MoreState) (input : List Nat) : Res (MoreOut × MoreState) :=
  match moreWords d.find params {} with
  | .help => .ok (.help, t)
  | .error c => .ok (.text [] c, t)
  | .run w =>
    let n := (w.begin % 2 ^ 32).toNat
    if w.files = [] then
      match moreFile w.opts n t input with
      | .ub => .ub
      | .hang => .hang
      | .ok (a, t) => .ok (.text a 0, t)
    else if w.files.filter (fun f => !d.isDir f) = [] then .ok (.text [] 42, t)
    else
      match moreOver d w.opts n t (w.files.filter fun f => !d.isDir f) with
      | .ub => .ub
      | .hang => .hang
      | .ok (a, t) => .ok (.text a 0, t)

end PBat
