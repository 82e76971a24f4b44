import Verif.Model.Mem
/-
Model of `pbat/command/pBat_Ren.c` (REN).
-/
namespace PBat

/-- `FILENAME_MAX` of the GNU C library. -/
def filenameMax : Nat := 4096

/-- Lines 90-103 of pbat/command/pBat_Ren.c: the text of `lpFileDest` once cut after the last separator. -/
def renDir (s : List Char) : List Char :=
  (s.reverse.dropWhile fun c => !(c = '/' || c = '\\')).reverse

/-- What `lpFileDest` holds if it has no separator: all of it (lines 99-103). -/
def renCut (s : List Char) : List Char :=
  if s.any (fun c => c = '/' || c = '\\') then renDir s else s

/-- `pBat_CmdRen`, pbat/command/pBat_Ren.c:46-127, on the parameters read from the line (`C14_roundtrip`); `full` is `pBat_EsToFullPath`
(`esFullPath`), `rename` the system call (true: it succeeded).  `strncat` at line 106 writes its terminator after the buffer if the new name
does not fit.  8 is `PBAT_EXPECTED_MORE`, 52 `PBAT_MOVE_NOT_RENAME`, 10 `PBAT_UNABLE_RENAME`. -/
def cmdRen {W : Type} (rename : W → List Char → List Char → W × Bool) (full : List Char → List Char) (params : List (List Char)) (w : W) : Res (W × Nat) :=
  match params with
  | a :: b :: _ =>
    if b.any (fun c => c = '/' || c = '\\') then .ok (w, 52)
    else
      let src := (full a).take (filenameMax - 1)
      let dir := renCut src
      if dir.length + b.length ≥ filenameMax then .ub
      else
        let r := rename w src (dir ++ b)
        .ok (r.1, if r.2 then 0 else 10)
  | _ => .ok (w, 8)

end PBat
