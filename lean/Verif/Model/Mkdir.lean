import Verif.Model.Mem
/-
Model of `pbat/command/pBat_Mkdir.c` (MD), not Windows.
-/
namespace PBat

/-- A system on which directories are made: `pBat_DirExists` and `mkdir` (true: it succeeded). -/
structure MkSys (W : Type) where
  isDir : W → List Char → Bool
  mkdir : W → List Char → W × Bool

/-- The loop of `pBat_CmdMakeDirs`, pbat/command/pBat_Mkdir.c:91-121: `pre` is the text between `dir` and `str`.  The byte replaced by the
terminator is put back, so the name is not changed. -/
def makeDirsLoop {W : Type} (sys : MkSys W) : List Char → List Char → W → W
  | _, [], w => w
  | pre, c :: s, w =>
    if c = '/' ∧ pre ≠ [] then makeDirsLoop sys (pre ++ [c]) s (if sys.isDir w pre then w else (sys.mkdir w pre).1)
    else makeDirsLoop sys (pre ++ [c]) s w

/-- `pBat_CmdMakeDirs`, pbat/command/pBat_Mkdir.c:84-134; 13 is `PBAT_MKDIR_ERROR`. -/
def makeDirs {W : Type} (sys : MkSys W) (w : W) (p : List Char) : W × Nat :=
  let w := makeDirsLoop sys [] p w
  if sys.isDir w p then (w, 0)
  else
    let r := sys.mkdir w p
    (r.1, if r.2 then 0 else 13)

/-- The loop of `pBat_CmdMkdir`, pbat/command/pBat_Mkdir.c:65-78; `full` is `pBat_EsToFullPath` (`esFullPath`). -/
def mdLoop {W : Type} (sys : MkSys W) (full : List Char → List Char) : List (List Char) → W → W × Nat
  | [], w => (w, 0)
  | t :: ts, w =>
    if t = "/?".toList then (w, 0)
    else
      let r := makeDirs sys w (full t)
      if r.2 = 0 then mdLoop sys full ts r.1 else r

/-- `pBat_CmdMkdir`, pbat/command/pBat_Mkdir.c:52-82, on the parameters read from the line (`C14_roundtrip`), of which the first is the name of
the command itself; 8 is `PBAT_EXPECTED_MORE`. -/
def cmdMd {W : Type} (sys : MkSys W) (full : List Char → List Char) (params : List (List Char)) (w : W) : W × Nat :=
  match params with
  | [] => (w, 8)
  | _ :: ts => mdLoop sys full ts w

end PBat
