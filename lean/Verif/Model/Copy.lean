import Verif.Model.Del
import Verif.Model.Attr
import Verif.Model.SplitPath
import Verif.Model.FilePath
/-
Model of `pbat/command/pBat_Copy.c` (COPY and MOVE): options, choice of the destinations, questions.  The work on one file is abstract here
(`Model/CopyFile`).
-/
namespace PBat

/-- What COPY and MOVE do to the files: `pBat_FileExists`, `pBat_DirExists`, `pBat_MoveFile`, `pBat_CopyFile`, `pBat_CatFile` (with the flag
`PBAT_COPY_CAT_2ND` before and after), `pBat_CmdMakeDirs`, `pBat_Rmdir`. -/
structure CopyOps (W : Type) where
  isReg : W → List Char → Bool
  isDir : W → List Char → Bool
  move : W → List Char → List Char → W × BitVec 32
  copy : W → List Char → List Char → W × BitVec 32
  cat : W → List Char → List Char → Bool → W × BitVec 32 × Bool
  mkdirs : W → List Char → W × BitVec 32
  rmdir : W → List Char → W × BitVec 32

/-- The bits of `flags`, pbat/command/pBat_Copy.h. -/
structure CopyFlags where
  silence : Bool
  multiple : Bool
  move : Bool
  recursive : Bool
  cat : Bool
  second : Bool
  deriving DecidableEq

/-- The result of reading the parameters. -/
inductive CopyArgs where
  | help
  | unexpected
  | args (fl : CopyFlags) (attr : BitVec 16) (files : List (List Char))

/-- The loop on the parameters, pbat/command/pBat_Copy.c:132-208, on the list of parameters (`C14_roundtrip`); `full` is `pBat_FullPathDup`. -/
def copyParams (full : List Char → List Char) : List (List Char) → CopyFlags → BitVec 16 → List (List Char) → CopyArgs
  | [], fl, attr, files => .args fl attr files
  | t :: ts, fl, attr, files =>
    if stricmp "/Y".toList t = 0 ∨ stricmp "/-Y".toList t = 0 then
      copyParams full ts (if (t.drop 1).head? = some '-' then { fl with silence := true } else fl) attr files
    else if prefixI "/A".toList t then
      copyParams full ts fl (makeFileAttributes (if (t.drop 2).head? = some ':' then t.drop 3 else t.drop 2)) files
    else if stricmp "/R".toList t = 0 then copyParams full ts { fl with recursive := true } attr files
    else if t = "/?".toList then .help
    else if t = "+".toList then
      if fl.move then .unexpected else copyParams full ts { fl with cat := true } attr files
    else copyParams full ts fl attr (files ++ [full t])

/-- `while (end && (end = end->lpflNext) && (i++ < 2));`, pbat/command/pBat_Copy.c:286, with `n` cells after the first. -/
def copyCount : Nat → Nat → Nat
  | 0, i => i
  | n + 1, i => if i < 2 then copyCount n (i + 1) else i + 1

/-- Lines 341-344 of pbat/command/pBat_Copy.c: name and extension; `strncat` writes after the buffer if they do not fit. -/
def copyBase (file : List Char) : Res (List Char) := do
  let token := match driveOf file with | some _ => file.drop 3 | none => file
  let p ← splitName 4096 [] [] (token.drop (dirLen token))
  if p.name.length + p.ext.length ≥ 4096 then .ub else pure (p.name ++ p.ext)

/-- The destination of a file, pbat/command/pBat_Copy.c:338-351. -/
def copyReal (fl : CopyFlags) (dest file : List Char) : Res (List Char) :=
  if fl.multiple = true ∧ fl.cat = false then (do let b ← copyBase file; pure (makePath dest b)) else .ok dest

/-- The question, pbat/command/pBat_Copy.c:353-373: 1 without one. -/
def copyAsk {W : Type} (ops : CopyOps W) (words : AskWords) (real : List Char) (w : W) (input : List Char) (fl : CopyFlags) : Res (Int × List Char) :=
  if ops.isReg w real = true ∧ fl.silence = false then askConfirmation words true 2 true input else .ok (1, input)

/-- `pBat_CmdCopyFile`, pbat/command/pBat_Copy.c:328-399. -/
def copyOne {W : Type} (ops : CopyOps W) (words : AskWords) (dest : List Char) (file : List Char) (w : W) (input : List Char) (fl : CopyFlags) :
    Res (W × List Char × CopyFlags × BitVec 32) := do
  let real ← copyReal fl dest file
  let r ← copyAsk ops words real w input fl
  let fl := if r.1 = 4 then { fl with silence := true } else fl
  if r.1 = 4 ∨ r.1 = 1 then
    if fl.move then pure ((ops.move w file real).1, r.2, fl, (ops.move w file real).2)
    else if fl.cat then
      pure ((ops.cat w file real fl.second).1, r.2, { fl with second := (ops.cat w file real fl.second).2.2 }, (ops.cat w file real fl.second).2.1)
    else pure ((ops.copy w file real).1, r.2, fl, (ops.copy w file real).2)
  else pure (w, r.2, fl, 0#32)

/-- The loop of pbat/command/pBat_Copy.c:306-311; `status |= …`. -/
def copyEach {W : Type} (ops : CopyOps W) (words : AskWords) (dest : List Char) :
    List (List Char) → W → List Char → CopyFlags → BitVec 32 → Res (W × List Char × CopyFlags × BitVec 32)
  | [], w, input, fl, status => .ok (w, input, fl, status)
  | f :: fs, w, input, fl, status => do
    let r ← copyOne ops words dest f w input fl
    copyEach ops words dest fs r.1 r.2.1 r.2.2.1 (status ||| r.2.2.2)

/-- `pBat_GetStaticLength`, libpbat/dir/pBat_Dir.c:846-872: `pos` is the index of `str`, `ptr` that of `ptr`. -/
def staticLength : List Char → Nat → Nat → Nat
  | [], _, ptr => ptr
  | c :: s, pos, ptr => if c = '/' then staticLength s (pos + 1) pos else if c = '*' ∨ c = '?' then ptr else staticLength s (pos + 1) ptr

/-- The loop of pbat/command/pBat_Copy.c:456-463, each file to its own destination. -/
def copyTree {W : Type} (ops : CopyOps W) (words : AskWords) (dest : List Char) (size : Nat) :
    List (List Char) → W → List Char → CopyFlags → BitVec 32 → Res (W × List Char × CopyFlags × BitVec 32)
  | [], w, input, fl, status => .ok (w, input, fl, status)
  | f :: fs, w, input, fl, status => do
    let r ← copyOne ops words (makePath dest (f.drop size)) f w input fl
    copyTree ops words dest size fs r.1 r.2.1 r.2.2.1 (status ||| r.2.2.2)

/-- The loop of pbat/command/pBat_Copy.c:444-451. -/
def copyDirs {W : Type} (ops : CopyOps W) (dest : List Char) (size : Nat) : List (List Char) → W → BitVec 32 → W × BitVec 32
  | [], w, status => (w, status)
  | d :: ds, w, status => copyDirs ops dest size ds (ops.mkdirs w (makePath dest (d.drop size))).1 (status ||| (ops.mkdirs w (makePath dest (d.drop size))).2)

/-- The loop of pbat/command/pBat_Copy.c:469-477. -/
def copyRmdirs {W : Type} (ops : CopyOps W) (dest : List Char) (size : Nat) : List (List Char) → W → BitVec 32 → W × BitVec 32
  | [], w, status => (w, status)
  | d :: ds, w, _ => copyRmdirs ops dest size ds (ops.rmdir w (makePath dest (d.drop (size + 1)))).1 (ops.rmdir w (makePath dest (d.drop (size + 1)))).2

/-- `pBat_CmdCopyRecursive`, pbat/command/pBat_Copy.c:401-489; `search` is `pBat_GetMatchFileList` with its three flags.  A found name always
goes on after the static part of the pattern, so the pointers stay inside it. -/
def copyRecursive {W : Type} (ops : CopyOps W) (words : AskWords) (search : List Char → List (List Char)) (stat : List Char → FileStat)
    (attr : BitVec 16) (file dest : List Char) (w : W) (input : List Char) (fl : CopyFlags) : Res (W × List Char × CopyFlags × BitVec 32) := do
  let size := if staticLength file 0 0 = 0 then 0 else staticLength file 0 0 + 1
  if search file = [] then .ok (w, input, fl, -1#32)
  else
    let found := (search file).filter fun f => checkFileAttributes attr (stat f)
    let files := found.filter fun f => checkFileAttributes 0xC00#16 (stat f)
    let dirs := found.filter fun f => !checkFileAttributes 0xC00#16 (stat f)
    let m := copyDirs ops dest size dirs w 0#32
    let r ← copyTree ops words dest size files m.1 input fl m.2
    if r.2.2.1.move then
      let d := copyRmdirs ops dest size dirs r.1 r.2.2.2
      .ok (d.1, r.2.1, r.2.2.1, d.2)
    else .ok r

/-- The loop of pbat/command/pBat_Copy.c:230-232; `status = …`. -/
def copyRecEach {W : Type} (rec' : List Char → W → List Char → CopyFlags → Res (W × List Char × CopyFlags × BitVec 32)) :
    List (List Char) → W → List Char → CopyFlags → BitVec 32 → Res (W × List Char × BitVec 32)
  | [], w, input, _, status => .ok (w, input, status)
  | f :: fs, w, input, fl, _ => do
    let r ← rec' f w input fl
    copyRecEach rec' fs r.1 r.2.1 r.2.2.1 r.2.2.2

/-- `pBat_CmdCopy` after the reading of its parameters, pbat/command/pBat_Copy.c:210-326.  `search`: the names found by
`pBat_GetMatchFileList` (`deep`: with the flags of the recursive mode).  The splitting of the list is that of `C34_split`.  8 is
`PBAT_EXPECTED_MORE`, 9 `PBAT_INCOMPATIBLE_ARGS`, 42 `PBAT_NO_MATCH`. -/
def copyRun {W : Type} (ops : CopyOps W) (words : AskWords) (search deep : List Char → List (List Char)) (stat : List Char → FileStat)
    (fl : CopyFlags) (attr : BitVec 16) (files : List (List Char)) (w : W) (input : List Char) : Res (W × List Char × BitVec 32) :=
  match files.getLast?, files.dropLast with
  | some dest, src :: srcs =>
    if fl.recursive = true ∧ fl.cat = true then .ok (w, input, 9#32)
    else if fl.recursive then
      copyRecEach (fun f => copyRecursive ops words deep stat attr f dest) (src :: srcs) w input fl 0#32
    else
      match delSearch (fun _ => search) false (src :: srcs) with
      | none => .ok (w, input, 42#32)
      | some l => do
        let l := l.filter fun f => checkFileAttributes (attr ||| 0xC00#16) (stat f)
        let i := copyCount (l.length - 1) (srcs.length + 1)
        let fl := if ops.isDir w dest = true ∨ dest.getLast? = some '/' then { fl with multiple := true } else fl
        let fl := if i = 3 then (if fl.multiple = false ∧ fl.move = false then { fl with cat := true } else { fl with multiple := true }) else fl
        let r ← copyEach ops words dest l w input fl 0#32
        .ok (r.1, r.2.1, r.2.2.2)
  | _, _ => .ok (w, input, 8#32)

/-- `pBat_CmdCopy`, pbat/command/pBat_Copy.c:100-326; `move`: the line begins with the name MOVE.  The result is the error level.  4 is
`PBAT_UNEXPECTED_ELEMENT`. -/
def cmdCopy {W : Type} (ops : CopyOps W) (words : AskWords) (full : List Char → List Char) (search deep : List Char → List (List Char))
    (stat : List Char → FileStat) (move : Bool) (params : List (List Char)) (w : W) (input : List Char) : Res (W × List Char × BitVec 32) :=
  match copyParams full params ⟨false, false, move, false, false, false⟩ 0#16 [] with
  | .help => .ok (w, input, 0#32)
  | .unexpected => .ok (w, input, 4#32)
  | .args fl attr files => copyRun ops words search deep stat fl attr files w input

end PBat
