import Verif.Model.Args
import Verif.Model.Attr
import Verif.Model.OsStream
import Verif.Model.Search
/-
Model of the command DIR, `pbat/command/pBat_Dir.c`, and of `pBat_FormatFileSize`, `libpbat/dir/pBat_Dir.c` (not Windows).
Simplifications: allocation does not fail; the buffer lent to the output when it is a terminal is left out; messages written on the error output
are left out; the names found are shorter than `FILENAME_MAX`.
-/
namespace PBat

/-- What `stat` gives of a file: the fields of `FileStat`, and the text `strftime` makes of the time of its last change, which is taken to fit in
the 30 bytes of `lpTime` (pbat/command/pBat_Dir.c:198-199). -/
structure DirInfo where
  st : FileStat
  time : List Char

/-- What DIR asks its environment: the current directory, the files, `stat` (`none`: it fails; the field `stFileStats` then is what `malloc` gave,
libpbat/dir/pBat_Dir.c:135-150), the texts of the language (pbat/lang/pBat_Lang.c:101-104), the help, and `bCmdlyCorrect`.  `n` bounds the depth
of the search (`searchIn`). -/
structure DirSys where
  cur : List Char
  fs : FileSys
  utf8 : Bool
  n : Nat
  stat : List Char → Option DirInfo
  title : List Char
  noFile : List Char
  files : List Char
  dirs : List Char
  help : List Char
  correct : Bool

/-- The loop of `pBat_FormatFileSize`, libpbat/dir/pBat_Dir.c:833-837: `iFileSize`, `iLastPart` and `i`. -/
def formatLoop (size last i : Nat) : Nat × Nat × Nat :=
  if 1000 ≤ size then formatLoop (size / 1000) (size % 1000) (i + 1) else (size, last, i)
termination_by size

/-- The units, libpbat/dir/pBat_Dir.c:832. -/
def sizeUnit (i : Nat) : List Char := if i % 4 = 0 then ['o'] else if i % 4 = 1 then ['k', 'o'] else if i % 4 = 2 then ['m', 'o'] else ['g', 'o']

/-- `pBat_FormatFileSize`, libpbat/dir/pBat_Dir.c:828-844, with a buffer of `len` bytes. -/
def formatFileSize (len size : Nat) : List Char :=
  let r := formatLoop size 0 0
  let t :=
    if 100 ≤ r.1 then ' ' :: natText r.1 ++ ' ' :: sizeUnit r.2.2
    else if 10 ≤ r.1 then ' ' :: ' ' :: natText r.1 ++ ' ' :: sizeUnit r.2.2
    else natText r.1 ++ ',' :: (if r.2.1 / 10 < 10 then '0' :: natText (r.2.1 / 10) else natText (r.2.1 / 10)) ++ ' ' :: sizeUnit r.2.2
  t.take (len - 1)

/-- The variables set by the parameters: `bSimple`, the flags `PBAT_SEARCH_RECURSIVE`, `PBAT_SEARCH_NO_PSEUDO_DIR` and `PBAT_SEARCH_NO_STAT` of
`iFlag`, `wAttr`, `lpFileName` and `nSize`; pbat/command/pBat_Dir.c:46-73. -/
structure DirVars where
  simple : Bool := false
  recursive : Bool := false
  noPseudo : Bool := false
  noStat : Bool := false
  attr : BitVec 16 := 0#16
  name : List Char := []
  size : Nat := 0

/-- What is done with a parameter: go on, show the help, or refuse it with a status. -/
inductive DirStep where
  | go (v : DirVars)
  | help
  | refused (status : Int)

/-- One turn of the loop on the parameters, pbat/command/pBat_Dir.c:91-133; 4 is PBAT_UNEXPECTED_ELEMENT, 4096 FILENAME_MAX. -/
def dirParam (cur : List Char) (v : DirVars) (t : List Char) : Res DirStep :=
  if t = ['/', '?'] then .ok .help
  else if stricmp ['/', 'b'] t = 0 then
    .ok (.go { v with simple := true, noStat := v.noStat || v.attr == 0#16, noPseudo := true })
  else if stricmp ['/', 's'] t = 0 then .ok (.go { v with recursive := true })
  else if prefixI ['/', 'a'] t then
    .ok (.go { v with attr := makeFileAttributes (if (t.drop 2).head? = some ':' then t.drop 3 else t.drop 2), noStat := false })
  else if v.name ≠ [] then .ok (.refused 4)
  else do
    let p ← fullPathBuf 4096 cur t
    .ok (.go { v with name := p, size := if absolute t then 0 else cur.length + 1 })

/-- The loop on the parameters, pbat/command/pBat_Dir.c:89-135; `hang` if the reading of parameters does not go on. -/
def dirRead (ex : List Char → Res (List Char)) (cur : List Char) (v : DirVars) (line : List Char) : Res DirStep :=
  match nextParam stdDelims ex line with
  | .ub => .ub
  | .hang => .hang
  | .ok none => .ok (.go v)
  | .ok (some (t, rest)) =>
    if rest.length < line.length then
      match dirParam cur v t with
      | .ub => .ub
      | .hang => .hang
      | .ok (.go v') => dirRead ex cur v' rest
      | .ok s => .ok s
    else .hang
termination_by line.length

/-- The name used if there is none, pbat/command/pBat_Dir.c:137-145. -/
def dirDefault (cur : List Char) (v : DirVars) : DirVars :=
  if v.name = [] then { v with name := (cur ++ ['/', '*']).take 4095, size := cur.length + 1 } else v

/-- `item->lpFileName + nSize` read as a string, pbat/command/pBat_Dir.c:204 and 213; bytes after the end of the name are not written. -/
def dirShown (size : Nat) (name : List Char) : Res (List Char) := if size ≤ name.length then .ok (name.drop size) else .ub

/-- `pBat_CheckFileAttributes` in `pBat_AttributesSplitFileList`, pbat/command/pBat_Dir.c:170 and libpbat/dir/pBat_Attr.c:64-125: if there are
attributes, `stFileStats` is read. -/
def dirKeep (attr : BitVec 16) (info : Option DirInfo) : Res Bool :=
  if attr = 0#16 then .ok true
  else match info with
    | none => .ub
    | some i => .ok (checkFileAttributes attr i.st)

/-- The files `pBat_AttributesSplitFileList` selects, in order (`C34_split`), pbat/command/pBat_Dir.c:170-173. -/
def dirSelect (info : List Char → Option DirInfo) (attr : BitVec 16) : List (List Char) → Res (List (List Char))
  | [] => .ok []
  | f :: fs => do
    let b ← dirKeep attr (info f)
    let r ← dirSelect info attr fs
    .ok (if b then f :: r else r)

/-- The columns of the sizes and of the attributes, pbat/command/pBat_Dir.c:181-202; PBAT_FILE_READONLY, PBAT_FILE_HIDDEN, PBAT_FILE_SYSTEM and
PBAT_FILE_ARCHIVE are 0 (libpbat/libpBat.h:100-105). The size is passed as an `unsigned int`. -/
def dirColumns (i : DirInfo) : List Char :=
  if i.st.dir then "<REP>\t".toList ++ '\t' :: "D      ".toList
  else "       ".toList ++ formatFileSize 8 (i.st.size % 2 ^ 32) ++ '\t' :: "       ".toList

/-- One turn of the loop on the files, pbat/command/pBat_Dir.c:177-216: the line written. -/
def dirLine (w : DirSys) (v : DirVars) (info : Option DirInfo) (f : List Char) : Res (List Char) :=
  if v.simple then
    if w.correct && v.recursive then .ok (f ++ ['\n'])
    else do
      let s ← dirShown v.size f
      .ok (s ++ ['\n'])
  else
    match info with
    | none => .ub
    | some i => do
      let s ← dirShown v.size f
      .ok (i.time ++ ' ' :: dirColumns i ++ '\t' :: s ++ ['\n'])

/-- The loop on the files, pbat/command/pBat_Dir.c:175-220: what is written, `iFileNb` and `iDirNb`. -/
def dirLines (w : DirSys) (v : DirVars) (info : List Char → Option DirInfo) : List (List Char) → Res (List Char × Nat × Nat)
  | [] => .ok ([], 0, 0)
  | f :: fs => do
    let l ← dirLine w v (info f) f
    let r ← dirLines w v info fs
    let d := ((info f).map (·.st.dir)).getD false
    .ok (l ++ r.1, if d then r.2.1 else r.2.1 + 1, if d then r.2.2 + 1 else r.2.2)

/-- The listing, pbat/command/pBat_Dir.c:147-229. -/
def dirListing (w : DirSys) (v : DirVars) : Res (List Char) := do
  let found ← searchTop w.fs { recursive := v.recursive, noPseudo := v.noPseudo, dirMode := true, utf8 := w.utf8 } w.n v.name
  let head := if v.simple then [] else '\n' :: w.title ++ ['\n']
  if found = [] ∧ v.simple = false then .ok (head ++ w.noFile ++ ['\n'])
  else do
    let info := fun f => if v.noStat then none else w.stat f
    let sel ← dirSelect info v.attr found
    let r ← dirLines w v info sel
    let tail := if v.simple then []
      else "\t\t\t\t".toList ++ natText r.2.1 ++ ' ' :: w.files ++ '\n' :: "\t\t\t\t".toList ++ natText r.2.2 ++ ' ' :: w.dirs ++ ['\n']
    .ok (head ++ r.1 ++ tail)

/-- `pBat_CmdDir`, pbat/command/pBat_Dir.c:44-248, on the line after the name of the command: what is written and the status. -/
def cmdDir (w : DirSys) (ex : List Char → Res (List Char)) (line : List Char) : Res (List Char × Int) := do
  let s ← dirRead ex w.cur {} line
  match s with
  | .help => .ok (w.help, 0)
  | .refused st => .ok ([], st)
  | .go v => do
    let out ← dirListing w (dirDefault w.cur v)
    .ok (out, 0)

end PBat
