import Verif.Model.Mem
import Verif.Model.Wild
/-
Model of the search of files, `libpbat/dir/pBat_Dir.c` (not Windows).  Simplifications: allocation does not fail; names are shorter than
`FILENAME_MAX`; the file system does not change during a search; the pattern, which is cut in place with NUL and mended afterwards
(lines 302-305, 533-534), is passed as separate texts; the information `stat` fills in is left out.
-/
namespace PBat

/-- What the search asks the file system: `pBat_FileExists`, `pBat_DirExists` (libpbat/file/pBat_StdFile.c:83-103), and
`opendir`/`readdir` with the names in the order they are read. -/
structure FileSys where
  isReg : List Char → Bool
  isDir : List Char → Bool
  list : List Char → Option (List (List Char))

/-- The flags of `struct match_args_t`, libpbat/dir/pBat_Dir.c:36-40 and libpbat/libpBat.h:376-386.  `callback`: a function is called for
each file, instead of making a list.  `utf8`: see `wildMatch`. -/
structure SearchFlags where
  recursive : Bool := false
  first : Bool := false
  noPseudo : Bool := false
  dirMode : Bool := false
  callback : Bool := false
  utf8 : Bool := true

/-- The loop of `pBat_GetNextLevel`, libpbat/dir/pBat_Dir.c:74-104: `seen` is the text before `up`, `prev` the texts before and after the
separator at `prev`.  Result: the texts before and after the separator returned (`none` for NULL), and `*jok`. -/
def nextLevelGo (seen : List Char) (joker : Bool) (prev : Option (List Char × List Char)) :
    List Char → Option (List Char × List Char) × Bool
  | [] => (none, joker)
  | c :: r =>
    if isWild c then
      match prev with
      | some q => (some q, false)
      | none => nextLevelGo (seen ++ [c]) true none r
    else if c = '/' then
      if joker then (some (seen, r), true) else nextLevelGo (seen ++ [c]) joker (some (seen, r)) r
    else nextLevelGo (seen ++ [c]) joker prev r

/-- `pBat_GetNextLevel`, libpbat/dir/pBat_Dir.c:60-105. -/
def nextLevel (up : List Char) : Option (List Char × List Char) × Bool := nextLevelGo [] false none up

/-- The path of `item` in `base`, libpbat/dir/pBat_Dir.c:311-322 (also 387-394, 495-502); `pBat_EndWithDirectoryMark` 153-161. -/
def joinPath (base : Option (List Char)) (item : List Char) : List Char :=
  match base with
  | some b => if b.getLast? = some '/' then b ++ item else b ++ '/' :: item
  | none => item

/-- `.` or `..`. -/
def isPseudo (e : List Char) : Bool := e == ['.'] || e == ['.', '.']

/-- The loop on the entries of a directory, libpbat/dir/pBat_Dir.c:373-524; `sub` is the call of `pBat_GetMatch` on a directory. -/
def scanDir (fs : FileSys) (fl : SearchFlags) (sub : List Char → List Char → List (List Char) → Res (List (List Char)))
    (base : Option (List Char)) (item : List Char) (up : Option (List Char)) :
    List (List Char) → List (List Char) → Res (List (List Char))
  | [], ret => .ok ret
  | e :: es, ret =>
    if fl.noPseudo && isPseudo e then scanDir fs fl sub base item up es ret
    else if wildMatch true fl.utf8 item e then
      if fs.isReg (joinPath base e) then
        match up with
        | none => if fl.first then .ok (ret ++ [joinPath base e]) else scanDir fs fl sub base item up es (ret ++ [joinPath base e])
        | some _ => scanDir fs fl sub base item up es ret
      else
        match up with
        | none =>
          if fl.callback && fl.first then .ok (ret ++ [joinPath base e])
          else do
            let ret1 := if fl.callback then ret ++ [joinPath base e] else ret
            let ret2 ← if fl.recursive && !isPseudo e then sub (joinPath base e) item ret1 else Res.ok ret1
            if fl.recursive && !isPseudo e && fl.first && !ret2.isEmpty then .ok ret2
            else if fl.callback then scanDir fs fl sub base item up es ret2
            else if fl.first then .ok (ret2 ++ [joinPath base e])
            else scanDir fs fl sub base item up es (ret2 ++ [joinPath base e])
        | some u => do
          let ret1 ← sub (joinPath base e) u ret
          if fl.first && !ret1.isEmpty then .ok ret1 else scanDir fs fl sub base item up es ret1
    else if fl.recursive && up.isNone && !isPseudo e && fs.isDir (joinPath base e) then do
      let ret1 ← sub (joinPath base e) item ret
      scanDir fs fl sub base item up es ret1
    else scanDir fs fl sub base item up es ret

/-- `pBat_GetMatch` from line 283 on, libpbat/dir/pBat_Dir.c:283-541, with at most `n` calls one within the other (`hang` if these are
not enough).  `ret`: the files found so far; `up = none`: NULL, which gives the item `*` with `joker` unset. -/
def searchIn (fs : FileSys) (fl : SearchFlags) : Nat → Option (List Char) → Option (List Char) → List (List Char) → Res (List (List Char))
  | 0, _, _, _ => .hang
  | n + 1, base, pat, ret =>
    let sub (b : List Char) (u : Option (List Char)) (ret : List (List Char)) : Res (List (List Char)) :=
      if fl.first && !ret.isEmpty then .ok ret else searchIn fs fl n (some b) u ret
    let cut : Option (List Char × List Char) × Bool := match pat with | none => (none, false) | some u => nextLevel u
    let item := match pat with | none => ['*'] | some u => match cut.1 with | none => u | some q => q.1
    let up := cut.1.map (·.2)
    if !cut.2 then do
      let path := joinPath base item
      let ret1 := if fs.isReg path && up.isNone then ret ++ [path] else ret
      if fs.isDir path then
        match up with
        | none => do
          let ret2 := if fl.callback then ret1 ++ [path] else ret1
          let ret3 ← if fl.recursive then sub path none ret2 else Res.ok ret2
          .ok (if fl.callback then ret3 else ret3 ++ [path])
        | some u => sub path (some u) ret1
      else .ok ret1
    else
      match fs.list (base.getD ['.']) with
      | none => .ok ret
      | some es => scanDir fs fl (fun b u r => sub b (some u) r) base item up es ret

/-- `pBat_GetMatch` with `base == NULL`, libpbat/dir/pBat_Dir.c:166-281. -/
def searchTop (fs : FileSys) (fl : SearchFlags) (n : Nat) (pat : List Char) : Res (List (List Char)) :=
  if (fl.dirMode || fl.recursive) && fs.isDir pat then do
    let ret := if !fl.dirMode && fl.callback then [pat] else []
    let ret1 ← if fl.first && !ret.isEmpty then Res.ok ret else searchIn fs fl n (some pat) (some ['*']) ret
    .ok (if !fl.dirMode && !fl.callback then ret1 ++ [pat] else ret1)
  else if fs.isDir pat || fs.isReg pat then .ok [pat]
  else if !pat.any isWild then .ok []
  else if pat.head? = some '/' ∧ (pat.drop 1).head? ≠ some '/' then searchIn fs fl n (some ['/']) (some (pat.drop 1)) []
  else searchIn fs fl n none (some pat) []

end PBat
