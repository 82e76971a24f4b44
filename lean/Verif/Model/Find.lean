import Verif.Model.Replace
import Verif.Model.Script
import Verif.Model.Num
import Verif.Model.Wild
import Verif.Model.Attr
/-
Model of `pbat/command/pBat_Find.c`.

Simplifications: a file is the list of texts `pBat_EsGet` returns for it (C04) or cannot be opened; the search of files is an
arbitrary function; help texts and error messages are not part of the output; the text of a parameter is given (C14).
-/
namespace PBat

/-- `pBat_strcasestr`, pbat/command/pBat_Find.c:55-72, for a text `c :: find`: whether the result is not NULL. -/
def strcasestr (c : Char) (find : List Char) : List Char → Bool
  | [] => false
  | sc :: s => if sc.toLower = c.toLower ∧ prefixI find s = true then true else strcasestr c find s

/-- The options of FIND: `flag`, `reverse` and `count`. -/
structure FindMode where
  ci : Bool
  re : Bool
  reverse : Bool
  count : Nat
  deriving DecidableEq, Repr

/-- The search function chosen in pbat/command/pBat_Find.c:102-122, and the case of an empty text, line 132: whether the line is found.
`utf8` is the encoding used by `pBat_RegExpMatch`. -/
def findHit (utf8 : Bool) (m : FindMode) (str line : List Char) : Bool :=
  match str with
  | [] => false
  | c :: s =>
    if m.re then wildMatch m.ci utf8 (c :: s) line
    else if m.ci then strcasestr c s line
    else (strstr (c :: s) line).isSome

/-- The line printed for a line found, pbat/command/pBat_Find.c:136-139. -/
def findPrint (m : FindMode) (line : Int) (text : List Char) : List (List Char) :=
  if m.count = 1 then ['[' :: (intText line ++ ']' :: text)]
  else if m.count = 0 then [text]
  else []

/-- The reading loop, pbat/command/pBat_Find.c:124-145: the lines printed and the number `i` of lines found; `line` is the number of
lines read.  Counting beyond the largest `int` is undefined (`i` never exceeds `line`). -/
def findLoop (utf8 : Bool) (m : FindMode) (str : List Char) : Int → Int → List (List Char) → Res (List (List Char) × Int)
  | _, i, [] => .ok ([], i)
  | line, i, t :: ts =>
    if line + 1 = 2 ^ 31 then .ub
    else
      if m.reverse != findHit utf8 m str (rmTrailingNl t) then do
        let r ← findLoop utf8 m str (line + 1) (i + 1) ts
        pure (findPrint m (line + 1) (rmTrailingNl t) ++ r.1, r.2)
      else findLoop utf8 m str (line + 1) i ts

/-- `pBat_FileFind`, pbat/command/pBat_Find.c:74-160: the lines printed and the result.  A file that cannot be opened is given to
`fclose` as a null pointer (lines 89-98 and 153-154). -/
def fileFind (utf8 : Bool) (m : FindMode) (str : List Char) (file : Option (List (List Char))) : Res (List (List Char) × Int) :=
  match file with
  | none => .ub
  | some texts => do
    let r ← findLoop utf8 m str 0 0 texts
    pure (r.1 ++ (if m.count = 2 then [intText r.2] else []), if r.2 = 0 then 1 else 0)

/-- A file found by the search. -/
structure FindFile where
  name : List Char
  stat : FileStat
  texts : Option (List (List Char))

/-- The parameters, pbat/command/pBat_Find.c:197-273: `Except` is the end with a status; otherwise the mode, the text, whether file names
were given, and the files. -/
def findParams (search : List Char → List FindFile) (m : FindMode) (str : Option (List Char)) (files : List FindFile) :
    List (List Char) → Except Int (FindMode × Option (List Char) × List FindFile)
  | [] => .ok (m, str, files)
  | p :: ps =>
    if p = "/?".toList then .error 0
    else if stricmp p "/C".toList = 0 then findParams search { m with count := 2 } str files ps
    else if stricmp p "/N".toList = 0 then findParams search { m with count := 1 } str files ps
    else if stricmp p "/I".toList = 0 then findParams search { m with ci := true } str files ps
    else if stricmp p "/E".toList = 0 then findParams search { m with re := true } str files ps
    else if stricmp p "/V".toList = 0 then findParams search { m with reverse := true } str files ps
    else match str with
      | none => findParams search m (some p) files ps
      | some _ => if search p = [] then .error 42 else findParams search m str (files ++ search p) ps

/-- The loop on several files, pbat/command/pBat_Find.c:326-335. -/
def findFiles (utf8 : Bool) (m : FindMode) (str : List Char) (status : Int) : List FindFile → Res (List (List Char) × Int)
  | [] => .ok ([], status)
  | f :: fs => do
    let a ← fileFind utf8 m str f.texts
    let r ← findFiles utf8 m str (if status = 0 then a.2 else status) fs
    pure (("---------- ".toList ++ f.name) :: a.1 ++ r.1, r.2)

/-- `pBat_CmdFind`, pbat/command/pBat_Find.c:177-352: the lines printed and the result.  `search` is `pBat_GetMatchFileList` applied to the
full path, `input` the standard input.  8 is PBAT_EXPECTED_MORE, 43 PBAT_NO_VALID_FILE, 42 above PBAT_NO_MATCH.  The results of
`pBat_FileFind` are 0 and 1, so that `|=` keeps a status that is not 0. -/
def cmdFind (utf8 : Bool) (search : List Char → List FindFile) (input : List (List Char)) (params : List (List Char)) :
    Res (List (List Char) × Int) :=
  match findParams search ⟨false, false, false, 0⟩ none [] params with
  | .error st => .ok ([], st)
  | .ok (_, none, _) => .ok ([], 8)
  | .ok (m, some str, files) =>
    match files with
    | [] => fileFind utf8 m str (some input)
    | _ :: _ =>
      match files.filter (fun f => checkFileAttributes 0x800#16 f.stat) with
      | [] => .ok ([], 43)
      | [f] => fileFind utf8 m str f.texts
      | fs => findFiles utf8 m str 0 fs

end PBat
