import Verif.Model.Str
import Verif.Model.Dir
/-
Model of `pbat/core/pBat_FilePath.c` (not Windows), texts that fit in memory.
-/
namespace PBat

/-- `pBat_GetPathNextPart`, pbat/core/pBat_FilePath.c:312-335: the part and the pointer returned; `delim` is `PBAT_PATH_DELIMITER`. -/
def pathNextPart (delim : Char) (path : List Char) : Option (List Char × List Char) :=
  match path with
  | [] => none
  | c :: s =>
    match strpbrk (· == delim) (c :: s) with
    | (_, []) => some (c :: s, [])
    | (part, _ :: rest) => some (part, rest)

theorem pathNextPart_length {delim : Char} {path part rest : List Char} (h : pathNextPart delim path = some (part, rest)) :
    rest.length < path.length := by
  unfold pathNextPart at h
  split at h
  · cases h
  · next c s =>
    have hl := strpbrk_length (· == delim) (c :: s)
    split at h
    · cases h; simp
    · next heq =>
      rw [heq] at hl
      cases h
      simp at hl ⊢
      omega

/-- `pBat_MakePath` with two parts, pbat/core/pBat_FilePath.c:337-376. -/
def makePath (a b : List Char) : List Char :=
  match a.getLast? with
  | none => b
  | some c => if c = '/' then a ++ b else a ++ '/' :: b

/-- `pBat_MakeFullPathEs`, pbat/core/pBat_FilePath.c:87-112; `trans` is `_pBat_GetOsStreamName`, the translation of device names. -/
def makeFullPath (trans : List Char → List Char) (cur p : List Char) : List Char :=
  if absolute (trans p) then trans p else cur ++ '/' :: trans p

/-- The inner loop of `pBat_GetFilePath`, pbat/core/pBat_FilePath.c:260-280: the extensions left, then the name itself. -/
def tryExts (delim : Char) (ex : List Char → Bool) (tmp : List Char) (exts : List Char) : Option (List Char) :=
  match h : pathNextPart delim exts with
  | some (part, rest) => if ex (tmp ++ part) then some (tmp ++ part) else tryExts delim ex tmp rest
  | none => if ex tmp then some tmp else none
termination_by exts.length
decreasing_by exact pathNextPart_length h

/-- The following iterations of the outer loop of `pBat_GetFilePath`, pbat/core/pBat_FilePath.c:244-287; `path` is `lpPathToken`. -/
def tryPath (delim : Char) (ex : List Char → Bool) (exts name : List Char) (path : List Char) : Option (List Char) :=
  match h : pathNextPart delim path with
  | none => none
  | some (part, rest) =>
    match tryExts delim ex (makePath part name) exts with
    | some r => some r
    | none => tryPath delim ex exts name rest
termination_by path.length
decreasing_by exact pathNextPart_length h

/-- `pBat_GetFilePath`, pbat/core/pBat_FilePath.c:217-309: the path stored, `none` for the result -1.  `ex` is `pBat_FileExists`, `path` and
`pathext` the values of the variables, `cap` the size of the buffer. -/
def getFilePath (delim : Char) (trans : List Char → List Char) (ex : List Char → Bool) (cur : List Char) (path pathext : Option (List Char))
    (cap : Nat) (name : List Char) : Option (List Char) :=
  let exts := pathext.getD []
  let r := match tryExts delim ex (makeFullPath trans cur name) exts with
    | some r => some r
    | none =>
      match path with
      | none => none
      | some path => if absolute name || name.any (· == '/') then none else tryPath delim ex exts name path
  r.map (·.take (cap - 1))

end PBat
