import Verif.Model.Dir
/-
Model of the directories of the drives on Windows: `pBat_CmdCd_win`, `pBat_SetCurrentDir` and `pBat_Canonicalize` of
`pbat/command/pBat_Cd.c` in the Windows configuration (separators are `/` and `\`, libpbat/libpBat.h:399-407).
-/
namespace PBat.Win

/-- `PBAT_TEST_SEPARATOR`, libpbat/libpBat.h:399. -/
def sep (c : Char) : Bool := c == '/' || c == '\\'

/-- Swallowing separators and `.` components, pbat/command/pBat_Cd.c:91-106: the text from `next` on. -/
def swallow : List Char → List Char
  | [] => []
  | c :: r =>
    if sep c then swallow r
    else if c == '.' then
      match r with
      | [] => []
      | d :: r => if sep d then swallow r else c :: d :: r
    else c :: r

/-- `..` followed by a separator or the end, pbat/command/pBat_Cd.c:113-114. -/
def isUp : List Char → Bool
  | ['.', '.'] => true
  | '.' :: '.' :: c :: _ => sep c
  | _ => false

theorem swallow_length (s : List Char) : (swallow s).length ≤ s.length := by
  fun_induction swallow s with
  | case1 => simp
  | case2 c r h ih => simp; omega
  | case3 => simp
  | case4 c h1 h2 d r h3 ih => simp; omega
  | case5 => simp
  | case6 => simp

/-- The loop of `pBat_Canonicalize`, pbat/command/pBat_Cd.c:83-151: `pre` is the text before `path`, `post` the text
from `path` on.  Simplification: `previous` going one before the beginning of the text is represented by the absence
of a separator in `pre` (where every separator is a `\` already). -/
def canonLoop (pre post : List Char) : List Char :=
  match post with
  | [] => pre
  | c :: r =>
    if sep c then
      let r' := swallow r
      if isUp r' then
        if '\\' ∈ pre then canonLoop (beforeLast '\\' pre) (r'.drop 2)
        else pre
      else if r' = [] ∧ pre ≠ [] then pre
      else canonLoop (pre ++ ['\\']) r'
    else canonLoop (pre ++ [c]) r
termination_by post.length
decreasing_by
  all_goals have := swallow_length r
  all_goals simp at *
  all_goals omega

/-- `PBAT_TEST_UNC_PATH`, libpbat/libpBat.h:400. -/
def unc : List Char → Bool
  | '\\' :: '\\' :: _ => true
  | _ => false

/-- `pBat_Canonicalize`, pbat/command/pBat_Cd.c:71-156: the name of the server of a UNC path is skipped. -/
def canonicalize (path : List Char) : List Char :=
  if unc path then
    let host := (path.drop 2).takeWhile (! sep ·)
    canonLoop (path.take 2 ++ host) ((path.drop 2).drop host.length)
  else canonLoop [] path

/-- `PBAT_TEST_ROOT_PATH`, libpbat/libpBat.h:401. -/
def rootPath : List Char → Bool
  | [] => false
  | [c] => sep c
  | c :: d :: _ => sep c && ! sep d

/-- `PBAT_TEST_DRIVE_PATH`, libpbat/libpBat.h:402. -/
def drivePath : List Char → Bool
  | [_, ':'] => true
  | _ :: ':' :: c :: _ => sep c
  | _ => false

/-- `PBAT_TEST_ABSOLUTE_PATH`, libpbat/libpBat.h:403-404. -/
def absolute (p : List Char) : Bool := unc p || rootPath p || drivePath p

/-- `pBat_SetCurrentDir`, pbat/command/pBat_Cd.c:158-217: the new current directory, `none` for failure.  `exists'` is
`pBat_DirExists`, `cap` is `FILENAME_MAX`.  A path beginning with `/` is copied after the first two bytes of the
buffer of the current directory: it is not seen when the directory is shorter. -/
def setCurrentDir (cap : Nat) (exists' : List Char → Bool) (cur line : List Char) : Option (List Char) :=
  if absolute line && exists' line then
    if line.head? = some '/' then
      if cur.length < 2 then some (canonicalize cur)
      else some (canonicalize (cur.take 2 ++ line.take (cap - 3)))
    else some (canonicalize (line.take (cap - 1)))
  else if 0 < cap - (cur.length + 1) then
    let t := (cur ++ '\\' :: line).take (cap - 1)
    if exists' t then some (canonicalize t) else none
  else none

/-- The current directory (`lpCurrentDir`) and the variables `=x:` of the environment, indexed by the letter in lower
case.  Simplification: the environment is the mapping it represents (names are compared regardless of case,
pbat/core/pBat_Env.c:35-43); the letter NUL stands for the variable `=`. -/
structure DriveState where
  cur : List Char
  drives : Char → Option (List Char)

/-- `pBat_SetEnv` on the variable `=x:`, pbat/core/pBat_Env.c:254-346: an empty value removes it. -/
def setDrive (drives : Char → Option (List Char)) (x : Char) (v : List Char) : Char → Option (List Char) :=
  fun k => if k = x.toLower then (if v = [] then none else some v) else drives k

/-- What a line of `CD` asks for, pbat/command/pBat_Cd.c:344-398. -/
inductive CdLine
  | show
  | go (force quotes : Bool) (text : List Char)
deriving DecidableEq, Repr

/-- Cutting the end, pbat/command/pBat_Cd.c:367-395: blanks, and quotes if there is an opening quote. -/
def cdEnd (quotes : Bool) (s : List Char) : List Char :=
  (s.reverse.dropWhile fun c => c == ' ' || c == '\t' || (quotes && c == '"')).reverse

/-- The reading of a line of `CD`, pbat/command/pBat_Cd.c:344-398; `line` is what follows the name of the command,
`ex` is `pBat_DelayedExpand`. -/
def cdRead (ex : List Char → Res (List Char)) (line : List Char) : Res CdLine :=
  match nextParam stdDelims ex line with
  | .ub => .ub
  | .hang => .hang
  | .ok none => .ok .show
  | .ok (some (t, rest)) =>
    let force := stricmp t ['/', 'D'] = 0
    let line := if force then rest else line
    match ex (line.dropWhile fun c => c == ' ' || c == '\t') with
    | .ub => .ub
    | .hang => .hang
    | .ok text =>
      match skipBlanks text with
      | '"' :: r => .ok (.go force true (cdEnd true r))
      | r => .ok (.go force false (cdEnd false r))

/-- How a command ends: what it prints on the output and whether it reports `PBAT_DIRECTORY_ERROR`. -/
inductive CdOut
  | shown (t : List Char)
  | done
  | failed
deriving DecidableEq, Repr

/-- The end of `pBat_CmdCd_win`, pbat/command/pBat_Cd.c:423-448, for the path `path`, whose drive is `passed` if it has
one; `alias` is the variable the path is the value of (not a copy): `pBat_SetEnv` frees the value before copying it
(pbat/core/pBat_Env.c:288-290). -/
def cdGo (cap : Nat) (dirExists : List Char → Bool) (s : DriveState) (force : Bool) (passed : Option Char)
    (alias : Option Char) (path : List Char) : Res (DriveState × CdOut) :=
  let current := s.cur.headD '\x00'
  let moves := match passed with
    | none => true
    | some p => p.toUpper == current.toUpper || force
  let record (cur : List Char) : Res (DriveState × CdOut) :=
    match passed with
    | none => .ok (⟨cur, setDrive s.drives current cur⟩, .done)
    | some p =>
      if alias.map Char.toLower = some p.toLower then .ub
      else .ok (⟨cur, setDrive s.drives p path⟩, .done)
  if moves then
    match setCurrentDir cap dirExists s.cur path with
    | none => .ok (s, .failed)
    | some cur => record cur
  else record s.cur

/-- `pBat_CmdCd_win`, pbat/command/pBat_Cd.c:325-454. -/
def cmdCd (cap : Nat) (dirExists : List Char → Bool) (ex : List Char → Res (List Char)) (s : DriveState)
    (line : List Char) : Res (DriveState × CdOut) :=
  match cdRead ex line with
  | .ub => .ub
  | .hang => .hang
  | .ok .show => .ok (s, .shown (s.cur ++ ['\n']))
  | .ok (.go force quotes text) =>
    match text with
    | x :: ':' :: r =>
      if skipBlanks r = [] then
        match s.drives x.toLower with
        | some v => cdGo cap dirExists s true v.head? (some x) v
        | none =>
          let v := if quotes then '"' :: text else text
          cdGo cap dirExists s true v.head? none v
      else cdGo cap dirExists s force (some x) none text
    | _ => cdGo cap dirExists s force none none text

/-- The abbreviation `X:`, pbat/core/pBat_Run.c:405-416: the command line executed instead, the line being without its
leading blanks. -/
def abbreviated (line : List Char) : List Char :=
  match line with
  | x :: ':' :: r => if skipAllBlanks r = [] then "CD ".toList ++ [x, ':'] else line
  | _ => line

end PBat.Win
