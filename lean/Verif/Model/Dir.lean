import Verif.Model.Args
import Verif.Model.LibC
/-
Model of the current directory and of the directory stack: `pbat/command/pBat_Cd.c`,
`pbat/command/pBat_Pushd.c`, `pbat/core/pBat_DirStack.c`, in the Unix configuration (`PBAT_TEST_SEPARATOR` is `/`,
no drives and no UNC paths, libpbat/libpBat.h:389-396).
-/
namespace PBat

/-- Swallowing separators and `.` components, pbat/command/pBat_Cd.c:91-106: the text from `next` on. -/
def swallow : List Char → List Char
  | '/' :: r => swallow r
  | '.' :: '/' :: r => swallow ('/' :: r)
  | ['.'] => []
  | s => s

/-- `..` followed by a separator or the end, pbat/command/pBat_Cd.c:113-114. -/
def isUp : List Char → Bool
  | ['.', '.'] => true
  | '.' :: '.' :: '/' :: _ => true
  | _ => false

theorem swallow_length (s : List Char) : (swallow s).length ≤ s.length := by
  fun_induction swallow s with
  | case1 r ih => simp; omega
  | case2 r ih => simp at *; omega
  | case3 => simp
  | case4 => simp

/-- The loop of `pBat_Canonicalize`, pbat/command/pBat_Cd.c:83-148: `pre` is the text before `path`, `post` the text
from `path` on.  Simplification: `previous` going one before the beginning of the text is represented by the absence
of a separator in `pre`. -/
def canonLoop (pre post : List Char) : List Char :=
  match post with
  | [] => pre
  | c :: r =>
    if c == '/' then
      let r' := swallow r
      if isUp r' then
        if '/' ∈ pre then canonLoop (beforeLast '/' pre) (r'.drop 2)
        else if pre = [] then ['/'] else pre
      else if r' = [] ∧ pre ≠ [] then pre
      else canonLoop (pre ++ ['/']) r'
    else canonLoop (pre ++ [c]) r
termination_by post.length
decreasing_by
  all_goals have := swallow_length r
  all_goals simp at *
  all_goals omega

/-- `pBat_Canonicalize`, pbat/command/pBat_Cd.c:71-156. -/
def canonicalize (path : List Char) : List Char := canonLoop [] path

/-- `PBAT_TEST_ABSOLUTE_PATH`, libpbat/libpBat.h:390-392. -/
def absolute : List Char → Bool
  | '/' :: '/' :: _ => false
  | '/' :: _ => true
  | _ => false

/-- `pBat_SetCurrentDir`, pbat/command/pBat_Cd.c:158-217: the new current directory, `none` for failure.  `exists'` is
`pBat_DirExists`, `cap` is `FILENAME_MAX`. -/
def setCurrentDir (cap : Nat) (exists' : List Char → Bool) (cur line : List Char) : Option (List Char) :=
  if absolute line && exists' line then some (canonicalize (line.take (cap - 1)))
  else if 0 < cap - (cur.length + 1) then
    let t := (cur ++ '/' :: line).take (cap - 1)
    if exists' t then some (canonicalize t) else none
  else none

/-- The current directory and the directory stack (`dsDirStack`, the last element is the top). -/
structure DirState where
  cur : List Char
  paths : List (List Char)
deriving DecidableEq, Repr

/-- What the outside does during a command: which directories exist, whether copying a path succeeds. -/
structure DirWorld where
  dirExists : List Char → Bool
  alloc : List Char → Bool

/-- `pBat_PushDir`, pbat/core/pBat_DirStack.c:51-74. -/
def pushDir (alloc : List Char → Bool) (paths : List (List Char)) (dir : List Char) : List (List Char) :=
  if alloc dir then paths ++ [dir] else paths

/-- `pBat_PopDir`, pbat/core/pBat_DirStack.c:76-98. -/
def popDir (paths : List (List Char)) : Option (List Char × List (List Char)) :=
  paths.getLast?.map (·, paths.dropLast)

/-- The loop of `pBat_CmdPushd`, pbat/command/pBat_Pushd.c:78-93, and the code returned.  Simplification: the
parameters are read beforehand. -/
def pushdLoop (cap : Nat) (w : DirWorld) (s : DirState) : List (List Char) → DirState × Bool
  | [] => (s, true)
  | p :: ps =>
    match setCurrentDir cap w.dirExists s.cur p with
    | some d => pushdLoop cap w ⟨d, pushDir w.alloc s.paths s.cur⟩ ps
    | none => (s, false)

/-- `pBat_CmdPopd`, pbat/command/pBat_Pushd.c:100-124. -/
def popdCmd (cap : Nat) (w : DirWorld) (s : DirState) : DirState × Bool :=
  match popDir s.paths with
  | none => (s, false)
  | some (d, paths) =>
    match setCurrentDir cap w.dirExists s.cur d with
    | some d => (⟨d, paths⟩, true)
    | none => (⟨s.cur, paths⟩, false)

/-- A command on directories: `PUSHD` with parameters, `POPD`, `CD` with a path
(pbat/command/pBat_Cd.c:282-300). -/
inductive DirCmd
  | pushd (ps : List (List Char))
  | popd
  | cd (p : List Char)

/-- Executing one command. -/
def dirStep (cap : Nat) (w : DirWorld) (s : DirState) : DirCmd → DirState × Bool
  | .pushd ps => pushdLoop cap w s ps
  | .popd => popdCmd cap w s
  | .cd p =>
    match setCurrentDir cap w.dirExists s.cur p with
    | some d => (⟨d, s.paths⟩, true)
    | none => (s, false)

/-- Executing commands one after the other, each in its own world. -/
def dirRun (cap : Nat) : DirState → List (DirWorld × DirCmd) → DirState
  | s, [] => s
  | s, (w, c) :: r => dirRun cap (dirStep cap w s c).1 r


/-- What a `CD` line asks for. -/
inductive CdAct
  | show
  | help
  | to (t : List Char)
deriving DecidableEq, Repr

/-- Cutting the end, pbat/command/pBat_Cd.c:257-284: blanks, and quotes if there is an opening quote.  When there is
nothing else, `lpNext` still points into the line given and the text is not cut. -/
def cdCut (quotes : Bool) (s : List Char) : List Char :=
  let b := fun c => c == ' ' || c == '\t' || (quotes && c == '"')
  if s.all b then s else (s.reverse.dropWhile b).reverse

/-- The argument of `CD`, pbat/command/pBat_Cd.c:226-296; `line` is what follows the name of the command, `ex` is
`pBat_DelayedExpand`. -/
def cdTarget (ex : List Char → Res (List Char)) (line : List Char) : Res CdAct := do
  match ← nextParam stdDelims ex line with
  | none => pure .show
  | some (t, rest) =>
    if t = ['/', '?'] then pure .help
    else
      let line := if stricmp t ['/', 'd'] = 0 then rest else line
      let text ← ex (line.dropWhile fun c => c == ' ' || c == '\t')
      match skipBlanks text with
      | '"' :: r => pure (.to (cdCut true r))
      | r => pure (.to (cdCut false r))

end PBat
