import Verif.Model.LineEdit

/-!
The completion of file names, `pbat/core/pBat_Completion.c` (not Windows), and the Tab key of the
line editor.

Simplifications: allocation does not fail; the files do not change between the two calls of the
handler; the name of a file is shorter than `FILENAME_MAX`.
-/

namespace PBat

/-- `pbat/core/pBat_Completion.c` lines 201-205, the loop of `pBat_GetLongestCommonMatch`: the
number of bytes two names have in common. -/
def commonMatch : List Nat → List Nat → Nat
  | a :: p, b :: q => if a = b then commonMatch p q + 1 else 0
  | _, _ => 0

/-- `pbat/core/pBat_Completion.c` lines 207-209: the value of `longest` (`none` for -1) after a
match of length `m` -/
def shorter (longest : Option Nat) (m : Nat) : Nat :=
  match longest with
  | none => m
  | some l => if l > m then m else l

/-- `pbat/core/pBat_Completion.c` lines 190-219, `pBat_GetLongestCommonMatch`: `p` is the first
name, `longest` the value so far, the list holds the names left. -/
def longestMatch (p : List Nat) (min : Nat) (longest : Option Nat) :
    List (List Nat) → Option Nat
  | [] => longest
  | f :: fs =>
    if shorter longest (commonMatch p f) = min then some min
    else longestMatch p min (some (shorter longest (commonMatch p f))) fs

/-- `pbat/core/pBat_Completion.c` lines 221-272, `pBat_CompletionHandler` with `subst != NULL`:
`full` is `pBat_EsToFullPath`, `find` is `pBat_GetMatchFileList` (C55).  A name shorter than what
is taken off its begin is read behind its end (`ub`). -/
def handler (full : List Nat → List Nat) (find : List Nat → List (List Nat)) (item : List Nat) :
    Res Reply :=
  let name := full item
  match find (name ++ [42]) with
  | [] => .ok .none
  | p :: fs =>
    match longestMatch p name.length none fs with
    | none => if p.length < name.length then .ub else .ok (.one (p.drop name.length))
    | some m => if m > name.length then .ok (.one ((p.take m).drop name.length)) else .ok .many

/-- The Tab key: `completeLine` with the handler. -/
def lnTab (u : CharTables) (full : List Nat → List Nat) (find : List Nat → List (List Nat))
    (l : LnState) : Res LnState := do
  let r ← handler full find (completionItem (l.buf.take l.pos) (l.buf.drop l.pos))
  lnComplete u (fun _ => r) l

/-- `pbat/core/pBat_Completion.c` lines 107-117 and 152-162: the part of a name behind its last
separator; `name` is the part behind the last one seen. -/
def lastPart (name : List Nat) : List Nat → List Nat
  | [] => name
  | c :: r => if c = 47 ∨ c = 92 then lastPart r r else lastPart name r

/-- `fprintf(fOutput, "%-*s", width, name)` -/
def padTo (width : Nat) (name : List Nat) : List Nat :=
  name ++ List.replicate (width - name.length) 32

/-- `pbat/core/pBat_Completion.c` lines 103-124: the length of the longest name. -/
def longestName (files : List (List Nat)) : Nat :=
  files.foldl (fun max f => if (lastPart f f).length > max then (lastPart f f).length else max) 0

/-- `pbat/core/pBat_Completion.c` lines 150-172, the loop that prints: `count` names have been
printed.  A remainder by zero is `ub`. -/
def printNames (cols max : Nat) : Nat → List (List Nat) → Res (List Nat)
  | count, [] =>
    if cols / (max + 1) = 0 then .ub
    else .ok (if count % (cols / (max + 1)) ≠ 0 then [13, 10] else [])
  | count, f :: fs =>
    if cols / (max + 1) = 0 then .ub
    else do
      let s ← printNames cols max (count + 1) fs
      .ok (padTo (max + 1) (lastPart f f) ++
        (if (count + 1) % (cols / (max + 1)) = 0 then [13, 10] else []) ++ s)

/-- `pbat/core/pBat_Completion.c` lines 91-178, `pBat_PrintCompletionList`, where `cols` is 80.
`yes` is the answer to the question asked for more than 20 files; the question itself goes to
`fError`, the `\r` printed for each answer that is not understood is left out. -/
def printList (yes : Bool) (files : List (List Nat)) : Res (List Nat) :=
  let cols := 80
  let max := longestName files
  if files.length > 20 ∧ yes = false then .ok ([13, 10] ++ [13] ++ [10])
  else do
    let max := if max > cols then cols - 1 else max
    let s ← printNames cols max 0 files
    .ok ([13, 10] ++ (if files.length > 20 then [13] else []) ++ s ++ [13, 10])

end PBat
