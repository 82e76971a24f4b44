import Verif.Model.Quotes
import Verif.Model.Expand
/-
Model of parameter extraction, `pbat/core/pBat_Args.c`.
-/
namespace PBat

/-- `PBAT_DELIMITERS`, pbat/core/pBat_Args.h:41. -/
def stdDelims (c : Char) : Bool := [' ', ';', ',', '\t', '"', '\n'].contains c

/-- The loop of `pBat_GetParameterPointers`, pbat/core/pBat_Args.c:50-78: index of the end of the parameter
beginning at index 0 of `s`, `none` for `NULL`; `k` is `lpLine`. -/
def paramEnd (p : Char → Bool) (s : List Char) (k : Nat) : Option Nat :=
  match h : searchFrom p s k with
  | none => none
  | some i =>
    if s[i]? = some '"' then
      match h' : searchFrom (· == '"') s (i + 1) with
      | none => none
      | some j => paramEnd p s (j + 1)
    else some i
termination_by s.length - k
decreasing_by
  have := searchFrom_bounds h
  have := searchFrom_bounds h'
  omega

/-- The text of the parameter, pbat/core/pBat_Args.c:198-252, `e` being `lpEnd` (`none` for `NULL`).  The size is
unsigned: going below zero copies from outside. -/
def paramText (s : List Char) (e : Option Nat) : Res (List Char) :=
  match s, e with
  | [], _ => .ok []
  | c :: cs, none =>
    if c == '"' then
      match searchLastTok (· == '"') cs with
      | some j => .ok (if j + 1 = cs.length then cs.take j else cs)
      | none => .ok cs
    else .ok (c :: cs)
  | c :: cs, some e =>
    if c == '"' then
      if e = 0 then .ub
      else if (c :: cs)[e - 1]? = some '"' then
        if e = 1 then .ub else .ok (cs.take (e - 2))
      else .ok (cs.take (e - 1))
    else .ok ((c :: cs).take e)

/-- The value returned, pbat/core/pBat_Args.c:228-230, 265. -/
def restAt (s : List Char) : Option Nat → List Char
  | none => []
  | some e => s.drop e

/-- `pBat_GetNextParameterEsD`, pbat/core/pBat_Args.c:178-266: the parameter and the rest of the line, `none` for
`NULL`.  `ex` is `pBat_DelayedExpand`.  A parameter made of a single caret is skipped by jumping back
to the start. -/
def nextParam (p : Char → Bool) (ex : List Char → Res (List Char)) (line : List Char) :
    Res (Option (List Char × List Char)) :=
  let s := skipBlanks line
  if s = [] then .ok none
  else
    let e := paramEnd p s 0
    let rest := restAt s e
    match paramText s e with
    | .ok text =>
      if text = ['^'] then
        if rest.length < line.length then nextParam p ex rest else .hang
      else do
        let t ← ex text
        pure (some (t, rest))
    | .ub => .ub
    | .hang => .hang
termination_by line.length

/-- The loop `while ((lpLine = pBat_GetNextParameterEs(lpLine, lpParam)))` of a command that takes all its
parameters, e.g. pbat/command/pBat_Set.c:372-379. -/
def allParams (p : Char → Bool) (ex : List Char → Res (List Char)) (line : List Char) : Res (List (List Char)) :=
  match nextParam p ex line with
  | .ok none => .ok []
  | .ok (some (t, rest)) =>
    if rest.length < line.length then do
      let ts ← allParams p ex rest
      pure (t :: ts)
    else .hang
  | .ub => .ub
  | .hang => .hang
termination_by line.length

/-- `pBat_GetParamList`, pbat/core/pBat_Args.c:276-321: the arguments of programs.  Each parameter is expanded a
second time (line 310). -/
def paramList (ex : List Char → Res (List Char)) (line : List Char) : Res (List (List Char)) :=
  match nextParam stdDelims ex line with
  | .ok none => .ok []
  | .ok (some (t, rest)) =>
    if rest.length < line.length then do
      let t ← ex t
      let ts ← paramList ex rest
      pure (t :: ts)
    else .hang
  | .ub => .ub
  | .hang => .hang
termination_by line.length

end PBat
