import Verif.Model.Args
import Verif.Model.Replace
/-
Model of script arguments: how `CALL` and the command line set them, `pbat/command/pBat_Call.c` and
`pbat/init/pBat_Init.c`, and how `SHIFT` moves them, `pbat/command/pBat_Shift.c`.

Simplification: allocations succeed.
-/
namespace PBat

/-- `'0' + i`. -/
def argName (i : Nat) : Char := Char.ofNat (48 + i)

/-- `pBat_EsReplace` on the text of a string (`esReplace` of `Verif.Model.Replace` on buffers). -/
def replaceIn (pat rep s : List Char) : Res (List Char) := do
  let ps ← replacePieces pat rep s
  pure ps.flatten

/-- `while (i <= 9 && (line = pBat_GetNextParameterEs(line, p))) set(i++, p)`: pbat/command/pBat_Call.c:296-303 and
pbat/command/pBat_Shift.c:214-220.  Gives the variables, `i` and the line (`none` for `NULL`). -/
def fillArgs (ex : List Char → Res (List Char)) (b : LocalBlock) (i : Nat) (line : List Char) :
    Res (LocalBlock × Nat × Option (List Char)) :=
  if i < 10 then
    match nextParam stdDelims ex line with
    | .ok none => .ok (b, i, none)
    | .ok (some (t, rest)) => fillArgs ex (setLocalVar b (argName i) (some t)) (i + 1) rest
    | .ub => .ub
    | .hang => .hang
  else .ok (b, i, some line)
termination_by 10 - i

/-- `while (i <= 9) set(i++, "")`: pbat/command/pBat_Call.c:308-309, pbat/command/pBat_Shift.c:231-237. -/
def emptyArgs (b : LocalBlock) (i : Nat) : LocalBlock :=
  if i < 10 then emptyArgs (setLocalVar b (argName i) (some [])) (i + 1) else b
termination_by 10 - i

/-- The text of one parameter in `%+`, pbat/command/pBat_Call.c:318-322. -/
def escapeArg (t : List Char) : Res (List Char) := do
  let t ← replaceIn [' '] ['^', ' '] t
  let t ← replaceIn [';'] ['^', ';'] t
  let t ← replaceIn [','] ['^', ','] t
  let t ← replaceIn ['\t'] ['^', '\t'] t
  replaceIn ['"'] ['^', '"'] t

/-- The concatenation of the escaped parameters, pbat/command/pBat_Call.c:317-327. -/
def escapeArgs : List (List Char) → Res (List Char)
  | [] => .ok []
  | a :: as => do
    let t ← escapeArg a
    let r ← escapeArgs as
    pure (t ++ ' ' :: r)

/-- The arguments set by `pBat_CmdCallFile`, pbat/command/pBat_Call.c:234-339, `zero` being the script or the label
and `line` the rest of the line.  `ex` is `pBat_DelayedExpand`. -/
def callArgs (ex : List Char → Res (List Char)) (zero line : List Char) : Res LocalBlock := do
  let b := setLocalVar (fun _ => none) '0' (some zero)
  let all ← ex line
  let b := setLocalVar b '*' (some all)
  let (b, i, rest) ← fillArgs ex b 1 line
  if i < 10 then
    pure (setLocalVar (emptyArgs b i) '+' (some []))
  else
    match rest with
    | some rest =>
      let as ← allParams stdDelims ex rest
      let t ← escapeArgs as
      pure (setLocalVar b '+' (some t))
    | none => pure (setLocalVar b '+' (some []))

/-- `strpbrk(arg, " ,;=\t&|")`, pbat/init/pBat_Init.c:60, 67. -/
def needsQuotes (a : List Char) : Bool := a.any fun c => [' ', ',', ';', '=', '\t', '&', '|'].contains c

/-- `pBat_AssignCommandLine`, pbat/init/pBat_Init.c:55-89: the text built from arguments of the program. -/
def commandLine : List (List Char) → Res (List Char)
  | [] => .ok []
  | a :: as => do
    let t ← replaceIn ['"'] ['^', '"'] a
    let r ← commandLine as
    pure (if needsQuotes a then '"' :: (t ++ '"' :: ' ' :: r) else t ++ ' ' :: r)

/-- The arguments `%1` to `%9`, pbat/init/pBat_Init.c:376-380. -/
def setArgs (b : LocalBlock) (i : Nat) : List (List Char) → LocalBlock × Nat × List (List Char)
  | [] => (b, i, [])
  | a :: as => if i < 10 then setArgs (setLocalVar b (argName i) (some a)) (i + 1) as else (b, i, a :: as)

/-- The arguments of the script given on the command line, pbat/init/pBat_Init.c:372-400 and pbat/pBat.c:163:
`zero` is the absolute path of the script, `argv` what follows it. -/
def startArgs (zero : List Char) (argv : List (List Char)) : Res LocalBlock := do
  let t ← commandLine argv
  let b := setLocalVar (fun _ => none) '*' (some t)
  let b := setLocalVar b '+' (some [])
  match argv with
  | [] => pure (setLocalVar (emptyArgs b 1) '0' (some zero))
  | _ =>
    let (b, i, rest) := setArgs b 1 argv
    let t ← commandLine rest
    let b := setLocalVar b '+' (some t)
    pure (setLocalVar (emptyArgs b i) '0' (some zero))

/-- Displacement, pbat/command/pBat_Shift.c:191-202: the variables and `iBegin`. -/
def moveArgs (b : LocalBlock) (i d : Nat) : LocalBlock × Nat :=
  if i + d < 10 then moveArgs (setLocalVar b (argName i) (b (argName (i + d)))) (i + 1) d else (b, i)
termination_by 10 - i

/-- pbat/command/pBat_Shift.c:204-237. -/
def takeMore (ex : List Char → Res (List Char)) (b : LocalBlock) (i : Nat) : Res LocalBlock := do
  match b '+' with
  | none => pure (emptyArgs b i)
  | some [] => pure (emptyArgs b i)
  | some (c :: t) =>
    if i < 10 then
      let (b, i, rest) ← fillArgs ex b i (c :: t)
      let b := setLocalVar b '+' (some (rest.getD []))
      pure (emptyArgs b i)
    else pure b

/-- pbat/command/pBat_Shift.c:190-237. -/
def shiftArgs (ex : List Char → Res (List Char)) (b : LocalBlock) (i d : Nat) : Res LocalBlock :=
  let (b, i) := moveArgs b i d
  takeMore ex b i

/-- A digit at the beginning, pbat/command/pBat_Shift.c:95. -/
def oneDigit : List Char → Option (Nat × List Char)
  | [] => none
  | c :: r => if '0' ≤ c && c ≤ '9' then some (c.toNat - 48, r) else none

/-- `if (*lpToken == ':') lpToken++`, then one digit and nothing else, pbat/command/pBat_Shift.c:90-121. -/
def shiftDigit (t : List Char) : Option Nat :=
  let t := match t with
    | ':' :: r => r
    | t => t
  match oneDigit t with
  | some (n, []) => some n
  | _ => none

/-- One option, pbat/command/pBat_Shift.c:66-186: the new start and displacement, `none` for an error (and for the
help). -/
def shiftOpt (i d : Nat) : List Char → Option (Nat × Nat)
  | '/' :: c :: r =>
    if ['0', '1', '2', '3', '4', '5', '6', '8', '9'].contains c then some (c.toNat - 48, d)
    else if c = 's' then (shiftDigit r).map (·, d)
    else if c = 'd' then (shiftDigit r).map (i, ·)
    else none
  | _ => none

/-- The options, pbat/command/pBat_Shift.c:62-188. -/
def shiftOpts (ex : List Char → Res (List Char)) (i d : Nat) (line : List Char) : Res (Option (Nat × Nat)) :=
  match nextParam stdDelims ex line with
  | .ok none => .ok (some (i, d))
  | .ok (some (t, rest)) =>
    match shiftOpt i d t with
    | none => .ok none
    | some (i, d) => if rest.length < line.length then shiftOpts ex i d rest else .hang
  | .ub => .ub
  | .hang => .hang
termination_by line.length

/-- `pBat_CmdShift`, pbat/command/pBat_Shift.c:53-243: the variables and whether there was an error. -/
def shiftCmd (ex : List Char → Res (List Char)) (b : LocalBlock) (line : List Char) : Res (LocalBlock × Bool) := do
  match ← shiftOpts ex 0 1 (line.drop 5) with
  | none => pure (b, true)
  | some (i, d) =>
    let b ← shiftArgs ex b i d
    pure (b, false)

end PBat
