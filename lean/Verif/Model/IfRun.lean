import Verif.Model.If
import Verif.Model.BlockRun
/-
The commands IF runs: `pBat_CmdIf` behind its condition, pbat/command/pBat_If.c.
-/
namespace PBat

/-- What IF does after its condition.  `line c`: the block `c` takes the place of the command in its line, which then runs; `alone c`: the block
`c` runs, not the rest of the line; `nothing`: nothing runs, not even the rest of the line; `unexpected`: `PBAT_UNEXPECTED_ELEMENT`. -/
inductive IfRun
  | line (c : List Char)
  | alone (c : List Char)
  | nothing
  | unexpected
  deriving DecidableEq

/-- `pBat_LookAHeadMakeParsedLine`, pbat/core/pBat_Run.c:838-840: the text of the new command. -/
def wrapBlock (c : List Char) : List Char := '(' :: (c ++ [')'])

/-- `if (*p == ')') p ++; p = pBat_SkipBlanks(p)`, pbat/command/pBat_If.c:337-341, 381-384. -/
def ifBehind (s : List Char) : List Char := skipBlanks (if s.head? = some ')' then s.drop 1 else s)

/-- A block or the rest of the line, pbat/command/pBat_If.c:325-335, 369-379: its text and the text from its end on. -/
def ifBody (s : List Char) : Res (Option (List Char × List Char)) :=
  if s.head? = some '(' then
    match nextBlock s with
    | .ok x => .ok (some x)
    | .ub => .ub
    | .hang => .hang
  else blockLine s

/-- The condition holds, pbat/command/pBat_If.c:321-352.  `pBat_GetBlockLine` may return `NULL`, which is read. -/
def ifYes (s : List Char) : Res IfRun :=
  match ifBody (skipBlanks s) with
  | .ok (some (c, e)) => if ifBehind e = [] then .ok (.line (wrapBlock c)) else .ok (.alone (wrapBlock c))
  | .ok none => .ub
  | .ub => .ub
  | .hang => .hang

/-- `!strnicmp(p, "ELSE", 4) && (pBat_IsDelim(p[4]) | p[4] == '\0')`, pbat/command/pBat_If.c:363-364. -/
def elseWord (s : List Char) : Bool := wordIs ['e', 'l', 's', 'e'] s || s.map Char.toLower == ['e', 'l', 's', 'e']

/-- The condition does not hold, pbat/command/pBat_If.c:353-430. -/
def ifNo (s : List Char) : Res IfRun :=
  if (skipBlanks s).head? = some '(' then
    match nextBlock (skipBlanks s) with
    | .ok (_, e) =>
      if elseWord (ifBehind e) then
        match ifBody (skipBlanks ((ifBehind e).drop 4)) with
        | .ok (some (c, e')) =>
          if ifBehind e' ≠ [] ∧ (ifBehind e').head? ≠ some '\n' then .ok .unexpected else .ok (.line (wrapBlock c))
        | .ok none => .ub
        | .ub => .ub
        | .hang => .hang
      else if ifBehind e ≠ [] then .ok .unexpected
      else .ok .nothing
    | .ub => .ub
    | .hang => .hang
  else .ok .nothing

/-- `pBat_CmdIf`, `line` being the text after `IF`; `none` stands for the errors of the condition.  Simplification: the line of the command is
known (`lpplLine` is not `NULL`; otherwise, at the end of a pipeline, the commands run alone). -/
def cmdIf (w : IfWorld) (u : Option Int) (line : List Char) : Res (Option IfRun) :=
  match ifCond w u line with
  | .ok (.value b rest) =>
    match (if b then ifYes rest else ifNo rest) with
    | .ok r => .ok (some r)
    | .ub => .ub
    | .hang => .hang
  | .ok .error => .ok none
  | .ub => .ub
  | .hang => .hang

end PBat
