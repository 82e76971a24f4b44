import Verif.Model.Args
import Verif.Model.Num
/-
The command EXIT. pbat/command/pBat_Exit.c.
-/
namespace PBat

/-- The value `strtol(s, NULL, 10)` would have without bounds.  A text without digits gives 0.  C library. -/
def strtol10 (s : List Char) : Int :=
  match s.dropWhile isSpace with
  | '-' :: r => -((scanBase 10 0 r).1 : Int)
  | '+' :: r => ((scanBase 10 0 r).1 : Int)
  | r => ((scanBase 10 0 r).1 : Int)

/-- `atoi`: `strtol` with base 10 converted to `int`. C library. -/
def atoi (s : List Char) : Int := longToInt (max (-2 ^ 63) (min (2 ^ 63 - 1) (strtol10 s)))

/-- What EXIT does: it shows its help, it refuses its arguments (returning the code), it leaves the execution level with an
error level (`bAbortCommand`), or it ends the program with an exit status. -/
inductive ExitAct
  | help
  | refused (code : Int)
  | level (code : Int)
  | process (code : Int)
deriving DecidableEq, Repr

/-- EXIT, pbat/command/pBat_Exit.c:55-111; `line` is the text after the name, `err` is `iErrorLevel`.  `ex` is delayed
expansion.  4 is PBAT_UNEXPECTED_ELEMENT (pbat/errors/pBat_Errors.h:46).  Ending the thread of a pipeline (lines 103-104) is not
told from ending the program. -/
def cmdExit (ex : List Char → Res (List Char)) (err : Int) (line : List Char) : Res ExitAct :=
  (nextParam stdDelims ex line).bind fun
    | none => .ok (.process err)
    | some (p, rest) =>
      if stricmp p "/?".toList = 0 then .ok .help
      else if stricmp p "/b".toList = 0 then
        (nextParam stdDelims ex rest).bind fun
          | none => .ok (.level err)
          | some (a, []) => .ok (.level (atoi a))
          | some (_, _ :: _) => .ok (.refused 4)
      else .ok (.process (atoi rest))

end PBat
