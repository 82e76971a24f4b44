import Verif.Model.TextRun
import Verif.Model.CmdList
import Verif.Model.If
/-
Model of how `pbat/core/pBat_Run.c` finds out what a command is, and of the condition of IF as `pbat/command/pBat_If.c` has it, for the hosts
of `Model/TextRun.lean`.

Simplifications: the table does not change while the script runs (DEF is C69); commands other than IF, FOR and CALL, also those that are not in
the table, are `.simple`.
-/
namespace PBat.Prog
open PBat

variable {ν W : Type}

/-- The search of `pBat_RunCommand`, pbat/core/pBat_Run.c:419-475, for a text without blanks at its beginning, and what the commands that run
others take from it: IF the text behind its two letters, pbat/command/pBat_If.c:54, FOR that behind three, pbat/command/pBat_For.c:107, CALL
that behind four, without blanks, pbat/command/pBat_Call.c:66. -/
def tableCls (t : CmdTree String) (r : List Char) : Cmd (List Char) ν :=
  match t.lookup r with
  | .ok (some e) =>
    if e.info = "pBat_CmdIf" then .iff (r.drop 2) [] none
    else if e.info = "pBat_CmdFor" then .loop [] [[(.none, {}, .simple (r.drop 3))]]
    else if e.info = "pBat_CmdCall" then .call (skipBlanks (r.drop 4))
    else .simple r
  | _ => .simple r

/-- The condition of IF, pbat/command/pBat_If.c:43-310 (Model/If.lean), in a state.  The codes of its errors are not told apart. -/
def tableCond (iw : W × Script → Int → IfWorld) (u : Option Int) (t : List Char) (x : W × Script) (e : Int) : Test × List Char :=
  match ifCond (iw x e) u t with
  | .ok (.value b rest) => (if b then .yes else .no, rest)
  | _ => (.error 1, [])

end PBat.Prog
