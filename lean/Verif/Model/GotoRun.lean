import Verif.Model.Words
import Verif.Model.Script
/-
Model of GOTO as a command of the hosts of `Model/TextRun.lean`.
-/
namespace PBat.Prog
open PBat

variable {W τ : Type}

/-- Characters with which an option of GOTO may begin before quotes are removed and variables are expanded, pbat/command/pBat_Goto.c:53-88. -/
def optionStart : List Char := "/\"^!%".toList

/-- `pBat_CmdGoto`, pbat/command/pBat_Goto.c:43-128, for the commands found as GOTO in the table `t`; all other commands are run by `other`.  The
error level stays as it is; a label of the running script leaves the block, and `:EOF` leaves the script.  `ex` is `pBat_DelayedExpand`, and `file`
the file of the running script.

Simplifications: a line that may begin with an option is left to `other`, and so is a label that is missing from the script, for which
the behaviour is undefined (`C19_missing_label_undefined`). -/
def gotoExec (t : CmdTree String) (junk : Bool) (ex : W × Script → List Char → Res (List Char)) (file : W → FileText)
    (other : List Char → W × Script → Int → τ × τ × τ → (W × Script) × Int × Abort) (r : List Char) (x : W × Script) (e : Int) (s : τ × τ × τ) :
    (W × Script) × Int × Abort :=
  match t.lookup r with
  | .ok (some k) =>
    if k.info = "pBat_CmdGoto" then
      if (skipBlanks (r.drop 4)).head?.any (fun c => optionStart.contains c) then other r x e s
      else match gotoCmd junk (ex x) x.2 (file x.1) none (r.drop 4) with
        | .ok .leave => (x, e, .level)
        | .ok (.moved sc) => ((x.1, sc), e, .block)
        | .ok .failed => (x, 6, .no)
        | _ => other r x e s
    else other r x e s
  | _ => other r x e s

end PBat.Prog
