import Verif.Model.Args
import Verif.Model.Script
/-
Model of XARGS, `pbat/command/pBat_Xargs.c`.

Simplification: the input is the list of the lines `pBat_EsGet` returns (C04).
-/
namespace PBat

/-- What XARGS does: the help, an error, or `pBat_RunCommand` on a text. -/
inductive XargsOut where
  | help
  | missing
  | run (cmd : List Char)
  deriving DecidableEq, Repr

/-- What a line of the input adds to the command, pbat/command/pBat_Xargs.c:82-94. -/
def xargsAdd (line : List Char) : List Char :=
  let l := rmTrailingNl line
  if l.any (fun c => c == ' ' || c == ';' || c == ',' || c == '\t') ∧ (skipAllBlanks l).head? ≠ some '"' then
    " \"".toList ++ l ++ ['"']
  else ' ' :: l

/-- `pBat_CmdXargs`, pbat/command/pBat_Xargs.c:53-112; `line` is the text after `XARGS`, `ex` is `pBat_DelayedExpand`. -/
def cmdXargs (ex : List Char → Res (List Char)) (line : List Char) (input : List (List Char)) : Res XargsOut :=
  let s := skipBlanks line
  if s = [] then .ok .missing
  else if s = "/?".toList then .ok .help
  else do
    let t ← ex s
    .ok (.run (t ++ (input.map xargsAdd).flatten))

end PBat
