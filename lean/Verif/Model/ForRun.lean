import Verif.Model.Words
import Verif.Model.ForLine
import Verif.Model.For
import Verif.Model.ForSimple
/-
Model of the line of FOR, and of the values of FOR /L and of the simple FOR, for the hosts of `Model/TextRun.lean`; `ex` is `pBat_DelayedExpand` in a state.

Simplifications: a loop that does not end, or whose counter overflows (C22), is cut off; the errors in options of FOR /F have one code; undefined
behaviour in reading the line (C72) is an error here, and so is a set whose chunks do not end (`C71_colon`).  The values of simple loops with
wildcards, and of the other kinds of loops, are given by `other`.
-/
namespace PBat.Prog
open PBat

variable {W : Type}

/-- The codes `pBat_CmdFor` returns for the lines it refuses, pbat/command/pBat_For.c:82-314 and pbat/errors/pBat_Errors.h:46-67. -/
def forStatus : ForOut → Int
  | .help => 0
  | .more => 8
  | .unexpected => 4
  | .badVar => 16
  | .noBlock => 17
  | .badOption => 24
  | .run _ => 0

/-- `pBat_CmdFor` up to the text behind DO, pbat/command/pBat_For.c:82-279. -/
def tableBehind (ex : W × Script → List Char → Res (List Char)) (y : List Char) (x : W × Script) : Except Int (List Char) :=
  match forHead (ex x) y with
  | .ok (.run l) => .ok l.code
  | .ok o => .error (forStatus o)
  | _ => .error 1

/-- The texts the loop of `pBat_CmdForL` assigns, pbat/command/pBat_For.c:538-557, at most `fuel` of them. -/
def forLTexts (inc stop : Int) : Nat → Int → List (List Char)
  | 0, _ => []
  | fuel + 1, i =>
    if i ≤ stop then
      intText i :: (if -2 ^ 31 ≤ i + inc ∧ i + inc < 2 ^ 31 then forLTexts inc stop fuel (i + inc) else [])
    else []

/-- The chunks `pBat_CmdForSimple` takes from its set, pbat/command/pBat_For.c:358-394; `none` if there are more than the number. -/
def chunkTexts : Nat → Option (List Char) → Option (List (List Char))
  | 0, _ => none
  | n + 1, token =>
    match nextChunk token with
    | none => some []
    | some (x, token') => (chunkTexts n token').map (x :: ·)

/-- The values of a loop, each with the variable: `pBat_CmdForL`, pbat/command/pBat_For.c:487-562, and `pBat_CmdForSimple`, 345-466. -/
def tableValues (ex : W × Script → List Char → Res (List Char)) (note : Char → W × Script → W × Script)
    (other : ForLoop → W × Script → (W × Script) × Except Int (List (Char × List Char))) (y : List Char) (x : W × Script) :
    (W × Script) × Except Int (List (Char × List Char)) :=
  match forHead (ex x) y with
  | .ok (.run l) =>
    if l.kind = .l then
      match allParams stdDelims (ex x) l.set with
      | .ok ps =>
        match forLBounds ps with
        | some (start, inc, stop) =>
          (note l.var x, .ok ((forLTexts inc stop ((stop - start + 1).toNat + 1) start).map fun t => (l.var, t)))
        | none => (x, .error 24)
      | _ => (x, .error 1)
    else if l.kind = .simple then
      match chunkTexts (l.set.length + 1) (some l.set) with
      | some cs =>
        if cs.any (fun x => x.any fun d => d == '*' || d == '?') then other l x else (note l.var x, .ok (cs.map fun t => (l.var, t)))
      | none => (x, .error 1)
    else other l x
  | _ => (x, .error 1)

end PBat.Prog
