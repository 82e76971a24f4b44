import Verif.Model.ForLine
/-
The lines of a block: `pBat_RunBlock`, pbat/core/pBat_Run.c, up to the execution of each line (`Model/Run.lean`), and the command made of a
block, pbat/command/pBat_Block.c.
-/
namespace PBat

/-- `if (*lpBlockEnd == '&' || *lpBlockEnd == '|') lpBlockEnd ++;`, pbat/core/pBat_Run.c:540-543. -/
def skipOp : List Char → List Char
  | [] => []
  | c :: r => if c = '&' ∨ c = '|' then r else c :: r

theorem skipOp_length (s : List Char) : (skipOp s).length ≤ s.length := by
  cases s with
  | nil => simp [skipOp]
  | cons c r => simp only [skipOp]; split <;> simp

/-- The loop that looks for the end of a line, pbat/core/pBat_Run.c:533-546: the text from the end on.  `.ub`: the assertion of line 538 fails
(when it is compiled out, `NULL` is read).  The guard stands for the progress of the loop, which is proved (`rowEnd_eq`). -/
def rowEnd (s : List Char) : Res (List Char) :=
  match lineEnd false (skipBlanks s) with
  | .ok none => .ub
  | .ok (some t) =>
    match skipOp (skipOp t) with
    | [] => .ok []
    | c :: r => if c = '\n' ∨ c = ')' then .ok (c :: r) else if (c :: r).length < s.length then rowEnd (c :: r) else .hang
  | .ub => .ub
  | .hang => .hang
termination_by s.length

/-- The outer loop, pbat/core/pBat_Run.c:526-579: the lines given to `pBat_RunLine`.  Simplification: all lines are looked for first, in the
code each is run before the next is looked for, and none is when the block is left.  (The text of the block does not change meanwhile, it
has been copied.) -/
def blockLines (s : List Char) : Res (List (List Char)) :=
  match s with
  | [] => .ok []
  | c :: r =>
    match rowEnd (c :: r) with
    | .ok t =>
      if (t.drop 1).length < (c :: r).length then
        match blockLines (t.drop 1) with
        | .ok ls =>
          if skipAllBlanks (c :: r) = [] ∨ (skipAllBlanks (c :: r)).head? = some '\n' then .ok ls
          else .ok ((c :: r).take ((c :: r).length - t.length) :: ls)
        | .ub => .ub
        | .hang => .hang
      else .hang
    | .ub => .ub
    | .hang => .hang
termination_by s.length
decreasing_by simpa using ‹(t.drop 1).length < (c :: r).length›

/-- `pBat_CmdBlock`, pbat/command/pBat_Block.c:43-92: the lines that are run, `none` is `PBAT_INVALID_TOP_BLOCK`.  The copy of the block made
by `pBat_GetNextBlockEs` is not used by the code and not modelled. -/
def cmdBlock (s : List Char) : Res (Option (List (List Char))) :=
  match nextBlock s with
  | .ok (b, e) =>
    if e.head? ≠ some ')' then .ok none
    else if skipBlanks (e.drop 1) ≠ [] then .ok none
    else match blockLines b with
      | .ok ls => .ok (some ls)
      | .ub => .ub
      | .hang => .hang
  | .ub => .ub
  | .hang => .hang

end PBat
