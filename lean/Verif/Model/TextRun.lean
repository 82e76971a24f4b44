import Verif.Model.Program
import Verif.Model.IfRun
/-
Model of a running script whose lines contain blocks: as `Model/Program.lean`, but the lines of a block are found in its text when the block
is run (`Model/BlockRun.lean`), and each is analysed when it is run, as `pbat/core/pBat_Run.c` and `pbat/command/pBat_Block.c` do.

Simplifications: those of `Model/Program.lean` and of `Model/BlockRun.lean`; a text beginning with `(` is always the block command; the text
behind the words IF, FOR and CALL is given by `cls`.
-/
namespace PBat.Prog
open PBat

variable {ν W τ : Type}

/-- The command `pBat_RunCommand` looks for: the text without blanks and `@` at its beginning, pbat/core/pBat_Run.c:401-403. -/
def Host.textCmd (h : Host ν W τ) (t : List Char) : Cmd (List Char) ν :=
  if (skipAllBlanks t).head? = some '(' then .simple (skipAllBlanks t) else h.cls (skipAllBlanks t)

/-- `pBat_RunLine` up to the call of `pBat_RunParsedLine`, pbat/core/pBat_Run.c:304-320. -/
def Host.textNodes (h : Host ν W τ) (w : W) (u : List Char) : List (Node (List Char) ν) :=
  if (skipBlanks u).head? = some ':' then []
  else match parseLine (h.delay w) (h.full w) u with
    | .ok (some l) => l.map fun x => (x.1, toRedir x.2.1, h.textCmd x.2.2)
    | _ => []

/-- The loop of `pBat_RunBlock` over the lines, pbat/core/pBat_Run.c:526-579; `rl` is `pBat_RunLine`. -/
def runTexts (rl : List Char → St (W × Script) τ → Option (St (W × Script) τ)) :
    List (List Char) → St (W × Script) τ → Option (St (W × Script) τ)
  | [], st => some st
  | l :: ls, st =>
    match rl l st with
    | none => none
    | some st1 =>
      if st1.abort = .level ∨ st1.abort = .block then some st1
      else runTexts rl ls { st1 with abort := .no }

mutual
/-- `pBat_RunLine`, pbat/core/pBat_Run.c:304-325.  The number bounds the depth of nested runs; `none` also stands for undefined behaviour in
the search for the lines of a block (C112). -/
def Host.lineText (h : Host ν W τ) : Nat → List Char → St (W × Script) τ → Option (St (W × Script) τ)
  | 0, _, _ => none
  | n + 1, u, st => (runNodes h.base (h.cmdText n) (h.textNodes st.world.1 u) st).map (·.2)

/-- `pBat_RunCommand`, pbat/core/pBat_Run.c:387-482, with `pBat_CmdBlock`, pbat/command/pBat_Block.c:43-92, `pBat_RunBlock`,
pbat/core/pBat_Run.c:485-588, `pBat_CmdIf`, pbat/command/pBat_If.c:43-434, `pBat_CmdFor`,
pbat/command/pBat_For.c:85-359, and CALL, pbat/command/pBat_Call.c:356-397.  The values of a loop are found before its first iteration. -/
def Host.cmdText (h : Host ν W τ) : Nat → Node (List Char) ν → List (Node (List Char) ν) → St (W × Script) τ →
    Option (List (Node (List Char) ν) × Bool × St (W × Script) τ)
  | 0, _, _, _ => none
  | n + 1, (ty, r, .simple t), rest, st =>
    if t.head? = some '(' then
      match cmdBlock t with
      | .ok none => some ((ty, r, .simple t) :: rest, true, { st with err := 27 })
      | .ok (some ls) =>
        let lock := st.io.lockState
        match runTexts (h.lineText n) ls { st with io := st.io.setLock true } with
        | none => none
        | some st => some ((ty, r, .simple t) :: rest, true, { st with io := st.io.setLock lock })
      | _ => none
    else
      let o := h.base.exec t st.world st.err st.io.streams
      some ((ty, r, .simple t) :: rest, true, { st with world := o.1, err := o.2.1, abort := o.2.2 })
  | n + 1, (ty, r, .iff t yes no), rest, st =>
    let out := h.cond t st.world st.err
    match out.1 with
    | .error code => some ((ty, r, .iff t yes no) :: rest, false, { st with err := code })
    | .unknown => some ((ty, r, .iff t yes no) :: rest, true, { st with err := -1 })
    | _ =>
      match (if out.1 = .yes then ifYes out.2 else ifNo out.2) with
      | .ok (.line c) =>
        match runNodes h.base (h.cmdText n) ((ty, r, .simple c) :: rest) st with
        | none => none
        | some (nodes, st) => some (nodes, false, { st with err := 0 })
      | .ok (.alone c) =>
        match runNodes h.base (h.cmdText n) [(.none, {}, .simple c)] st with
        | none => none
        | some (_, st) => some ((ty, r, .iff t yes no) :: rest, false, { st with err := 0 })
      | .ok .nothing => some ((ty, r, .iff t yes no) :: rest, false, { st with err := 0 })
      | .ok .unexpected => some ((ty, r, .iff t yes no) :: rest, false, { st with err := 4 })
      | _ => none
  | n + 1, (ty, r, .loop xs [[(ty', r', .simple t)]]), rest, st =>
    match h.forBehind t st.world with
    | .error code => some ((ty, r, .loop xs [[(ty', r', .simple t)]]) :: rest, false, { st with err := code })
    | .ok u =>
      match forCode u with
      | .ok none => some ((ty, r, .loop xs [[(ty', r', .simple t)]]) :: rest, false, { st with err := 4 })
      | .ok (some c) =>
        let v := h.forValues t st.world
        match v.2 with
        | .error code => some ((ty, r, .simple (wrapBlock c)) :: rest, false, { st with world := v.1, err := code })
        | .ok vs =>
          match runLoop h.base (runNodes h.base (h.cmdText n)) vs ((ty, r, .simple (wrapBlock c)) :: rest) { st with world := v.1 } with
          | none => none
          | some (nodes, st) => some (nodes, false, { st with err := 0, world := h.base.setVar none st.world })
      | _ => none
  | n + 1, (ty, r, .call i), rest, st =>
    match h.base.enter i st.world with
    | .error code => some ((ty, r, .call i) :: rest, true, { st with err := code })
    | .ok x =>
      let lock := st.io.lockState
      match h.runText n { st with world := x, io := st.io.setLock true } with
      | none => none
      | some st' => some ((ty, r, .call i) :: rest, true,
          { st' with abort := .no, io := st'.io.setLock lock, world := h.base.leave st.world st'.world })
  | n + 1, node, rest, st => runCmd h.base (n + 1) node rest st

/-- `pBat_RunBatch`, pbat/core/pBat_Run.c:52-107.  The number also bounds the lines run. -/
def Host.runText (h : Host ν W τ) : Nat → St (W × Script) τ → Option (St (W × Script) τ)
  | 0, _ => none
  | n + 1, st =>
    match getLine (h.expand st.world.1) st.world.2 with
    | .ok (.line u, sc) =>
      match h.lineText n u { st with world := (h.echo u st.world.1, sc) } with
      | none => none
      | some st1 => if st1.abort = .level then some st1 else h.runText n { st1 with abort := .no }
    | _ => some st
end


end PBat.Prog
