import Verif.Model.Block
/-
Model of the splitting of lines into commands, `pbat/core/pBat_Parse.c`.
-/
namespace PBat

/-- The node types of `pbat/core/pBat_Parse.h` (`PARSED_STREAM_NODE_*`): how a command is linked to the previous one. -/
inductive NodeType where
  /-- `&`, also the first command. -/
  | none
  /-- `&&` -/
  | yes
  /-- `||` -/
  | not
  /-- `|` -/
  | pipe
  deriving DecidableEq, Repr

/-- The set `"|&"`. -/
def isOp (c : Char) : Bool := c == '|' || c == '&'

/-- The operator beginning with `c`, followed by `r`, and what follows it; pbat/core/pBat_Parse.c:372-402. -/
def opKind (c : Char) (r : List Char) : NodeType × List Char :=
  if c = '|' then
    if r.head? = some '|' then (.not, r.drop 1) else (.pipe, r)
  else
    if r.head? = some '&' then (.yes, r.drop 1) else (.none, r)

theorem opKind_length (c : Char) (r : List Char) : (opKind c r).2.length ≤ r.length := by
  unfold opKind
  split <;> split <;> simp

/-- Test of pbat/core/pBat_Parse.c:325-326. -/
def pastBlock (tok : List Char) : Option (List Char) → Bool
  | none => false
  | some b => tok.length ≤ b.length

/-- The loop of `pBat_ParseOperators`, pbat/core/pBat_Parse.c:323-405.  `cmd` is the text from `lpCh` to
`lpSearchBegin`, `search` the text from `lpSearchBegin` on, `block` is `lpNextBlock`, `ty` is `cNodeType`.  The character
before the token is looked for in the current command only: before it there is the beginning of the line, the NUL
written over an operator or its second character, none of them `>`.  `none` is the error return.  The guard
`length < length` stands for the progress of the loop, which is proved (`C15_total`). -/
def opsLoop (ty : NodeType) (cmd search : List Char) (block : Option (List Char)) :
    Res (Option (List (NodeType × List Char))) :=
  match h : searchOutQuotes isOp search with
  | none => .ok (some [(ty, cmd ++ search)])
  | some i =>
    match h2 : search.drop i with
    | [] => .ok (some [(ty, cmd ++ search)])
    | c :: r =>
      if pastBlock (c :: r) block then
        match blockEnd (block.getD []) with
        | .ok none => .ok none
        | .ok (some e) =>
          if e.length < search.length then
            opsLoop ty (cmd ++ search.take (search.length - e.length)) e (innerBegin (e.drop 1))
          else .hang
        | .ub => .ub
        | .hang => .hang
      else if c = '&' ∧ (cmd ++ search.take i).getLast? = some '>' then
        opsLoop ty (cmd ++ search.take i ++ [c]) r block
      else
        match opsLoop (opKind c r).1 [] (opKind c r).2 block with
        | .ok (some items) => .ok (some ((ty, cmd ++ search.take i) :: items))
        | .ok none => .ok none
        | .ub => .ub
        | .hang => .hang
termination_by search.length
decreasing_by
  · assumption
  · have := congrArg List.length h2
    simp at this
    omega
  · have h3 := congrArg List.length h2
    have := opKind_length c r
    simp at h3
    omega

/-- `pBat_ParseOperators`, pbat/core/pBat_Parse.c:294-416.  Simplification: allocation does not fail. -/
def parseOps (s : List Char) : Res (Option (List (NodeType × List Char))) := opsLoop .none [] s (blockBegin s)

end PBat
