import Verif.Model.ForOpts
import Verif.Model.Args
import Verif.Model.Block
/-
The line of a FOR command, pbat/command/pBat_For.c.
-/
namespace PBat

/-- The kinds of loops, pbat/command/pBat_For.h. -/
inductive ForKind
  | simple
  | f
  | l
  | r
  | d
deriving DecidableEq, Repr

/-- The comparisons of pbat/command/pBat_For.c:115-129. -/
def forSwitch (p : List Char) : Option ForKind :=
  if stricmp p ['/', 'F'] = 0 then some .f
  else if stricmp p ['/', 'L'] = 0 then some .l
  else if stricmp p ['/', 'R'] = 0 then some .r
  else if stricmp p ['/', 'D'] = 0 then some .d
  else none

/-- What is read of a FOR line: the kind of loop, the options, the directory, the variable, the set, and the text of the commands. -/
structure ForLoop where
  kind : ForKind
  opts : ForOpts
  dir : List Char
  var : Char
  set : List Char
  code : List Char
deriving DecidableEq

/-- The ends of `pBat_CmdFor` before a loop is run: the help, `PBAT_EXPECTED_MORE`, `PBAT_UNEXPECTED_ELEMENT`,
`PBAT_SPECIAL_VAR_NON_ASCII`, `PBAT_ARGUMENT_NOT_BLOCK`, an error of `pBat_ForMakeInfo`; or the loop. -/
inductive ForOut
  | help
  | more
  | unexpected
  | badVar
  | noBlock
  | badOption
  | run (l : ForLoop)
deriving DecidableEq

/-- `pBat_GetNextBlock`, pbat/core/pBat_Args.c:112-140: the text of the block and the text from its end on. -/
def nextBlock (s : List Char) : Res (List Char × List Char) := do
  let t := skipBlanks s
  let e ← blockEnd t
  let b := if t.head? = some '(' then t.drop 1 else t
  match e with
  | some e => .ok (b.take (b.length - e.length), e)
  | none => .ok (b.takeWhile (· != '\n'), b.dropWhile (· != '\n'))

/-- `pBat_GetBlockLine`, pbat/core/pBat_Args.c:142-157. -/
def blockLine (s : List Char) : Res (Option (List Char × List Char)) := do
  let e ← lineEnd false s
  let b := if s.head? = some '(' then s.drop 1 else s
  match e with
  | some e => .ok (some (b.take (b.length - e.length), e))
  | none => .ok none

/-- `pBat_GetNextBlockEs`, pbat/core/pBat_Args.c:159-176, `ex` is `pBat_DelayedExpand`.  The pointer returned is one character behind the end of
the block: if the block ends with the text it is behind the terminator, and the caller reads there. -/
def nextBlockEs (ex : List Char → Res (List Char)) (s : List Char) : Res (List Char × List Char) := do
  let b ← nextBlock s
  let t ← ex b.1
  match b.2 with
  | [] => .ub
  | _ :: rest => .ok (t, rest)

/-- The commands of the loop, pbat/command/pBat_For.c:281-304: their text, `none` when other text follows.  `pBat_GetBlockLine` may return
`NULL`, which is read. -/
def forCode (s : List Char) : Res (Option (List Char)) := do
  let t := skipBlanks s
  let b ← if t.head? = some '(' then (nextBlock t >>= fun x => pure (some x)) else blockLine t
  match b with
  | none => .ub
  | some (code, rest) =>
    if skipBlanks (if rest.head? = some ')' then rest.drop 1 else rest) = [] then .ok (some code) else .ok none

/-- The loop `while (*lpToken == ' ' || *lpToken == '\t')`, pbat/command/pBat_For.c:242. -/
def skipTabs : List Char → List Char
  | [] => []
  | c :: r => if c = ' ' ∨ c = '\t' then skipTabs r else c :: r

/-- The word `DO`, pbat/command/pBat_For.c:263-279: the loop, with the text behind the word as its commands. -/
def forDoWord (ex : List Char → Res (List Char)) (l : ForLoop) (s : List Char) : Res ForOut := do
  let p ← nextParam stdDelims ex s
  match p with
  | none => .ok .more
  | some (p, rest) => if stricmp p ['D', 'O'] ≠ 0 then .ok .unexpected else .ok (.run { l with code := rest })

/-- The commands of the loop, pbat/command/pBat_For.c:281-314, from the text behind `DO`. -/
def forFinish : ForOut → Res ForOut
  | .run l => do
    let c ← forCode l.code
    match c with
    | none => .ok .unexpected
    | some code => .ok (.run { l with code := '(' :: (code ++ [')']) })
  | o => .ok o

/-- From `DO` on, pbat/command/pBat_For.c:263-314. -/
def forDo (ex : List Char → Res (List Char)) (l : ForLoop) (s : List Char) : Res ForOut := forDoWord ex l s >>= forFinish

/-- From `IN` on, pbat/command/pBat_For.c:221-260; `d` is what is done from `DO` on. -/
def forIn (d : ForLoop → List Char → Res ForOut) (ex : List Char → Res (List Char)) (l : ForLoop) (s : List Char) : Res ForOut := do
  let p ← nextParam stdDelims ex s
  match p with
  | none => .ok .more
  | some (p, rest) =>
    if stricmp p ['I', 'N'] ≠ 0 then .ok .more
    else if (skipTabs rest).head? ≠ some '(' then .ok .noBlock
    else do
      let b ← nextBlockEs ex (skipTabs rest)
      d { l with set := b.1 } b.2

/-- The variable named by a parameter that begins with a percent sign, pbat/command/pBat_For.c:157-175. -/
def forVar (p : List Char) : Option Char :=
  let v := p.drop 1
  let v := if v.head? = some '%' then v.drop 1 else v
  match v with
  | [] => none
  | c :: _ => if localName c then some c else none

/-- A parameter in front of the variable, pbat/command/pBat_For.c:178-213: what it makes of the loop; `.inr` is an error. -/
def forOption (l : ForLoop) (p : List Char) : Res (ForLoop ⊕ ForOut) :=
  if l.kind = .simple ∨ l.kind = .l ∨ l.dir ≠ [] then .ok (.inr .unexpected)
  else if l.kind = .f then do
    let o ← forMakeInfo l.opts p
    match o with
    | none => .ok (.inr .badOption)
    | some o => .ok (.inl { l with opts := o })
  else .ok (.inl { l with dir := p })

/-- The parameters up to the variable, pbat/command/pBat_For.c:142-218, `p` being `lpParam` and `s` the text behind it. -/
def forParams (d : ForLoop → List Char → Res ForOut) (ex : List Char → Res (List Char)) (l : ForLoop) (p s : List Char) : Res ForOut :=
  if p.head? = some '%' then
    match forVar p with
    | none => .ok .badVar
    | some c => forIn d ex { l with var := c } s
  else
    match forOption l p with
    | .ok (.inr e) => .ok e
    | .ok (.inl l') =>
      match nextParam stdDelims ex s with
      | .ok none => .ok .more
      | .ok (some (p', s')) => if s'.length < s.length then forParams d ex l' p' s' else .hang
      | .ub => .ub
      | .hang => .hang
    | .ub => .ub
    | .hang => .hang
termination_by s.length

/-- `pBat_CmdFor` up to the choice of the loop, pbat/command/pBat_For.c:82-304; `s` is the text behind the word FOR. -/
def forLine (d : ForLoop → List Char → Res ForOut) (ex : List Char → Res (List Char)) (k : ForKind) (s : List Char) : Res ForOut :=
  match nextParam stdDelims ex s with
  | .ok none => .ok .more
  | .ok (some (p, s')) =>
    match forSwitch p with
    | some k' => if s'.length < s.length then forLine d ex k' s' else .hang
    | none =>
      if p = ['/', '?'] then .ok .help
      else forParams d ex ⟨k, forDefaults, [], ' ', [], []⟩ p s'
  | .ub => .ub
  | .hang => .hang
termination_by s.length

/-- The line of a FOR command, pbat/command/pBat_For.c:82-304. -/
def cmdFor (ex : List Char → Res (List Char)) (s : List Char) : Res ForOut := forLine (forDo ex) ex .simple s

/-- The same up to `DO`, with the text behind it as the commands, pbat/command/pBat_For.c:82-279. -/
def forHead (ex : List Char → Res (List Char)) (s : List Char) : Res ForOut := forLine (forDoWord ex) ex .simple s

end PBat
