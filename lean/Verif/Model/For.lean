import Verif.Model.Num
import Verif.Model.Expand
/-
Model of the loops of FOR: `pbat/command/pBat_For.c`.
-/
namespace PBat

/-- The bounds of FOR /L, pbat/command/pBat_For.c:499-535: at most three parameters, each a whole number; those missing are 0.
`none` is `PBAT_FOR_BAD_INPUT_SPECIFIER`.  The parameters are those `pBat_GetNextParameterEs` extracts (C14). -/
def forLBounds (params : List (List Char)) : Option (Int × Int × Int) :=
  if params.length > 3 then none
  else if params.all (fun p => (strtol0 p).2 == []) then
    let v (i : Nat) : Int := match params[i]? with
      | some p => longToInt (strtol0 p).1
      | none => 0
    some (v 0, v 1, v 2)
  else none

/-- The loop of `pBat_CmdForL`, pbat/command/pBat_For.c:538-557.  `body` runs the commands with the variable set to the given
text; its second result is `bAbortCommand`.  The loop runs for `fuel` iterations at most, `hang` if it does not end then. -/
def forLLoop {σ : Type} (body : List Char → σ → Res (σ × Bool)) (inc stop : Int) : Nat → Int → σ → Res σ
  | 0, _, _ => .hang
  | fuel + 1, i, st =>
    if i ≤ stop then do
      let r ← body (intText i) st
      if r.2 then pure r.1
      else if -2 ^ 31 ≤ i + inc ∧ i + inc < 2 ^ 31 then forLLoop body inc stop fuel (i + inc) r.1
      else .ub
    else .ok st

/-- `pBat_CmdForL`, pbat/command/pBat_For.c:487-562: `none` if the input is refused. -/
def forL {σ : Type} (body : List Char → σ → Res (σ × Bool)) (fuel : Nat) (params : List (List Char)) (st : σ) : Option (Res σ) :=
  (forLBounds params).map fun (start, inc, stop) => forLLoop body inc stop fuel start st

/-- The search of `pBat_ForGetToken`, pbat/command/pBat_For.c:1077-1110, with `strpbrk` (C library): the places
`lpBeginToken` and `lpEndToken`, each as the text from it on. `pos` is `iTokenPos`, `s` is `lpToken`. -/
def forTokenScan (delims : List Char) (b e : Nat) (pos : Nat) (begin : Option (List Char)) (s : List Char) :
    Option (List Char) × Option (List Char) :=
  match h : strpbrk (delims.contains ·) s with
  | (_, []) => (if pos = b ∧ begin = none then some s else begin, none)
  | ([], _ :: r) => forTokenScan delims b e pos begin r
  | (_ :: _, d :: r) =>
    let begin' := if pos = b then some s else begin
    if pos = e then (if pos = b ∧ begin' = none then some s else begin', some (d :: r))
    else forTokenScan delims b e (pos + 1) begin' r
termination_by s.length
decreasing_by
  all_goals
    have := strpbrk_length (delims.contains ·) s
    rw [h] at this
    simp at this
    omega

/-- `pBat_ForGetToken`, pbat/command/pBat_For.c:1048-1138: the text of the token described by `tok` (an element of `lpToken`):
the first token in the high word, the last in the low word. -/
def forGetToken (delims : List Char) (tok : Nat) (line : List Char) : List Char :=
  match forTokenScan delims (tok / 2 ^ 16 % 2 ^ 16) (tok % 2 ^ 16) 1 none line with
  | (some b, some e) => b.take (b.length - e.length)
  | (some b, none) => b
  | (none, _) => []

/-- The operator of a token chunk: `PBAT_FOR_TOKEN_LIST` and `PBAT_FOR_TOKEN_CAT`, pbat/command/pBat_For.h:147-148. -/
inductive TokOp
  | list
  | cat
deriving DecidableEq

/-- The variables of `pBat_ForMakeTokens`, pbat/command/pBat_For.c:776-787; `table` is `infos->lpToken`. -/
structure TokSt where
  start : Int := -1
  stop : Int := -1
  op : Option TokOp := none
  last : Int := 0
  prev : Char := '\x00'
  i : Nat := 0
  table : List Nat
deriving DecidableEq

/-- `TOKENINFO_NB_MAX`, pbat/command/pBat_For.h:26. -/
def tokenMax : Nat := 96

/-- `infos->lpToken[i]|=TOHIGH(start)+TOLOW(end); i++;` after the check for room, e.g. pbat/command/pBat_For.c:862-868.
The shift is undefined if its result is no `int`. -/
def tokWrite (st : TokSt) (start stop : Int) : Res (Option TokSt) :=
  if st.i ≥ tokenMax then .ok none
  else if 0 ≤ start ∧ start < 2 ^ 15 then
    .ok (some { st with table := st.table.modify st.i (· ||| (start.toNat * 2 ^ 16 + (stop % 2 ^ 16).toNat)), i := st.i + 1 })
  else .ub

/-- The loop over `start` to `end`, pbat/command/pBat_For.c:895-907, for `n` tokens. -/
def tokWriteList (st : TokSt) (start : Int) : Nat → Res (Option TokSt)
  | 0 => .ok (some st)
  | n + 1 => do
    match ← tokWrite st start start with
    | none => pure none
    | some st' => tokWriteList st' (start + 1) n

/-- The end of a chunk, pbat/command/pBat_For.c:852-921. -/
def tokFinish (st : TokSt) : Res (Option TokSt) := do
  match st.op with
  | none =>
    match ← tokWrite st st.start st.start with
    | none => pure none
    | some st' => pure (some { st' with last := st.start, op := none, start := -1, stop := -1 })
  | some op =>
    if st.stop = -1 then pure none
    else
      match ← (match op with
        | .cat => tokWrite st st.start st.stop
        | .list => tokWriteList st st.start (st.stop - st.start + 1).toNat) with
      | none => pure none
      | some st' => pure (some { st' with last := st.stop, op := none, start := -1, stop := -1 })

/-- The character `*`, pbat/command/pBat_For.c:953-995. -/
def tokStar (st : TokSt) : Res (Option TokSt) := do
  if st.start = -1 then pure (some { st with start := st.last + 1, stop := 0xFFFF, op := some .cat })
  else match st.op with
    | none =>
      match ← tokWrite st st.start st.start with
      | none => pure none
      | some st' => pure (some { st' with start := st.start + 1, op := some .cat, stop := 0xFFFF })
    | some .list => pure none
    | some .cat => pure (some { st with stop := 0xFFFF })

/-- Skipping spaces and tabs, pbat/command/pBat_For.c:792-793. -/
def skipSpTab (s : List Char) : List Char := s.dropWhile (fun c => c == ' ' || c == '\t')

/-- The number at the start of a part, pbat/command/pBat_For.c:796-831: `none` is `bad_token`. -/
def tokNumber (st : TokSt) (p : List Char) : Option TokSt :=
  if (strtol0 p).2.length = p.length then
    if st.prev = '*' ∧ p ≠ [] ∧ p.head? ≠ some '*' ∧ p.head? ≠ some ',' then none else some st
  else if st.prev = '*' then none
  else if st.op ≠ none then
    if st.start = -1 then none else some { st with stop := longToInt (strtol0 p).1 }
  else some { st with start := longToInt (strtol0 p).1 }

/-- `pBat_ForMakeTokens`, pbat/command/pBat_For.c:774-1008: `none` if the text is refused. -/
def tokLoop (st : TokSt) (p : List Char) : Res (Option TokSt) :=
  match tokNumber st (skipSpTab p) with
  | none => .ok none
  | some st =>
    match h : skipSpTab (strtol0 (skipSpTab p)).2 with
    | [] => if st.start = -1 then .ok none else tokFinish st
    | c :: r =>
      if st.start = -1 ∧ c ≠ '*' then .ok none
      else
        have : r.length < p.length := by
          have h1 : (skipSpTab p).length ≤ p.length := (List.dropWhile_suffix _).length_le
          have h2 : (skipSpTab (strtol0 (skipSpTab p)).2).length ≤ (strtol0 (skipSpTab p)).2.length := (List.dropWhile_suffix _).length_le
          have h3 : (strtol0 (skipSpTab p)).2.length ≤ (skipSpTab p).length := strtolVal_length _
          rw [h] at h2
          simp at h2
          omega
        let st := { st with prev := c }
        if c = ',' then
          match tokFinish st with
          | .ok (some st') => tokLoop st' r
          | .ok none => .ok none
          | .ub => .ub
          | .hang => .hang
        else if c = '-' ∨ c = '.' then
          if st.stop ≠ -1 then .ok none else tokLoop { st with op := some (if c = '-' then .list else .cat) } r
        else if c = '*' then
          match tokStar st with
          | .ok (some st') => tokLoop st' r
          | .ok none => .ok none
          | .ub => .ub
          | .hang => .hang
        else .ok none
termination_by p.length

/-- The table before the options are read, pbat/command/pBat_For.c:91-101. -/
def tokInit : List Nat := (1 * 2 ^ 16 + 1) :: List.replicate 95 0

/-- `pBat_ForMakeTokens` on the table of a FOR command: the selections made (`lpToken` up to `iTokenNb`). -/
def forMakeTokens (table : List Nat) (p : List Char) : Res (Option (List Nat)) := do
  match ← tokLoop { table := table } p with
  | none => pure none
  | some st => pure (some (st.table.take st.i))

/-- The name following a variable name, pbat/command/pBat_For.c:1037-1043. -/
def nextVar (c : Char) : Char := if c.toNat + 1 < 0x80 then Char.ofNat (c.toNat + 1) else '!'

/-- `pBat_ForSplitTokens`, pbat/command/pBat_For.c:1015-1046. -/
def forSplitTokens (delims : List Char) (line : List Char) : List Nat → Char → LocalBlock → LocalBlock
  | [], _, b => b
  | t :: ts, c, b => forSplitTokens delims line ts (nextVar c) (setLocalVar b c (some (forGetToken delims t line)))

/-- `pBat_ForVarUnassign`, pbat/command/pBat_For.c:1140-1153, for the `n` remaining variables; `c` is `cVarName+i`, converted
to `char` in the call (above 0x7F it is no variable name). -/
def forUnassign (b : LocalBlock) (c : Nat) : Nat → LocalBlock
  | 0 => b
  | n + 1 =>
    let b' := if c < 0x80 then setLocalVar b (Char.ofNat c) none else b
    if c / 0x80 % 2 = 1 then b' else forUnassign b' (c + 1) n

/-- The loop of `pBat_CmdForSimple` over the values of its list, pbat/command/pBat_For.c:345-480; `body` runs the commands
(`pBat_RunParsedLine`), its second result is `bAbortCommand`.  Simplification: wildcards in the list have been replaced by the
files they match. -/
def forSimpleLoop {σ : Type} (c : Char) (body : LocalBlock × σ → Res ((LocalBlock × σ) × Bool)) :
    List (List Char) → LocalBlock × σ → Res (LocalBlock × σ)
  | [], st => .ok st
  | v :: vs, st => do
    let r ← body (setLocalVar st.1 c (some v), st.2)
    if r.2 then pure r.1 else forSimpleLoop c body vs r.1

/-- `pBat_CmdForSimple`, pbat/command/pBat_For.c:345-480. -/
def forSimple {σ : Type} (c : Char) (body : LocalBlock × σ → Res ((LocalBlock × σ) × Bool)) (vs : List (List Char))
    (st : LocalBlock × σ) : Res (LocalBlock × σ) := do
  let st' ← forSimpleLoop c body vs st
  pure (setLocalVar st'.1 c none, st'.2)

/-- `pBat_CmdForL` with its variable, pbat/command/pBat_For.c:538-562. -/
def forLCmd {σ : Type} (c : Char) (body : LocalBlock × σ → Res ((LocalBlock × σ) × Bool)) (fuel : Nat)
    (params : List (List Char)) (st : LocalBlock × σ) : Res (LocalBlock × σ) := do
  match forL (fun v st => body (setLocalVar st.1 c (some v), st.2)) fuel params st with
  | none => pure st
  | some r =>
    let st' ← r
    pure (setLocalVar st'.1 c none, st'.2)

/-- The part of `FORINFO` FOR /F uses, pbat/command/pBat_For.h:42-74; `tokens` is `lpToken` up to `iTokenNb`. -/
structure ForInfo where
  delims : List Char
  eol : List Char
  skip : Int
  var : Char
  tokens : List Nat

/-- The lines of a text given to FOR /F, `pBat_ForGetStringInput`, pbat/command/pBat_For.c:1410-1432. -/
def stringLines (s : List Char) : List (List Char) :=
  match s with
  | [] => []
  | c :: r =>
    let l := (c :: r).takeWhile (· != '\n')
    let rest := (c :: r).dropWhile (· != '\n')
    l :: stringLines rest.tail
termination_by s.length
decreasing_by
  have h : ((c :: r).dropWhile (· != '\n')).length ≤ (c :: r).length := (List.dropWhile_suffix _).length_le
  simp only [List.length_tail, List.length_cons] at h ⊢
  omega

/-- Whether a line is skipped for its first character, pbat/command/pBat_For.c:591-593: `strchr` finds the terminator too. -/
def eolLine (eol line : List Char) : Bool :=
  eol != [] && (match line with | [] => true | c :: _ => eol.contains c)

/-- The loop of `pBat_CmdForF`, pbat/command/pBat_For.c:578-611, over the lines of the input (`bAbortCommand` is false
before). -/
def forFLoop {σ : Type} (info : ForInfo) (body : LocalBlock × σ → Res ((LocalBlock × σ) × Bool)) :
    Int → List (List Char) → LocalBlock × σ → Res (LocalBlock × σ)
  | _, [], st => .ok st
  | skip, l :: ls, st =>
    if skip > 0 then forFLoop info body (skip - 1) ls st
    else if eolLine info.eol l then forFLoop info body skip ls st
    else do
      let r ← body (forSplitTokens info.delims l info.tokens info.var st.1, st.2)
      if r.2 then pure r.1 else forFLoop info body skip ls r.1

/-- `pBat_CmdForF`, pbat/command/pBat_For.c:563-619, with `pBat_ForVarCheckAssignment`, 1155-1177 (which tests the first variable
only): `none` if the variable is in use. -/
def forF {σ : Type} (info : ForInfo) (body : LocalBlock × σ → Res ((LocalBlock × σ) × Bool)) (lines : List (List Char))
    (st : LocalBlock × σ) : Option (Res (LocalBlock × σ)) :=
  if info.tokens ≠ [] ∧ localName info.var ∧ (st.1 info.var).isSome then none
  else some do
    let st' ← forFLoop info body info.skip lines st
    pure (forUnassign st'.1 info.var.toNat info.tokens.length, st'.2)

end PBat
