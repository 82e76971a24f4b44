import Verif.Model.For
import Verif.Model.Args
/-
The simple FOR, pbat/command/pBat_For.c.
-/
namespace PBat

/-- The delimiters of the simple FOR, pbat/command/pBat_For.c:314-315. -/
def simpleDelims (c : Char) : Bool := [' ', ',', ':', ';', '\n', '\t', '"'].contains c

/-- The next chunk of the set and `lpToken` behind it (`none` for `NULL`), pbat/command/pBat_For.c:358-394;
`none` if there is no further chunk. -/
def nextChunk (token : Option (List Char)) : Option (List Char × Option (List Char)) :=
  match token with
  | none => none
  | some t =>
    if skipBlanks t = [] then none
    else match paramEnd simpleDelims (skipBlanks t) 0 with
      | none => some (skipBlanks t, none)
      | some e => some ((skipBlanks t).take e, some ((skipBlanks t).drop e))

/-- Removing the quotes of a chunk with wildcards, pbat/command/pBat_For.c:398-419: `strrchr(...)` and a check that it is the
last character. -/
def chunkExpr (x : List Char) : List Char :=
  match x with
  | '"' :: r => if r.getLast? = some '"' then r.dropLast else r
  | _ => x

/-- `pBat_CmdForSimple`, pbat/command/pBat_For.c:345-459, on the text of the set: `files` are the names `pBat_GetMatchFileList` finds for
an expression, without directories and made relative again (421-441); `body` runs the commands, its second result is
`bAbortCommand`; `fuel` bounds the number of chunks taken. -/
def forSimpleRun {σ : Type} (c : Char) (files : List Char → List (List Char))
    (body : LocalBlock × σ → Res ((LocalBlock × σ) × Bool)) : Nat → Option (List Char) → LocalBlock × σ →
    Res ((LocalBlock × σ) × Bool)
  | 0, _, _ => .hang
  | fuel + 1, token, st =>
    match nextChunk token with
    | none => .ok (st, false)
    | some (x, token') =>
      if x.any (fun d => d == '*' || d == '?') then
        match fileLoop (files (chunkExpr x)) st with
        | .ok (st', true) => .ok (st', true)
        | .ok (st', false) => forSimpleRun c files body fuel token' st'
        | .ub => .ub
        | .hang => .hang
      else
        match body (setLocalVar st.1 c (some x), st.2) with
        | .ok (st', true) => .ok (st', true)
        | .ok (st', false) => forSimpleRun c files body fuel token' st'
        | .ub => .ub
        | .hang => .hang
where
  /-- The names found, pbat/command/pBat_For.c:362-374 and 444-455. -/
  fileLoop : List (List Char) → LocalBlock × σ → Res ((LocalBlock × σ) × Bool)
    | [], st => .ok (st, false)
    | f :: fs, st =>
      match body (setLocalVar st.1 c (some f), st.2) with
      | .ok (st', true) => .ok (st', true)
      | .ok (st', false) => fileLoop fs st'
      | .ub => .ub
      | .hang => .hang

/-- The whole command, pbat/command/pBat_For.c:345-466: the variable is removed at the end. -/
def forSimpleCmd {σ : Type} (c : Char) (files : List Char → List (List Char))
    (body : LocalBlock × σ → Res ((LocalBlock × σ) × Bool)) (fuel : Nat) (set : List Char) (st : LocalBlock × σ) :
    Res (LocalBlock × σ) := do
  let r ← forSimpleRun c files body fuel (some set) st
  pure (setLocalVar r.1.1 c none, r.1.2)

end PBat
