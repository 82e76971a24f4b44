import Verif.Model.Env
import Verif.Model.Args
import Verif.Model.Replace
/-
Model of SET without arithmetic, `pbat/command/pBat_Set.c:148-360`.

Simplifications: the input is the list of the lines `pBat_EsGet` returns (C04) and not a terminal; memory allocation succeeds; the
addresses of the name given and of its copy are the parameters `addr` and `cpy`.
-/
namespace PBat

/-- What a SET command leaves: the environment, what it writes on the standard output, the input left and the status. -/
structure SetOut where
  env : EnvBuf
  out : List Char
  input : List (List Char)
  status : Int
  deriving DecidableEq, Repr

/-- `strrchr(s, '"')`: the text before the last quote. C library. -/
def cutLastQuote (s : List Char) : Option (List Char) :=
  if '"' ∈ s then some ((s.reverse.dropWhile (· != '"')).drop 1).reverse else none

/-- The quotes of the simple form, pbat/command/pBat_Set.c:262-272. -/
def setQuotes : List Char → List Char
  | '"' :: t => (cutLastQuote t).getD ('"' :: t)
  | t => t

/-- `strchr(s, '=')` and the cut, pbat/command/pBat_Set.c:279-290 and 322-325. -/
def splitEq (s : List Char) : Option (List Char × List Char) :=
  if '=' ∈ s then some (s.takeWhile (· != '='), (s.dropWhile (· != '=')).drop 1) else none

/-- `pBat_CmdSetS`, pbat/command/pBat_Set.c:234-295: `none` when it returns 1, that is when there is no equal sign.  `ex` is
`pBat_DelayedExpand` (`pBat_GetEndOfLine`). -/
def setS (L : LibC) (ex : List Char → Res (List Char)) (env : EnvBuf) (addr cpy : Int) (line : List Char) (inh : Bool) :
    Res (Option EnvBuf) :=
  let s := skipBlanks line
  if s = [] then .ok (some env)
  else do
    let t ← ex s
    match splitEq (setQuotes t) with
    | none => .ok none
    | some (n, v) => do
      let e ← Res.ofOption (setEnvEx L env ⟨addr, n⟩ v cpy inh)
      .ok (some e)

/-- The text of SET /p, pbat/command/pBat_Set.c:307-319.  The buffer is empty when no parameter is found; a parameter made of a caret is
what it holds when the line ends after it, and holds no equal sign. -/
def setPText (ex : List Char → Res (List Char)) (line : List Char) : Res (List Char) :=
  let s := skipBlanks line
  if s.head? = some '"' then do
    let p ← nextParam stdDelims ex s
    .ok ((p.map Prod.fst).getD [])
  else ex s

/-- The answer, pbat/command/pBat_Set.c:330-341: nothing at the end of input. -/
def setAnswer : List (List Char) → List Char
  | [] => []
  | l :: _ => l.takeWhile (· != '\n')

/-- `pBat_CmdSetP`, pbat/command/pBat_Set.c:298-360. -/
def setP (L : LibC) (ex : List Char → Res (List Char)) (env : EnvBuf) (addr cpy : Int) (line : List Char)
    (input : List (List Char)) : Res SetOut := do
  let t ← setPText ex line
  match splitEq t with
  | none => .ok ⟨env, [], input, 4⟩
  | some (n, q) => do
    let a := setAnswer input
    let e ← Res.ofOption (setEnvEx L env ⟨addr, n⟩ a cpy false)
    .ok ⟨e, q, input.drop 1, if a = [] then 1 else 0⟩

/-- The listing, pbat/command/pBat_Set.c:199-210: the text written.  Without prefix every slot is written, a removed one through a null
pointer. -/
def setList (p : List Char) : List Var → Res (List (List Char))
  | [] => .ok []
  | v :: vs =>
    match v.name with
    | none =>
      if p = [] then .ub else setList p vs
    | some n =>
      if p = [] ∨ prefixI p n.txt = true then do
        let r ← setList p vs
        .ok ((n.txt ++ '=' :: v.content ++ ['\n']) :: r)
      else setList p vs

/-- The part of `pBat_CmdSet` that lists variables, pbat/command/pBat_Set.c:186-220. -/
def setShow (env : EnvBuf) (line : List Char) (input : List (List Char)) : Res SetOut := do
  let ls ← setList (skipBlanks line) env.vars
  .ok ⟨env, ls.flatten, input, if ls = [] then 4 else 0⟩

/-- After `pBat_CmdSetS`, pbat/command/pBat_Set.c:173-186. -/
def setDone (env : EnvBuf) (line : List Char) (input : List (List Char)) : Option EnvBuf → Res SetOut
  | none => setShow env line input
  | some e => .ok ⟨e, [], input, 0⟩

/-- `pBat_CmdSet`, pbat/command/pBat_Set.c:148-231; `line` is the text after `SET`.  The help and SET /a are the parameters `help` and
`seta`. -/
def cmdSet (L : LibC) (ex : List Char → Res (List Char)) (help : List Char) (seta : List Char → Res SetOut)
    (env : EnvBuf) (addr cpy : Int) (line : List Char) (input : List (List Char)) : Res SetOut := do
  let p ← nextParam stdDelims ex line
  match p with
  | none => setShow env line input
  | some (t, rest) =>
    let t := t.take 4
    if stricmp t "/?".toList = 0 then .ok ⟨env, help, input, 0⟩
    else if stricmp t "/a".toList = 0 then seta rest
    else if stricmp t "/p".toList = 0 then setP L ex env addr cpy rest input
    else if stricmp t "/x".toList = 0 then do
      let r ← setS L ex env addr cpy rest true
      setDone env line input r
    else do
      let r ← setS L ex env addr cpy line false
      setDone env line input r

end PBat
