import Verif.Model.Replace
import Verif.Model.LibC
import Verif.Model.Str
/-
Model of variable references, `pbat/core/pBat_Var.c`.

`cont` says which bytes are UTF-8 continuation bytes (`(c & 0xC0) == 0x80`); a build without
`PBAT_USE_LIBCU8` is the case where no byte is.  Growable strings are represented by their text (C01).
-/
namespace PBat

/-- `pBat_CountU8Chars`, pbat/core/pBat_Var.c:64-74 (`strlen` when `cont` is never true). -/
def countU8 (cont : Char → Bool) : List Char → Nat
  | [] => 0
  | c :: cs => (if cont c then 0 else 1) + countU8 cont cs

/-- `while ((*ch & 0xC0) == 0x80) ch++;`, pbat/core/pBat_Var.c:82-83. -/
def skipCont (cont : Char → Bool) : List Char → List Char
  | [] => []
  | c :: cs => if cont c then skipCont cont cs else c :: cs

/-- `pBat_SkipU8Chars`, pbat/core/pBat_Var.c:76-87: the text then pointed to; stepping over the terminator is
undefined. -/
def skipU8 (cont : Char → Bool) : Nat → List Char → Res (List Char)
  | 0, s => .ok s
  | _ + 1, [] => .ub
  | n + 1, _ :: cs => skipU8 cont n (skipCont cont cs)

/-- `int` arithmetic: undefined when the result does not fit. -/
def int32 (i : Int) : Res Int := if -2 ^ 31 ≤ i ∧ i < 2 ^ 31 then .ok i else .ub

/-- The two pointers `lpVarContent` and `lpZeroPos` and the copy between them,
pbat/core/pBat_Var.c:261-262, 289-290, 304: `a` and `b` are converted to `size_t`. -/
def cutU8 (cont : Char → Bool) (s : List Char) (a b : Int) : Res (List Char) := do
  let z ← skipU8 cont (toSize b) s
  let c ← skipU8 cont (toSize a) s
  pure (c.take (c.length - z.length))

/-- The substring rule, pbat/core/pBat_Var.c:218-301. -/
def substrVar (cont : Char → Bool) (s : List Char) (b l : Int) : Res (List Char) := do
  let n := toInt32 (countU8 cont s)
  let b ←
    if b < 0 then do
      if 0 < l then do
        let t ← int32 (n + b)
        if l ≤ t then pure t else pure b
      else if b ≤ l then int32 (n + b)
      else pure b
    else pure b
  if b < 0 ∨ n < b then pure []
  else if 0 < l then do
    let e ← int32 (b + l)
    if e ≤ n then cutU8 cont s b e else pure []
  else do
    let m ← int32 (-l)
    if m ≤ n - b then cutU8 cont s b (n + l) else pure []

/-- `isspace` in the C locale. C library. -/
def isSpace (c : Char) : Bool :=
  c == ' ' || c == '\t' || c == '\n' || c == '\r' || c.toNat == 11 || c.toNat == 12

/-- Digits of `atol`. C library. -/
def digits (acc : Nat) : List Char → Nat
  | [] => acc
  | c :: cs => if '0' ≤ c ∧ c ≤ '9' then digits (acc * 10 + (c.toNat - '0'.toNat)) cs else acc

/-- The value read by `atol`: blanks, an optional sign, digits. C library. -/
def atolVal (s : List Char) : Int :=
  match s.dropWhile isSpace with
  | '-' :: r => -(digits 0 r : Int)
  | '+' :: r => digits 0 r
  | r => digits 0 r

/-- `atol` assigned to an `int`: undefined outside `long` (C library), then reduced modulo 2^32. -/
def atolInt (s : List Char) : Res Int :=
  let v := atolVal s
  if -2 ^ 63 ≤ v ∧ v < 2 ^ 63 then .ok (toInt32 (v % 2 ^ 32).toNat) else .ub

/-- The names answered without the environment, pbat/core/pBat_Var.c:181-209. -/
def builtinNames : List (List Char) :=
  ["CD".toList, "ERRORLEVEL".toList, "=EXITCODEASCII".toList, "RANDOM".toList, "DATE".toList, "TIME".toList]

/-- The content of a variable, pbat/core/pBat_Var.c:181-216; `bi` gives the text of the built-in names. -/
def varContent (bi : List Char → List Char) (env : List Char → Option (List Char)) (name : List Char) :
    Option (List Char) :=
  if builtinNames.any (fun b => stricmp name b = 0) then some (bi name) else env name

/-- `pBat_GetVar`, pbat/core/pBat_Var.c:124-320; `none` for the return value `FALSE`. -/
def getVar (cont : Char → Bool) (bi : List Char → List Char) (env : List Char → Option (List Char))
    (name : List Char) : Res (Option (List Char)) :=
  match strpbrk (· == ':') name with
  | (_, []) => .ok (varContent bi env name)
  | (var, _ :: rest) =>
    match strpbrk (· == '=') rest with
    | (pat, _ :: rep) =>
      match varContent bi env var with
      | none => .ok none
      | some s => do
        let ps ← replacePieces pat rep s
        pure (some ps.flatten)
    | (_, []) =>
      match rest with
      | '~' :: r =>
        match strpbrk (· == ',') r with
        | (b, l) => do
          let len ← match l with
            | [] => pure 0
            | _ :: l => atolInt l
          let beg ← atolInt b
          match varContent bi env var with
          | none => pure none
          | some s => do
            let t ← substrVar cont s beg len
            pure (some t)
      | _ => .ok (some ((varContent bi env var).getD rest))

end PBat
