import Verif.Model.Var
import Verif.Model.Quotes
/-
Model of local (argument and loop) variables and of line expansion,
`pbat/core/pBat_Var.c` and `pbat/core/pBat_Expand.c`.
-/
namespace PBat

/-- `pBat_TestLocalVarName`, pbat/core/pBat_Var.c:48-59. -/
def localName (c : Char) : Bool := 0x20 < c.toNat && c.toNat < 0x80

/-- A block of local variables, `LOCAL_VAR_BLOCK`, pbat/core/pBat_Var.c:31-46: one optional text per name. -/
abbrev LocalBlock := Char → Option (List Char)

/-- `pBat_SetLocalVar`, pbat/core/pBat_Var.c:331-365. -/
def setLocalVar (b : LocalBlock) (c : Char) (v : Option (List Char)) : LocalBlock :=
  if localName c then fun x => if x = c then v else b x else b

/-- The modifiers of `%~`, pbat/core/pBat_Var.c:400. -/
def isModifier (c : Char) : Bool := "fdnpxzta".toList.contains c

/-- The descending search for a variable named by one of the modifiers read,
pbat/core/pBat_Var.c:415-435. -/
def backtrack (b : LocalBlock) (flags : List Char) : Nat → Option Nat
  | 0 => none
  | i + 1 => match flags[i]? with
    | some f => if (b f).isSome then some i else backtrack b flags i
    | none => backtrack b flags i

/-- `strrchr(s, q)`: the text before the last `q`, the whole text if there is none. C library. -/
def beforeLast (q : Char) (s : List Char) : List Char :=
  if q ∈ s then ((s.reverse.dropWhile (· != q)).drop 1).reverse else s

/-- Removing the surrounding quotes, pbat/core/pBat_Var.c:466-482.  When the only quote is the first
character, `strrchr` ends the text there, and the copy loop then moves down the characters stored after it. -/
def stripQuotes (s : List Char) : List Char :=
  match s with
  | [] => []
  | q :: r =>
    if q == '"' || q == '\'' then
      if q ∈ r then beforeLast q r else r
    else q :: r

/-- The text given for modifiers `fl` and content `v`, pbat/core/pBat_Var.c:462-592.  Simplification: what the
modifiers make of the (unquoted) content (paths, sizes, dates) is the parameter `mods`. -/
def tildeText (mods : List Char → Char → List Char → List Char) (fl : List Char) (n : Char) (v : List Char) :
    List Char :=
  if fl = [] then stripQuotes v else mods fl n (stripQuotes v)

/-- The variable named right after the modifiers, pbat/core/pBat_Var.c:407-409, 438-439. -/
def directVar (b : LocalBlock) (mods : List Char → Char → List Char → List Char) (fl r : List Char) :
    Option (List Char × Nat) :=
  match r[fl.length]? with
  | none => none
  | some n => if localName n then (b n).map fun v => (tildeText mods fl n v, fl.length + 2) else none

/-- `pBat_GetLocalVar`, pbat/core/pBat_Var.c:368-596: the text and the number of characters of `lpName`
consumed, `none` for `NULL`. -/
def getLocalVar (b : LocalBlock) (mods : List Char → Char → List Char → List Char) (s : List Char) :
    Option (List Char × Nat) :=
  match s with
  | [] => none
  | c :: r =>
    if c != '~' then
      if localName c then (b c).map (·, 1) else none
    else
      let flags := (r.take 16).takeWhile isModifier
      match directVar b mods flags r with
      | some x => some x
      | none =>
        match backtrack b flags flags.length with
        | none => none
        | some i =>
          match flags[i]? with
          | none => none
          | some n => (b n).map fun v => (tildeText mods (flags.take i) n v, i + 2)

/-- First characters of an argument reference, pbat/core/pBat_Expand.c:99-102. -/
def argStart (c : Char) : Bool := ('0' ≤ c && c ≤ '9') || c == '*' || c == '+' || c == '~'

/-- `pBat_ExpandVar`, pbat/core/pBat_Expand.c:69-153.  `esc` is `pBat_UnEscape` when delayed expansion is on and
the delimiter is `!`, the identity otherwise; `args` is `pBat_GetLocalVar(lpvArguments, ...)`, `getv` is
`pBat_GetVar`. -/
def expandVar (d : Char) (esc : List Char → List Char) (args : List Char → Option (List Char × Nat))
    (getv : List Char → Res (Option (List Char))) (s : List Char) : Res (List Char) :=
  match hs : searchTok (· == d) s with
  | none => .ok (esc s)
  | some i =>
    let pre := esc (s.take i)
    let body := s.drop (i + 1)
    if body.head? = some d then do
      let t ← expandVar d esc args getv (body.drop 1)
      pure (pre ++ d :: t)
    else
      let a := if d == '%' && (body.head?.any argStart) then args body else none
      match a with
      | some (v, k) => do
        let t ← expandVar d esc args getv (body.drop k)
        pure (pre ++ v ++ t)
      | none =>
        match searchTok (· == d) body with
        | some j => do
          let v ← getv (body.take j)
          let t ← expandVar d esc args getv (body.drop (j + 1))
          pure (pre ++ v.getD [] ++ t)
        | none => do
          let t ← expandVar d esc args getv body
          pure (pre ++ t)
termination_by s.length
decreasing_by
  all_goals have := searchTok_lt _ _ _ hs
  all_goals simp only [List.length_drop]
  all_goals omega

/-- `pBat_ReplaceVars`, pbat/core/pBat_Expand.c:155-163. -/
def replaceVars (args : LocalBlock) (mods : List Char → Char → List Char → List Char)
    (getv : List Char → Res (Option (List Char))) (s : List Char) : Res (List Char) :=
  expandVar '%' id (getLocalVar args mods) getv s

/-- `pBat_ExpandSpecialVar`, pbat/core/pBat_Expand.c:31-67. -/
def expandSpecial (args : List Char → Option (List Char × Nat)) (s : List Char) : List Char :=
  match hs : searchTok (· == '%') s with
  | none => s
  | some i =>
    let body := s.drop (i + 1)
    match args body with
    | some (v, k) => s.take i ++ v ++ expandSpecial args (body.drop k)
    | none => s.take (i + 1) ++ expandSpecial args body
termination_by s.length
decreasing_by
  all_goals have := searchTok_lt _ _ _ hs
  all_goals simp only [List.length_drop]
  all_goals omega

/-- `pBat_DelayedExpand`, pbat/core/pBat_Expand.c:166-184. -/
def delayedExpand (delayed : Bool) (loops : LocalBlock) (mods : List Char → Char → List Char → List Char)
    (getv : List Char → Res (Option (List Char))) (s : List Char) : Res (List Char) :=
  let t := expandSpecial (getLocalVar loops mods) s
  if delayed then expandVar '!' unEscape (fun _ => none) getv t else .ok (unEscape t)

end PBat
