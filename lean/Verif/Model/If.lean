import Verif.Model.Args
import Verif.Model.LibC
import Verif.Model.Num
import Verif.Model.Replace
import Verif.Spec.Num
/-
Model of the conditions of IF: `pbat/command/pBat_If.c` and `pbat/command/pBat_IfExp.c`.
-/
namespace PBat

/-- A `double`. -/
inductive Dbl where
  | nan
  | negInf
  | fin (q : Rat)
  | posInf
  deriving DecidableEq

/-- `a == b` on `double`. -/
def Dbl.eq : Dbl → Dbl → Bool
  | .nan, _ => false
  | _, .nan => false
  | .fin a, .fin b => a == b
  | .negInf, .negInf => true
  | .posInf, .posInf => true
  | _, _ => false

/-- `a < b` on `double`. -/
def Dbl.lt : Dbl → Dbl → Bool
  | .nan, _ => false
  | _, .nan => false
  | .fin a, .fin b => decide (a < b)
  | .negInf, .negInf => false
  | .negInf, _ => true
  | .fin _, .posInf => true
  | _, _ => false

/-- `a <= b` on `double`. -/
def Dbl.le (a b : Dbl) : Bool := a.lt b || a.eq b

/-- Rounding of a magnitude to 53 significant bits, half to even. -/
def roundMag (m : Nat) : Nat :=
  if m < 2 ^ 53 then m
  else
    let k := m.log2 - 52
    let q := m / 2 ^ k
    let r := m % 2 ^ k
    (if 2 ^ k < 2 * r ∨ (2 * r = 2 ^ k ∧ q % 2 = 1) then q + 1 else q) * 2 ^ k

/-- The conversion of a `long` to `double`. -/
def ofLong (n : Int) : Dbl :=
  .fin (if n < 0 then ((-(roundMag (-n).toNat : Int) : Int) : Rat) else ((roundMag n.toNat : Int) : Rat))

/-- `strtod` as the C standard specifies it: any implementation that reads decimal fractions representable exactly,
reads `nan`, and converts nothing when the text cannot begin a number. -/
structure Strtod where
  conv : List Char → Dbl × List Char
  conv_decimal : ∀ t q rest, Spec.Decimal t q → Spec.Exact q →
    (∀ c, rest.head? = some c → c ∈ [' ', '\t', ',', ';', '\n']) → conv (t ++ rest) = (.fin q, rest)
  conv_nan : conv ['n', 'a', 'n'] = (.nan, [])
  conv_none : ∀ c r, c ∉ " \t\n\r0123456789+-.nNiI".toList → c.toNat ≠ 11 → c.toNat ≠ 12 → conv (c :: r) = (.fin 0, c :: r)

/-- `pBat_GetCmpValue`, pbat/command/pBat_If.c:435-460; `none` for the return value -1. -/
def cmpValue (S : Strtod) (s : List Char) : Option Dbl :=
  let (n, e) := strtol0 s
  if skipBlanks e = [] then some (ofLong n)
  else
    let (d, e) := S.conv s
    if skipBlanks e = [] then some d else none

/-- The operators, pbat/command/pBat_If.c:508-560: `rhs` is the first operand, `lhs` the second. -/
def cmpOp (op : List Char) (rhs lhs : Dbl) : Option Bool :=
  if stricmp op "EQU".toList = 0 ∨ stricmp op "==".toList = 0 then some (rhs.eq lhs)
  else if stricmp op "NEQ".toList = 0 then some (!rhs.eq lhs)
  else if stricmp op "GEQ".toList = 0 then some (lhs.le rhs)
  else if stricmp op "GTR".toList = 0 then some (lhs.lt rhs)
  else if stricmp op "LEQ".toList = 0 then some (rhs.le lhs)
  else if stricmp op "LSS".toList = 0 then some (rhs.lt lhs)
  else none

/-- `pBat_PerformExtendedTest`, pbat/command/pBat_If.c:476-563, `none` for -1.  `comp_type` is always 0, so the
comparisons with a tolerance are dead code. -/
def extTest (S : Strtod) (op p1 p2 : List Char) (ci : Bool) : Option Bool :=
  match cmpValue S p1, cmpValue S p2 with
  | some rhs, some lhs => cmpOp op rhs lhs
  | _, _ => cmpOp op (ofLong (if ci then stricmp p1 p2 else strcmp p1 p2)) (.fin 0)

/-- What the tests of IF look at: the expansion of parameters, the variables defined, the files existing, the value
of `%ERRORLEVEL%`, and the C library. -/
structure IfWorld where
  ex : List Char → Res (List Char)
  defined : List Char → Bool
  exist : List Char → Bool
  level : List Char
  strtod : Strtod

/-! ### Bracketed expressions -/

/-- `pBat_IfExp_ExecuteTest`, pbat/command/pBat_IfExp.c:167-223 without the leading NOT: `none` for -1. -/
def execPlain (w : IfWorld) (ci : Bool) : List (List Char) → Option Bool
  | [] => none
  | t :: r =>
    if stricmp t "DEFINED".toList = 0 then
      match r with
      | [x] => some (w.defined x)
      | _ => none
    else if stricmp t "EXIST".toList = 0 then
      match r with
      | [x] => some (w.exist x)
      | _ => none
    else if stricmp t "ERRORLEVEL".toList = 0 then
      match r with
      | [x] => some (stricmp x w.level = 0)
      | _ => none
    else
      match r with
      | [op, b] => extTest w.strtod op t b ci
      | _ => none

/-- `pBat_IfExp_ExecuteTest`, pbat/command/pBat_IfExp.c:167-223; without any element a null pointer is read. -/
def execTest (w : IfWorld) (ci : Bool) : List (List Char) → Res (Option Bool)
  | [] => .ub
  | t :: r =>
    if stricmp t "NOT".toList = 0 then .ok ((execPlain w ci r).map (!·))
    else .ok (execPlain w ci (t :: r))

/-- The walk of `pBat_IfExp_SuppressOneBracketPair`, pbat/command/pBat_IfExp.c:302-323: whether `count` reaches 0
before the last element. -/
def closesEarly : Nat → List (List Char) → Bool
  | _, [] => false
  | count, t :: r =>
    let count := if t = ['['] then count + 1 else if t = [']'] then count - 1 else count
    if count = 0 ∧ r ≠ [] then true else closesEarly count r

/-- `pBat_IfExp_SuppressOneBracketPair`, pbat/command/pBat_IfExp.c:289-338: `none` when it returns 0.  The first and
the last element are removed; with a single element it is used after being freed. -/
def suppressOne : List (List Char) → Res (Option (List (List Char)))
  | [] => .ok none
  | t :: r =>
    if t ≠ ['['] then .ok none
    else if r = [] then .ub
    else if closesEarly 1 r then .ok none
    else .ok (some r.dropLast)

/-- `pBat_IfExp_SuppressBrackets`, pbat/command/pBat_IfExp.c:283-287. -/
def suppress (l : List (List Char)) : Res (List (List Char)) :=
  match suppressOne l with
  | .ok none => .ok l
  | .ok (some r) => if r.length < l.length then suppress r else .hang
  | .ub => .ub
  | .hang => .hang
termination_by l.length

/-- The loop of `pBat_IfExp_Cut`, pbat/command/pBat_IfExp.c:357-379, `level` being that after the elements passed. -/
def cutLoop (tok : List Char) (level : Int) : List (List Char) → Option (List (List Char) × List (List Char))
  | [] => none
  | t :: r =>
    if t = ['['] then (cutLoop tok (level + 1) r).map fun x => (t :: x.1, x.2)
    else if t = [']'] then (cutLoop tok (level - 1) r).map fun x => (t :: x.1, x.2)
    else if level = 0 ∧ stricmp t tok = 0 then some ([], r)
    else (cutLoop tok level r).map fun x => (t :: x.1, x.2)

/-- `pBat_IfExp_Cut`, pbat/command/pBat_IfExp.c:340-382: when the first element is the token itself it is used after
being freed. -/
def ifCut (tok : List Char) : List (List Char) → Res (Option (List (List Char) × List (List Char)))
  | [] => .ub
  | t :: r =>
    if stricmp t tok = 0 then .ub
    else .ok ((cutLoop tok (if t = ['['] then 1 else 0) r).map fun x => (t :: x.1, x.2))

/-- The tree built by the parser; a child of type `IFEXP_NODE_OPS` and an expression of type `IFEXP_NONE` are
evaluated in the same way. -/
inductive IfExp where
  | test (ts : List (List Char))
  | node (isAnd : Bool) (l r : IfExp)
  deriving DecidableEq

/-- `pBat_IfExp_FillChild`, pbat/command/pBat_IfExp.c:265-281 from the result of `pBat_IfExp_Parse`: when that
fails, what it left of the elements becomes a test. -/
def toChild : IfExp ⊕ List (List Char) → IfExp
  | .inl e => e
  | .inr ts => .test ts

/-- `pBat_IfExp_Parse`, pbat/command/pBat_IfExp.c:226-263, with `pBat_IfExp_FillChild` for the children; a failure
(`NULL`) comes with what is left of the elements.  Allocation failures are not modelled. -/
def parseExp (line : List (List Char)) : Res (IfExp ⊕ List (List Char)) :=
  match suppress line with
  | .ok [] => .ok (.inr [])
  | .ok (t :: ts) =>
    match ifCut "AND".toList (t :: ts) with
    | .ok (some (l, r)) =>
      if r = [] then .ok (.inr l)
      else
        match suppress l, suppress r with
        | .ok l', .ok r' =>
          if l'.length < line.length ∧ r'.length < line.length then do
            let a ← parseExp l'
            let b ← parseExp r'
            pure (.inl (.node true (toChild a) (toChild b)))
          else .hang
        | _, _ => .ub
    | .ok none =>
      match ifCut "OR".toList (t :: ts) with
      | .ok (some (l, r)) =>
        if r = [] then .ok (.inr l)
        else
          match suppress l, suppress r with
          | .ok l', .ok r' =>
            if l'.length < line.length ∧ r'.length < line.length then do
              let a ← parseExp l'
              let b ← parseExp r'
              pure (.inl (.node false (toChild a) (toChild b)))
            else .hang
          | _, _ => .ub
      | .ok none => .ok (.inl (.test (t :: ts)))
      | .ub => .ub
      | .hang => .hang
    | .ub => .ub
    | .hang => .hang
  | .ub => .ub
  | .hang => .hang
termination_by line.length

/-- `pBat_IfExp_Evaluate`, pbat/command/pBat_IfExp.c:95-165.  The `else` of line 142 belongs to the inner `if`: after
a true first operand of AND, the variable `res2` is read before it is set.  `u` is what is found there, `none`
for undefined behaviour. -/
def evalExp (w : IfWorld) (ci : Bool) (u : Option Int) : IfExp → Res (Option Bool)
  | .test ts => execTest w ci ts
  | .node isAnd l r =>
    match evalExp w ci u l with
    | .ok (some res1) =>
      if isAnd ∧ res1 = false then .ok (some false)
      else if isAnd ∧ u = none then .ub
      else if isAnd ∧ u ≠ some 0 then .ok (some true)
      else
        match evalExp w ci u r with
        | .ok (some res2) => .ok (some (if isAnd then res1 && res2 else res1 || res2))
        | r => r
    | r => r

/-- The loop of `pBat_IfExp_ParseLine`, pbat/command/pBat_IfExp.c:384-417: the elements and the rest of the line
(`none` for `NULL`). -/
def ifWords (ex : List Char → Res (List Char)) (level : Int) (line : List Char) :
    Res (List (List Char) × Option (List Char)) :=
  match nextParam stdDelims ex line with
  | .ok none => .ok ([], none)
  | .ok (some (t, rest)) =>
    let level := if t = ['['] then level + 1 else if t = [']'] then level - 1 else level
    if level ≤ 0 then .ok ([t], some rest)
    else if rest.length < line.length then
      match ifWords ex level rest with
      | .ok (ts, r) => .ok (t :: ts, r)
      | .ub => .ub
      | .hang => .hang
    else .hang
  | .ub => .ub
  | .hang => .hang
termination_by line.length

/-! ### The command -/

/-- How the condition of an IF ends: a value and the rest of the line, or an error message. -/
inductive IfCond where
  | value (b : Bool) (rest : List Char)
  | error
  deriving DecidableEq

/-- `pBat_IfExp_Compute`, pbat/command/pBat_IfExp.c:58-93, and what the command makes of it (lines 205-220): when the
line ended inside the expression, the null pointer returned is read afterwards. -/
def ifBrackets (w : IfWorld) (ci : Bool) (u : Option Int) (line : List Char) : Res IfCond :=
  match ifWords w.ex 0 line with
  | .ok (ts, rest) =>
    match parseExp ts with
    | .ok (.inr _) => .ok .error
    | .ok (.inl e) =>
      match evalExp w ci u e with
      | .ok none => .ok .error
      | .ok (some b) =>
        match rest with
        | some rest => .ok (.value b rest)
        | none => .ub
      | .ub => .ub
      | .hang => .hang
    | .ub => .ub
    | .hang => .hang
  | .ub => .ub
  | .hang => .hang

/-- The comparison `a==b`, pbat/command/pBat_If.c:224-252: `l` and `r` are the texts around the first `==`.  With an
empty left text the byte before the buffer is read; the first byte of the right text is skipped without looking. -/
def ifOld (w : IfWorld) (ci neg : Bool) (l r rest : List Char) : Res IfCond :=
  match l.reverse with
  | [] => .ub
  | c :: cs =>
    if c = '"' then
      match r with
      | [] => .ub
      | _ :: r => .ok (match extTest w.strtod "==".toList cs.reverse r ci with
        | some b => .value (b != neg) rest
        | none => .error)
    else .ok (match extTest w.strtod "==".toList l r ci with
      | some b => .value (b != neg) rest
      | none => .error)

/-- The comparisons, pbat/command/pBat_If.c:198-308.  The negation is not applied to the result of the second form
of comparisons nor to bracketed expressions. -/
def ifCompare (w : IfWorld) (ci neg : Bool) (u : Option Int) (param : List Char) : Res IfCond :=
  match nextParam stdDelims w.ex param with
  | .ok none => .ok .error
  | .ok (some (a, next)) =>
    if a = ['['] then ifBrackets w ci u param
    else
      match strstr ['=', '='] a with
      | some i => ifOld w ci neg (a.take i) (a.drop (i + 2)) next
      | none =>
        match nextParam stdDelims w.ex next with
        | .ok none => .ok .error
        | .ok (some (op, next)) =>
          match nextParam stdDelims w.ex next with
          | .ok none => .ok .error
          | .ok (some (b, next)) => .ok (match extTest w.strtod (op.take 10) a b ci with
            | some b => .value b next
            | none => .error)
          | .ub => .ub
          | .hang => .hang
        | .ub => .ub
        | .hang => .hang
  | .ub => .ub
  | .hang => .hang

/-- One test on an object, pbat/command/pBat_If.c:128-196: the object is cut to `FILENAME_MAX - 1` characters. -/
def ifObject (w : IfWorld) (neg : Bool) (test : List Char → Bool) (next : List Char) : Res IfCond :=
  match nextParam stdDelims w.ex next with
  | .ok none => .ok .error
  | .ok (some (x, rest)) => .ok (.value (test (x.take 4095) != neg) rest)
  | .ub => .ub
  | .hang => .hang

/-- The keywords EXIST, DEFINED and ERRORLEVEL, pbat/command/pBat_If.c:104-196; `param` is the line before the
parameter `arg`, `next` after. -/
def ifKeyword (w : IfWorld) (ci neg : Bool) (u : Option Int) (param arg next : List Char) : Res IfCond :=
  if stricmp arg "EXIST".toList = 0 then if ci then .ok .error else ifObject w neg w.exist next
  else if stricmp arg "DEFINED".toList = 0 then if ci then .ok .error else ifObject w neg w.defined next
  else if stricmp arg "ERRORLEVEL".toList = 0 then
    if ci then .ok .error else ifObject w neg (fun x => stricmp x w.level = 0) next
  else ifCompare w ci neg u param

/-- The keyword NOT, pbat/command/pBat_If.c:85-102. -/
def ifNot (w : IfWorld) (ci : Bool) (u : Option Int) (param arg next : List Char) : Res IfCond :=
  if stricmp arg "NOT".toList = 0 then
    match nextParam stdDelims w.ex next with
    | .ok none => .ok .error
    | .ok (some (arg', next')) => ifKeyword w ci true u next (arg'.take 10) next'
    | .ub => .ub
    | .hang => .hang
  else ifKeyword w ci false u param arg next

/-- The condition of `pBat_CmdIf`, pbat/command/pBat_If.c:43-310, `line` being the text after `IF`.  The keywords are
read into a buffer of 11 characters.  The option `/?` is not modelled. -/
def ifCond (w : IfWorld) (u : Option Int) (line : List Char) : Res IfCond :=
  match nextParam stdDelims w.ex line with
  | .ok none => ifCompare w false false u line
  | .ok (some (arg, next)) =>
    if stricmp (arg.take 10) "/i".toList = 0 then
      match nextParam stdDelims w.ex next with
      | .ok none => .ok .error
      | .ok (some (arg', next')) => ifNot w true u next (arg'.take 10) next'
      | .ub => .ub
      | .hang => .hang
    else ifNot w false u line (arg.take 10) next
  | .ub => .ub
  | .hang => .hang

end PBat
