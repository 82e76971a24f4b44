import Verif.Model.Num
import Verif.Model.Args
import Verif.Model.Env
/-
Model of arithmetic evaluation: `libfasteval/lib` and SET /A (`pbat/command/pBat_Set.c`).

The scanner and the parser are those flex and bison generate from `scanner.l` and `parser.y`: longest match, the first rule
among the longest; shift/reduce conflicts resolved by the precedence declarations.  Operations on `double` are given by a
`FloatLib`.  Simplifications: allocation does not fail; expressions contain no line feed.
-/
namespace PBat

/-- Binary operators, libfasteval/lib/parser.y:104-108. -/
inductive BOp where
  | bor | lor | xor | band | land | shr | shl | sub | add | mul | div | mod
  deriving DecidableEq, Repr

/-- Unary operators, libfasteval/lib/parser.y:175-197. -/
inductive UOp where
  | neg | not | compl
  deriving DecidableEq, Repr

/-- The operations on `double`; `toInt` is the conversion to `int`, `none` when it is undefined. -/
structure FloatOps (D : Type) where
  ofInt : Int → D
  add : D → D → D
  sub : D → D → D
  mul : D → D → D
  div : D → D → D
  fmod : D → D → D
  neg : D → D
  toInt : D → Option Int
  nan : D
  /-- `evaluate_function`, libfasteval/lib/fasteval.c:75-113. -/
  func : List Char → D → D
  /-- `lookup_variable`, libfasteval/lib/fasteval.c:115-143. -/
  const : List Char → D
  /-- `strtod` on the text of a number. -/
  read : List Char → D
  /-- `printf("%.14g")`. -/
  print : D → List Char

/-- The semantic values, libfasteval/lib/parser.y:91-99. -/
structure Num (D : Type) where
  isD : Bool
  i : Int
  d : D
  deriving DecidableEq, Repr

/-- The tokens, libfasteval/lib/parser.y:101-109.  The end of input is the end of the list. -/
inductive Tok (D : Type) where
  | num (x : Num D)
  | func (name : List Char)
  | var (name : List Char)
  | op (o : BOp)
  | bang
  | tilde
  | asg
  | lpar
  | rpar
  deriving DecidableEq, Repr

variable {D : Type}

/-! ### The scanner -/

/-- `nodelim`, libfasteval/lib/scanner.l:77. -/
def isNodelim (c : Char) : Bool := !"+-*%/&>~<|=()^\n\t ".toList.contains c

/-- `digit`, libfasteval/lib/scanner.l:72. -/
def isDigit (c : Char) : Bool := "0123456789".toList.contains c

/-- `constant`, libfasteval/lib/scanner.l:75. -/
def evalConstants : List (List Char) :=
  ["e", "log2e", "log10e", "ln2", "ln10", "pi", "pi_2", "pi_4", "1_pi", "2_pi", "2_sqrtpi", "sqrt2", "sqrt1_2"].map String.toList

/-- `function`, libfasteval/lib/scanner.l:76. -/
def evalFunctions : List (List Char) :=
  ["exp", "log", "sqrt", "sin", "cos", "tan", "cot", "sec", "csc", "asin", "acos", "atan", "acot", "asec", "acsc", "sinh",
   "cosh", "tanh", "coth", "sech", "csch", "asinh", "acosh", "atanh", "acoth", "asech", "acsch", "abs", "step", "delta",
   "nandelta", "erf"].map String.toList

/-- `integer`, libfasteval/lib/scanner.l:73. -/
def isInteger (w : List Char) : Bool :=
  (w != [] && w.all isDigit) ||
    match w with
    | '0' :: 'x' :: h => h != [] && h.all (fun c => "0123456789abcdefABCDEF".toList.contains c)
    | _ => false

/-- The exponent of `float`, libfasteval/lib/scanner.l:74: its length, 0 if there is none. -/
def exponentLen : List Char → Nat
  | e :: r =>
    if e = 'e' ∨ e = 'E' then
      match r with
      | c :: r' =>
        if c = '+' ∨ c = '-' then
          if (r'.takeWhile isDigit).length = 0 then 0 else (r'.takeWhile isDigit).length + 2
        else if (r.takeWhile isDigit).length = 0 then 0 else (r.takeWhile isDigit).length + 1
      | [] => 0
    else 0
  | [] => 0

/-- The longest match of `float`, libfasteval/lib/scanner.l:74: its length, 0 if there is none. -/
def floatLen (s : List Char) : Nat :=
  let a := s.takeWhile isDigit
  match s.dropWhile isDigit with
  | '.' :: r =>
    let b := r.takeWhile isDigit
    if a = [] ∧ b = [] then 0 else a.length + 1 + b.length + exponentLen (r.dropWhile isDigit)
  | _ => 0

/-- The token of a text of characters `nodelim`, libfasteval/lib/scanner.l:84-112. -/
def wordTok (L : FloatOps D) (w : List Char) : Tok D :=
  if isInteger w then .num { isD := false, i := (strtol0 w).1, d := L.ofInt (strtol0 w).1 }
  else if w ∈ evalConstants then .num { isD := true, i := 0, d := L.const w }
  else if w ∈ evalFunctions then .func w
  else .var w

/-- The rules of symbols, libfasteval/lib/scanner.l:80, 114-184: the token for a character that is no `nodelim`, and whether it
takes the next character, too.  A lone `>` or `<` matches no rule: it is printed and ignored, blanks are skipped. -/
def symTok (c : Char) (next : Option Char) : Option (Tok D) × Bool :=
  if c = '~' then (some .tilde, false)
  else if c = '>' then if next = some '>' then (some (.op .shr), true) else (none, false)
  else if c = '<' then if next = some '<' then (some (.op .shl), true) else (none, false)
  else if c = '&' then if next = some '&' then (some (.op .land), true) else (some (.op .band), false)
  else if c = '|' then if next = some '|' then (some (.op .lor), true) else (some (.op .bor), false)
  else if c = '^' then (some (.op .xor), false)
  else if c = '+' then (some (.op .add), false)
  else if c = '-' then (some (.op .sub), false)
  else if c = '*' then (some (.op .mul), false)
  else if c = '/' then (some (.op .div), false)
  else if c = '%' then (some (.op .mod), false)
  else if c = '(' then (some .lpar, false)
  else if c = ')' then (some .rpar, false)
  else if c = '=' then (some .asg, false)
  else (none, false)

/-- The scanner, libfasteval/lib/scanner.l:80-184. -/
def lex (L : FloatOps D) (s : List Char) : List (Tok D) :=
  match s with
  | [] => []
  | c :: r =>
    if isNodelim c then
      let w := (c :: r).takeWhile isNodelim
      if floatLen (c :: r) ≠ 0 ∧ w.length ≤ floatLen (c :: r) then
        .num { isD := true, i := 0, d := L.read ((c :: r).take (floatLen (c :: r))) } :: lex L (r.drop (floatLen (c :: r) - 1))
      else wordTok L w :: lex L (r.drop (w.length - 1))
    else (symTok c r.head?).1.toList ++ lex L (if (symTok (D := D) c r.head?).2 then r.drop 1 else r)
termination_by s.length
decreasing_by
  · simp; omega
  · simp; omega
  · split <;> simp <;> omega

/-! ### The semantic actions -/

/-- Signed arithmetic on `w` bits: undefined when the result does not fit. -/
def fitIn (w : Nat) (x : Int) : Option Int := if -2 ^ (w - 1) ≤ x ∧ x < 2 ^ (w - 1) then some x else none

/-- The operators on signed integers of `w` bits, undefined as the C standard says; the right shift of negative numbers is
arithmetic.  (`||` and `&&` are treated apart.) -/
def intOp (w : Nat) (o : BOp) (a b : Int) : Option Int :=
  match o with
  | .add => fitIn w (a + b)
  | .sub => fitIn w (a - b)
  | .mul => fitIn w (a * b)
  | .div => if b = 0 then none else fitIn w (a.tdiv b)
  | .mod => if b = 0 then none else (fitIn w (a.tdiv b)).map fun _ => a.tmod b
  | .band => some (BitVec.ofInt w a &&& BitVec.ofInt w b).toInt
  | .bor => some (BitVec.ofInt w a ||| BitVec.ofInt w b).toInt
  | .xor => some (BitVec.ofInt w a ^^^ BitVec.ofInt w b).toInt
  | .shl => if 0 ≤ b ∧ b < w ∧ 0 ≤ a then fitIn w (a * 2 ^ b.toNat) else none
  | .shr => if 0 ≤ b ∧ b < w then some (a / 2 ^ b.toNat) else none
  | .lor => some (if a ≠ 0 ∨ b ≠ 0 then 1 else 0)
  | .land => some (if a ≠ 0 ∧ b ≠ 0 then 1 else 0)

/-- The operators of `INT_FLOAT_OP` (and `%`) on `double`. -/
def floatOp (L : FloatOps D) : BOp → D → D → D
  | .add => L.add
  | .sub => L.sub
  | .mul => L.mul
  | .div => L.div
  | _ => L.fmod

/-- `(double)((int)(a).d op (int)(b).d)` of `INT_OP`, libfasteval/lib/parser.y:82-86: `||` and `&&` do not look at the second
operand when the first decides. -/
def intOfFloat (L : FloatOps D) (o : BOp) (a b : D) : Option D :=
  match L.toInt a with
  | none => none
  | some x =>
    if o = .lor ∧ x ≠ 0 then some (L.ofInt 1)
    else if o = .land ∧ x = 0 then some (L.ofInt 0)
    else match L.toInt b with
      | none => none
      | some y => (intOp 32 o x y).map L.ofInt

/-- Whether the action is `INT_OP`. -/
def BOp.bitwise : BOp → Bool
  | .add | .sub | .mul | .div | .mod => false
  | _ => true

/-- The actions of binary operators, libfasteval/lib/parser.y:67-87, 127-173. -/
def binAct (L : FloatOps D) (o : BOp) (a b : Num D) : Res (Num D) := do
  let isD := a.isD || b.isD
  let i ← if isD then pure 0 else Res.ofOption (intOp 64 o a.i b.i)
  let d ← if o.bitwise then Res.ofOption (intOfFloat L o a.d b.d) else pure (floatOp L o a.d b.d)
  pure { isD := isD, i := i, d := d }

/-- The actions of unary operators, libfasteval/lib/parser.y:175-197. -/
def unAct (L : FloatOps D) (u : UOp) (a : Num D) : Res (Num D) := do
  let i ← if a.isD then pure 0 else
    match u with
    | .neg => Res.ofOption (fitIn 64 (-a.i))
    | .not => pure (if a.i = 0 then 1 else 0)
    | .compl => pure (-a.i - 1)
  let d ← match u with
    | .neg => pure (L.neg a.d)
    | .not => (Res.ofOption (L.toInt a.d)).bind fun x => pure (L.ofInt (if x = 0 then 1 else 0))
    | .compl => (Res.ofOption (L.toInt a.d)).bind fun x => pure (L.ofInt (-x - 1))
  pure { isD := a.isD, i := i, d := d }

/-- `AS_DOUBLE`, libfasteval/lib/parser.y:58. -/
def asDouble (L : FloatOps D) (a : Num D) : D := if a.isD then a.d else L.ofInt a.i

/-- The action of function calls, libfasteval/lib/parser.y:198-202. -/
def callAct (L : FloatOps D) (f : List Char) (a : Num D) : Num D := { isD := true, i := 0, d := L.func f (asDouble L a) }

/-- The variables: `_pBat_SetGetVar`, `_pBat_SetSetVar` (pbat/command/pBat_Set.c:54-94) and `pBat_SetEnv`. -/
structure VarOps (σ D : Type) where
  get : σ → List Char → D
  set : σ → List Char → D → σ
  put : σ → List Char → List Char → σ

/-- The action of variables, libfasteval/lib/parser.y:210-215. -/
def varAct (L : FloatOps D) (d : D) : Res (Num D) := do
  let i ← Res.ofOption (L.toInt d)
  pure { isD := false, i := i, d := d }

/-! ### The parser -/

/-- The levels of libfasteval/lib/parser.y:104-108; the two last lines (`=` and unary operators) are above. -/
def codePrec : BOp → Nat
  | .bor | .lor | .xor => 0
  | .band | .land => 1
  | .shr | .shl => 2
  | .sub | .add => 3
  | .mul | .div | .mod => 4

/-- What the stack of the parser holds below the current expression: the left part of a rule. -/
inductive Frame (D : Type) where
  | bin (x : Num D) (o : BOp)
  | un (u : UOp)
  | asg (name : List Char)
  | par
  | call (f : List Char)

variable {σ : Type}

/-- Reductions while the rule on top of the stack has at least the precedence `lim` of the next token; `lim` is 0 when the next
token is no operator, as then nothing else is possible. -/
def reduce (L : FloatOps D) (V : VarOps σ D) (lim : Nat) (s : σ) : List (Frame D) → Num D → Res (σ × List (Frame D) × Num D)
  | .bin y o :: st, x =>
    if lim ≤ codePrec o then do
      let r ← binAct L o y x
      reduce L V lim s st r
    else .ok (s, .bin y o :: st, x)
  | .un u :: st, x => do
    let r ← unAct L u x
    reduce L V lim s st r
  | .asg n :: st, x => reduce L V lim (V.set s n (asDouble L x)) st x
  | st, x => .ok (s, st, x)

/-- The end of the stack: an expression is expected, or has been read, or a variable or function name has been read. -/
inductive PMode (D : Type) where
  | want
  | have (x : Num D)
  | var (name : List Char)
  | func (name : List Char)

/-- The outcome of one step: the end (`none` for a syntax error) or the stack. -/
abbrev PStep (σ D : Type) := (σ × Option (Num D)) ⊕ (σ × List (Frame D) × PMode D)

/-- Action for a token after a complete expression (`none`: end of input). -/
def haveStep (L : FloatOps D) (V : VarOps σ D) (s : σ) (st : List (Frame D)) (x : Num D) : Option (Tok D) → Res (PStep σ D)
  | some (.op o) => do
    let (s, st, x) ← reduce L V (codePrec o) s st x
    pure (.inr (s, .bin x o :: st, .want))
  | some .rpar => do
    let (s, st, x) ← reduce L V 0 s st x
    match st with
    | .par :: st => pure (.inr (s, st, .have x))
    | .call f :: st => pure (.inr (s, st, .have (callAct L f x)))
    | _ => pure (.inl (s, none))
  | none => do
    let (s, st, x) ← reduce L V 0 s st x
    match st with
    | [] => pure (.inl (s, some x))
    | _ => pure (.inl (s, none))
  | _ => do
    let (s, _, _) ← reduce L V 0 s st x
    pure (.inl (s, none))

/-- One step of the parser. -/
def parseStep (L : FloatOps D) (V : VarOps σ D) (s : σ) (st : List (Frame D)) (m : PMode D) (t : Option (Tok D)) : Res (PStep σ D) :=
  match m with
  | .want =>
    match t with
    | some (.num x) => .ok (.inr (s, st, .have x))
    | some (.func f) => .ok (.inr (s, st, .func f))
    | some (.var n) => .ok (.inr (s, st, .var n))
    | some .lpar => .ok (.inr (s, .par :: st, .want))
    | some (.op .sub) => .ok (.inr (s, .un .neg :: st, .want))
    | some .bang => .ok (.inr (s, .un .not :: st, .want))
    | some .tilde => .ok (.inr (s, .un .compl :: st, .want))
    | _ => .ok (.inl (s, none))
  | .func f =>
    match t with
    | some .lpar => .ok (.inr (s, .call f :: st, .want))
    | _ => .ok (.inl (s, none))
  | .var n =>
    match t with
    | some .asg => .ok (.inr (s, .asg n :: st, .want))
    | t => do
      let x ← varAct L (V.get s n)
      haveStep L V s st x t
  | .have x => haveStep L V s st x t

/-- The parser, libfasteval/lib/parser.y:101-216.  The result is `none` after a syntax error. -/
def parseToks (L : FloatOps D) (V : VarOps σ D) (s : σ) (st : List (Frame D)) (m : PMode D) : List (Tok D) → Res (σ × Option (Num D))
  | [] => do
    match ← parseStep L V s st m none with
    | .inl r => pure r
    | .inr (s, _, _) => pure (s, none)
  | t :: ts => do
    match ← parseStep L V s st m (some t) with
    | .inl r => pure r
    | .inr (s, st, m) => parseToks L V s st m ts

/-- `fasteval_evaluate`, libfasteval/lib/fasteval.c:41-69: the value and whether it is no integer (`fmode`); after a syntax
error the value is NAN and `fmode` is that of the last evaluation (`old`). -/
def evaluate (L : FloatOps D) (V : VarOps σ D) (old : Bool) (s : σ) (text : List Char) : Res (σ × D × Bool) := do
  match ← parseToks L V s [] .want (lex L text) with
  | (s, some x) => pure (s, asDouble L x, x.isD)
  | (s, none) => pure (s, L.nan, old)

/-! ### SET /A -/

/-- The operator before `=`, pbat/command/pBat_Set.c:443-524: the name of the variable read, the name of the variable set, the
operator and whether it is computed on `int` whatever the mode.  `none` for a plain assignment.  For `||=` and `&&=` the variable
is read before the first of the two characters is removed. -/
def assignOp (name : List Char) : Option (List Char × List Char × BOp × Bool) :=
  let n := name.dropLast
  match name.getLast? with
  | some '*' => some (adjustVarName n, adjustVarName n, .mul, false)
  | some '/' => some (adjustVarName n, adjustVarName n, .div, false)
  | some '+' => some (adjustVarName n, adjustVarName n, .add, false)
  | some '-' => some (adjustVarName n, adjustVarName n, .sub, false)
  | some '%' => some (adjustVarName n, adjustVarName n, .mod, false)
  | some '^' => some (adjustVarName n, adjustVarName n, .xor, true)
  | some '&' =>
    if n.getLast? = some '&' then some (adjustVarName n, n.dropLast, .land, true)
    else some (adjustVarName n, adjustVarName n, .band, true)
  | some '|' =>
    if n.getLast? = some '|' then some (adjustVarName n, n.dropLast, .lor, true)
    else some (adjustVarName n, adjustVarName n, .bor, true)
  | _ => none

/-- `OPERATE_INT`, `OPERATE` and the operations on `double`, pbat/command/pBat_Set.c:430-524: only `/` depends on `fmode`. -/
def assignVal (L : FloatOps D) (o : BOp) (onInt fmode : Bool) (a b : D) : Res D :=
  if onInt || (o == .div && !fmode) then Res.ofOption (intOfFloat L o a b) else .ok (floatOp L o a b)

/-- `pBat_CmdSetEval`, pbat/command/pBat_Set.c:381-546: the variables, the new value of the mode of the evaluator, and whether
the expression was accepted.  `text` is the parameter. -/
def setEval (L : FloatOps D) (V : VarOps σ D) (old : Bool) (s : σ) (text : List Char) : Res (σ × Bool × Bool) :=
  let t := skipBlanks text
  if '=' ∉ t then .ok (s, old, false)
  else do
    let name := t.takeWhile (· != '=')
    let (s, res, fmode) ← evaluate L V old s (t.drop (name.length + 1))
    match assignOp name with
    | none => pure (V.put s (text.take (text.length - t.length) ++ name) (L.print res), fmode, true)
    | some (rd, wr, o, onInt) => do
      let v ← assignVal L o onInt fmode (V.get s rd) res
      pure (V.put s (text.take (text.length - t.length) ++ wr) (L.print v), fmode, true)

/-- `pBat_CmdSetA`, pbat/command/pBat_Set.c:364-379: the expressions are separated by commas; the first one refused ends the
command. -/
def setA (L : FloatOps D) (V : VarOps σ D) (ex : List Char → Res (List Char)) (old : Bool) (s : σ) (line : List Char) : Res (σ × Bool × Bool) :=
  match nextParam (fun c => c == '"' || c == ',') ex line with
  | .ok none => .ok (s, old, true)
  | .ok (some (t, rest)) =>
    if rest.length < line.length then do
      match ← setEval L V old s t with
      | (s, fm, true) => setA L V ex fm s rest
      | (s, fm, false) => pure (s, fm, false)
    else .hang
  | .ub => .ub
  | .hang => .hang
termination_by line.length

end PBat
