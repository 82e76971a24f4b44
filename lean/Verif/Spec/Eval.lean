import Verif.Model.Eval
import Verif.Spec.Num
import Verif.Spec.Locals
import Verif.Spec.Args
import Verif.Spec.Env
/-
Specification of arithmetic expressions, man/en_US/seta.tea.
-/
namespace PBat.Spec

variable {D : Type}

/-- Expressions. -/
inductive Ex (D : Type) where
  | num (x : Num D)
  | var (name : List Char)
  | un (u : UOp) (e : Ex D)
  | bin (o : BOp) (a b : Ex D)
  | asg (name : List Char) (e : Ex D)
  | call (f : List Char) (e : Ex D)

/-- The token of a unary operator. -/
def unTok : UOp → Tok D
  | .neg => .op .sub
  | .not => .bang
  | .compl => .tilde

/-- How expressions are written, given the precedence `P` of binary operators (higher binds tighter): `Gram ok P U n` are the
expressions whose operators outside parentheses have at least the precedence `n` and belong to `U`; each pair of parentheses has its
own set of operators, subject to `ok`.  All binary operators associate to the left; unary operators and assignments bind
tighter than all of them. -/
inductive Gram (ok : (BOp → Prop) → Prop) (P : BOp → Nat) : (BOp → Prop) → Nat → List (Tok D) → Ex D → Prop
  | num {U n} (x : Num D) : Gram ok P U n [.num x] (.num x)
  | var {U n} (v : List Char) : Gram ok P U n [.var v] (.var v)
  | par {U n U' t e} : ok U' → Gram ok P U' 0 t e → Gram ok P U n (.lpar :: (t ++ [.rpar])) e
  | call {U n U' t e} (f : List Char) : ok U' → Gram ok P U' 0 t e → Gram ok P U n (.func f :: .lpar :: (t ++ [.rpar])) (.call f e)
  | un {U n m t e} (u : UOp) : (∀ o, P o < m) → Gram ok P U m t e → Gram ok P U n (unTok u :: t) (.un u e)
  | asg {U n m t e} (v : List Char) : (∀ o, P o < m) → Gram ok P U m t e → Gram ok P U n (.var v :: .asg :: t) (.asg v e)
  | bin {U n a b ea eb} (o : BOp) : n ≤ P o → U o → Gram ok P U (P o) a ea → Gram ok P U (P o + 1) b eb →
      Gram ok P U n (a ++ .op o :: b) (.bin o ea eb)

/-- The documented precedence of binary operators, man/en_US/seta.tea:138-160. -/
def docPrec : BOp → Nat
  | .lor => 0
  | .land => 1
  | .bor => 2
  | .xor => 3
  | .band => 4
  | .shl | .shr => 5
  | .add | .sub => 6
  | .mul | .div | .mod => 7

/-- At most one of `||`, `|`, `^`, and `&&` not along with `|`, `^` or `&`. -/
def Clear (U : BOp → Prop) : Prop :=
  ¬ (U .lor ∧ U .bor) ∧ ¬ (U .lor ∧ U .xor) ∧ ¬ (U .bor ∧ U .xor) ∧ ¬ (U .land ∧ U .band) ∧ ¬ (U .land ∧ U .bor) ∧ ¬ (U .land ∧ U .xor)

/-- The characters words are not made of. -/
def wordEnd : List Char := "+-*%/&>~<|=()^\t ".toList

/-- The text of binary operators. -/
def opText : BOp → List Char
  | .bor => "|".toList
  | .lor => "||".toList
  | .xor => "^".toList
  | .band => "&".toList
  | .land => "&&".toList
  | .shr => ">>".toList
  | .shl => "<<".toList
  | .sub => "-".toList
  | .add => "+".toList
  | .mul => "*".toList
  | .div => "/".toList
  | .mod => "%".toList

/-- Decimal numbers: digits, a point, digits (not both empty), and perhaps an exponent. -/
inductive DecText : List Char → Prop
  | plain {a b} : (∀ c ∈ a ++ b, c ∈ "0123456789".toList) → a ++ b ≠ [] → DecText (a ++ '.' :: b)
  | exp {a b e ds} : (∀ c ∈ a ++ b, c ∈ "0123456789".toList) → a ++ b ≠ [] → e = 'e' ∨ e = 'E' → (∀ c ∈ ds, c ∈ "0123456789".toList) → ds ≠ [] →
      DecText (a ++ '.' :: (b ++ e :: ds))
  | sexp {a b e g ds} : (∀ c ∈ a ++ b, c ∈ "0123456789".toList) → a ++ b ≠ [] → e = 'e' ∨ e = 'E' → g = '+' ∨ g = '-' →
      (∀ c ∈ ds, c ∈ "0123456789".toList) → ds ≠ [] → DecText (a ++ '.' :: (b ++ e :: g :: ds))

/-- Words: numbers without sign, mathematical constants, functions and names.  A name is any text that is no number, no constant and no function, and has no point
(with which it might begin like a decimal fraction). -/
inductive Word (L : FloatOps D) : List Char → Tok D → Prop
  | int {w n} : Unsigned w n → n < 2 ^ 63 → 'X' ∉ w → Word L w (.num { isD := false, i := n, d := L.ofInt n })
  | name {w} : w ≠ [] → (∀ c ∈ w, c ∉ wordEnd ∧ c ≠ '\n' ∧ c ≠ '.') → (∃ c ∈ w, c ∉ "0123456789".toList) →
      ¬ ['0', 'x'] <+: w → w ∉ evalConstants → w ∉ evalFunctions → Word L w (.var w)
  | const {w} : w ∈ evalConstants → Word L w (.num { isD := true, i := 0, d := L.const w })
  | func {w} : w ∈ evalFunctions → Word L w (.func w)

/-- Texts of token sequences: blanks anywhere between tokens; two words are never adjacent, and `&`, `|` are not followed by
themselves. -/
inductive Spelt (L : FloatOps D) : List Char → List (Tok D) → Prop
  | nil : Spelt L [] []
  | blank {c s ts} : c = ' ' ∨ c = '\t' → Spelt L s ts → Spelt L (c :: s) ts
  | word {w t s ts} : Word L w t → (∀ c, s.head? = some c → c ∈ wordEnd) → Spelt L s ts → Spelt L (w ++ s) (t :: ts)
  | dec {w s ts} : DecText w → (∀ c, s.head? = some c → c ∈ wordEnd) → Spelt L s ts →
      Spelt L (w ++ s) (.num { isD := true, i := 0, d := L.read w } :: ts)
  | op {o s ts} : (o = .band → s.head? ≠ some '&') → (o = .bor → s.head? ≠ some '|') → Spelt L s ts →
      Spelt L (opText o ++ s) (.op o :: ts)
  | tilde {s ts} : Spelt L s ts → Spelt L ('~' :: s) (.tilde :: ts)
  | asg {s ts} : Spelt L s ts → Spelt L ('=' :: s) (.asg :: ts)
  | lpar {s ts} : Spelt L s ts → Spelt L ('(' :: s) (.lpar :: ts)
  | rpar {s ts} : Spelt L s ts → Spelt L (')' :: s) (.rpar :: ts)

/-! ### Values with decimal numbers -/

/-- The expression has a decimal number, a constant or a function. -/
def usesFloat : Ex D → Bool
  | .num x => x.isD
  | .var _ => false
  | .un _ e => usesFloat e
  | .bin _ a b => usesFloat a || usesFloat b
  | .asg _ e => usesFloat e
  | .call _ _ => true

/-- The value of an expression made of `+ - * / %` and functions when all of it is computed on decimal numbers, `get` giving the variables. -/
def floatOf (L : FloatOps D) (get : List Char → D) : Ex D → Option D
  | .num x => some x.d
  | .var n => some (get n)
  | .un .neg e => (floatOf L get e).map L.neg
  | .un _ _ => none
  | .bin o a b =>
    match o, floatOf L get a, floatOf L get b with
    | .add, some x, some y => some (L.add x y)
    | .sub, some x, some y => some (L.sub x y)
    | .mul, some x, some y => some (L.mul x y)
    | .div, some x, some y => some (L.div x y)
    | .mod, some x, some y => some (L.fmod x y)
    | _, _, _ => none
  | .asg _ _ => none
  | .call f e => (floatOf L get e).map (L.func f)

/-- The range of `long long`. -/
def fits64 (v : Int) : Option Int := if -2 ^ 63 ≤ v ∧ v < 2 ^ 63 then some v else none

/-- The value of an expression made of `+ - * / %` on integers, all results being in the range of `long long`; variables are
rounded towards 0. -/
def int64 (L : FloatOps D) (get : List Char → D) : Ex D → Option Int
  | .num x => if x.isD then none else some x.i
  | .var n => L.toInt (get n)
  | .un .neg e => (int64 L get e).bind fun x => fits64 (-x)
  | .un _ _ => none
  | .bin o a b =>
    match o, int64 L get a, int64 L get b with
    | .add, some x, some y => fits64 (x + y)
    | .sub, some x, some y => fits64 (x - y)
    | .mul, some x, some y => fits64 (x * y)
    | .div, some x, some y => if y = 0 then none else fits64 (x.tdiv y)
    | .mod, some x, some y => if y = 0 then none else (fits64 (x.tdiv y)).map fun _ => x.tmod y
    | _, _, _ => none
  | .asg _ _ => none
  | .call _ _ => none

/-- The parts without decimal numbers have values as integers, and functions are applied to decimal numbers or to single numbers. -/
def PartsFit (L : FloatOps D) (get : List Char → D) : Ex D → Prop
  | .num _ => True
  | .var n => L.toInt (get n) ≠ none
  | .un u e => PartsFit L get e ∧ (usesFloat e = true ∨ int64 L get (.un u e) ≠ none)
  | .bin o a b => PartsFit L get a ∧ PartsFit L get b ∧ (usesFloat a = true ∨ usesFloat b = true ∨ int64 L get (.bin o a b) ≠ none)
  | .asg _ e => PartsFit L get e
  | .call _ e => PartsFit L get e ∧ (usesFloat e = true ∨ ∃ x, e = .num x)

/-! ### Integer values -/

/-- The range of `int`. -/
def InInt (v : Int) : Prop := -2 ^ 31 ≤ v ∧ v < 2 ^ 31

instance (v : Int) : Decidable (InInt v) := inferInstanceAs (Decidable (_ ∧ _))

/-- The meaning of binary operators on integers; bits are those of two's complement. -/
def opMeaning (o : BOp) (x y : Int) : Option Int :=
  match o with
  | .add => some (x + y)
  | .sub => some (x - y)
  | .mul => some (x * y)
  | .div => if y = 0 then none else some (x.tdiv y)
  | .mod => if y = 0 then none else some (x.tmod y)
  | .band => some (BitVec.ofInt 64 x &&& BitVec.ofInt 64 y).toInt
  | .bor => some (BitVec.ofInt 64 x ||| BitVec.ofInt 64 y).toInt
  | .xor => some (BitVec.ofInt 64 x ^^^ BitVec.ofInt 64 y).toInt
  | .shl => if 0 ≤ y ∧ y < 32 ∧ 0 ≤ x then some (x * 2 ^ y.toNat) else none
  | .shr => if 0 ≤ y ∧ y < 32 then some (x / 2 ^ y.toNat) else none
  | .lor => some (if x = 0 ∧ y = 0 then 0 else 1)
  | .land => some (if x = 0 ∨ y = 0 then 0 else 1)

/-- Assigning an integer variable; names are compared without regard to case, and trailing blanks of the name assigned are
dropped. -/
def assignInt (st : List Char → Int) (n : List Char) (v : Int) : List Char → Int :=
  fun m => if fold m = key n then v else st m

/-- The value of an integer expression, with all intermediate results in the range of `int`.  The flag tells whether the value
is the exact one, no quotient having been rounded; bitwise and logical operators are applied to exact values only. -/
def intValue (st : List Char → Int) : Ex D → Option (Int × Bool × (List Char → Int))
  | .num x => if x.isD = false ∧ InInt x.i then some (x.i, true, st) else none
  | .var n => if InInt (st n) then some (st n, true, st) else none
  | .un u e => do
    let (x, ex, st) ← intValue st e
    match u with
    | .neg => if InInt (-x) then some (-x, ex, st) else none
    | .not => none
    | .compl => if ex then some (-x - 1, true, st) else none
  | .bin o a b => do
    let (x, ex, st) ← intValue st a
    let (y, ey, st) ← intValue st b
    let v ← opMeaning o x y
    if InInt v then
      if o.bitwise then if ex ∧ ey then some (v, true, st) else none
      else some (v, ex && ey && (o != .div || decide (y ∣ x)), st)
    else none
  | .asg n e => do
    let (x, ex, st) ← intValue st e
    some (x, ex, assignInt st n x)
  | .call _ _ => none

/-- What is asked of `double`: integers are represented (`Rep`), and the operations are exact when the result is an `int`; they
are printed in decimal (zero has two representations). -/
structure FloatLaws (L : FloatOps D) (Rep : D → Int → Prop) : Prop where
  ofInt : ∀ v, InInt v → Rep (L.ofInt v) v
  add : ∀ a b x y, Rep a x → Rep b y → InInt x → InInt y → InInt (x + y) → Rep (L.add a b) (x + y)
  sub : ∀ a b x y, Rep a x → Rep b y → InInt x → InInt y → InInt (x - y) → Rep (L.sub a b) (x - y)
  mul : ∀ a b x y, Rep a x → Rep b y → InInt x → InInt y → InInt (x * y) → Rep (L.mul a b) (x * y)
  div : ∀ a b x y, Rep a x → Rep b y → InInt x → InInt y → y ≠ 0 → y ∣ x → Rep (L.div a b) (x.tdiv y)
  fmod : ∀ a b x y, Rep a x → Rep b y → InInt x → InInt y → y ≠ 0 → Rep (L.fmod a b) (x.tmod y)
  neg : ∀ a x, Rep a x → InInt x → Rep (L.neg a) (-x)
  toInt : ∀ a x, Rep a x → InInt x → L.toInt a = some x
  print : ∀ a v, Rep a v → InInt v → a = L.ofInt v ∨ v ≠ 0 → L.print a = intText v

variable {σ : Type}

/-- What is asked of the variables: an integer assigned is read again, other variables keep their values. -/
structure VarLaws (L : FloatOps D) (V : VarOps σ D) : Prop where
  set : ∀ s n v m, InInt v → V.get (V.set s n (L.ofInt v)) m = if fold m = key n then L.ofInt v else V.get s m
  put : ∀ s n v m, InInt v → V.get (V.put s n (intText v)) m = if fold m = key n then L.ofInt v else V.get s m

/-- The variables hold these integers. -/
def HoldsInts (V : VarOps σ D) (Rep : D → Int → Prop) (s : σ) (st : List Char → Int) : Prop := ∀ n, Rep (V.get s n) (st n)

/-- The expressions `SET /A` takes: `e` is written `text`, precedences being those documented. -/
def ExText (L : FloatOps D) (text : List Char) (e : Ex D) : Prop :=
  ∃ (U : BOp → Prop) (ts : List (Tok D)), Clear U ∧ Spelt L text ts ∧ Gram Clear docPrec U 0 ts e

/-- One assignment of `SET /A` and its effect on integer variables: `name=expression`, or `name op= expression` which stands for
`name=name op (expression)`.  (Results 0 of `*`, `+`, `-` and `%` in the latter form are left out.) -/
inductive Assigns (L : FloatOps D) (st : List Char → Int) : List Char → (List Char → Int) → Prop
  | plain {n t e v ex st'} : '=' ∉ n → (∀ c, (n ++ '=' :: t).head? = some c → ¬ Blank c) →
      (∀ c, n.getLast? = some c → c ∉ "*/+-%^&|".toList) → ExText L t e → intValue st e = some (v, ex, st') →
      Assigns L st (n ++ '=' :: t) (assignInt st' n v)
  | comp {n t e v ex st' o w} : '=' ∉ n → (∀ c, (n ++ opText o ++ '=' :: t).head? = some c → ¬ Blank c) →
      o ∈ [BOp.mul, .div, .add, .sub, .mod, .xor, .band, .bor] → (∀ c, n.getLast? = some c → c ∉ ['&', '|']) → ExText L t e →
      intValue st e = some (v, ex, st') → opMeaning o (st' (trim n)) v = some w → InInt (st' (trim n)) → InInt w →
      (w = 0 → o ∈ [BOp.div, .xor, .band, .bor]) → Assigns L st (n ++ opText o ++ '=' :: t) (assignInt st' n w)

/-- Lines of assignments separated by commas, `q` telling which characters are escaped. -/
inductive SetLine (L : FloatOps D) (q : Char → Bool) : (List Char → Int) → List Char → (List Char → Int) → Prop
  | done {st w} : (∀ c ∈ w, Blank c) → SetLine L q st w st
  | cons {st w a st1 rest st2} : (∀ c ∈ w, Blank c) → Assigns L st a st1 → (rest = [] ∨ ∃ r, rest = ',' :: r) → SetLine L q st1 rest st2 →
      SetLine L q st (w ++ (escape q a ++ rest)) st2

end PBat.Spec
