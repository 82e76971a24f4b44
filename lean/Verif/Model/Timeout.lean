import Verif.Model.Args
import Verif.Model.If
/-
Model of `pbat/command/pBat_Timeout.c` (TIMEOUT), and of the numbers it computes with: `double` and `strtod` (C library, round to nearest).

Simplifications: a call of `pBat_Sleep` (libpbat/sleep/pBat_Sleep.c:30-38) lasts exactly what it is asked; the messages are not modelled; the input is
a terminal, on which `pBat_Kbhit` (libpbat/console/pBat_Console.c:93-105) tells whether a key was pressed before (the key is not taken away).
-/
namespace PBat

/-- A `double`: a magnitude counted in units of 2^-1074 with a sign, an infinity, or not a number. -/
inductive FDbl where
  | fin (neg : Bool) (n : Nat)
  | inf (neg : Bool)
  | nan
  deriving DecidableEq, Repr

/-- The number 1 in units of 2^-1074. -/
def fOne : Nat := 2 ^ 1074

/-- The integer nearest to `p / q`, half to even. -/
def roundDiv (p q : Nat) : Nat :=
  if q < 2 * (p % q) ∨ (2 * (p % q) = q ∧ p / q % 2 = 1) then p / q + 1 else p / q

/-- The `double` nearest to `p / q` units. -/
def roundRatio (p q : Nat) : Nat :=
  let k := (p / q).log2 - 52
  roundDiv p (q * 2 ^ k) * 2 ^ k

/-- A magnitude, infinite from 2^1024 on. -/
def fMag (neg : Bool) (n : Nat) : FDbl := if 2 ^ 2098 ≤ n then .inf neg else .fin neg n

/-- Digits of a base with a point among them: the value of the digits, the number of those after the point, and the rest; `none` if there is no
digit. -/
def scanPoint (b : Nat) (s : List Char) : Option (Nat × Nat × List Char) :=
  let i := scanBase b 0 s
  match i.2 with
  | '.' :: r =>
    let f := scanBase b i.1 r
    if i.2.length = s.length ∧ f.2.length = r.length then none else some (f.1, r.length - f.2.length, f.2)
  | _ => if i.2.length = s.length then none else some (i.1, 0, i.2)

/-- The digits of an exponent. -/
def scanExpDigits (t : List Char) : Option (Nat × List Char) :=
  let d := scanBase 10 0 t
  if d.2.length = t.length then none else some d

/-- An exponent after the letter `e`, 0 if there is none. -/
def scanExp (e : Char) (s : List Char) : Int × List Char :=
  match s with
  | c :: '-' :: t => if c.toLower = e then ((scanExpDigits t).map fun d => (-(d.1 : Int), d.2)).getD (0, s) else (0, s)
  | c :: '+' :: t => if c.toLower = e then ((scanExpDigits t).map fun d => ((d.1 : Int), d.2)).getD (0, s) else (0, s)
  | c :: t => if c.toLower = e then ((scanExpDigits t).map fun d => ((d.1 : Int), d.2)).getD (0, s) else (0, s)
  | [] => (0, s)

/-- `m` times a power of the base `b`, as a `double`. -/
def fScale (neg : Bool) (b m : Nat) (e : Int) : FDbl :=
  if 0 ≤ e then fMag neg (roundRatio (m * b ^ e.toNat * fOne) 1) else fMag neg (roundRatio (m * fOne) (b ^ (-e).toNat))

/-- A decimal number. -/
def scanDecimal (neg : Bool) (s : List Char) : Option (FDbl × List Char) :=
  (scanPoint 10 s).map fun d =>
    let x := scanExp 'e' d.2.2
    (fScale neg 10 d.1 (x.1 - d.2.1), x.2)

/-- A hexadecimal number after `0x`. -/
def scanHexadecimal (neg : Bool) (s : List Char) : Option (FDbl × List Char) :=
  (scanPoint 16 s).map fun d =>
    let x := scanExp 'p' d.2.2
    (fScale neg 2 d.1 (x.1 - 4 * d.2.1), x.2)

/-- `inf`, `infinity`, `nan`, `nan(...)`, in any case. -/
def scanRealWord (neg : Bool) (s : List Char) : Option (FDbl × List Char) :=
  if (s.take 8).map Char.toLower = ['i', 'n', 'f', 'i', 'n', 'i', 't', 'y'] then some (.inf neg, s.drop 8)
  else if (s.take 3).map Char.toLower = ['i', 'n', 'f'] then some (.inf neg, s.drop 3)
  else if (s.take 3).map Char.toLower = ['n', 'a', 'n'] then
    match s.drop 3 with
    | '(' :: r => match r.dropWhile fun c => c.isAlphanum || c == '_' with
      | ')' :: r' => some (.nan, r')
      | _ => some (.nan, s.drop 3)
    | r => some (.nan, r)
  else none

/-- A number without its sign. -/
def scanReal (neg : Bool) (s : List Char) : Option (FDbl × List Char) :=
  match s with
  | '0' :: x :: r => if x.toLower = 'x' then ((scanHexadecimal neg r).orElse fun _ => scanDecimal neg s) else scanDecimal neg s
  | _ => (scanRealWord neg s).orElse fun _ => scanDecimal neg s

/-- `strtod(s, &end)`: the value and `end`. -/
def strtodF (s : List Char) : FDbl × List Char :=
  (match s.dropWhile isSpace with
  | '-' :: r => scanReal true r
  | '+' :: r => scanReal false r
  | r => scanReal false r).getD (.fin false 0, s)

/-- What the parameters of TIMEOUT ask for. -/
inductive TimeoutAsk where
  | help
  | bad
  | wait (nobreak : Bool) (seconds : FDbl)
  deriving DecidableEq, Repr

/-- `if (seconds)`. -/
def FDbl.nonzero : FDbl → Bool
  | .fin _ n => n != 0
  | _ => true

/-- The loop over the parameters, pbat/command/pBat_Timeout.c:68-105. -/
def timeoutScan (ex : List Char → Res (List Char)) (nobreak : Bool) (seconds : FDbl) (line : List Char) : Res TimeoutAsk :=
  match nextParam stdDelims ex line with
  | .ok none => .ok (.wait nobreak seconds)
  | .ok (some (t, r)) =>
    if stricmp t ['/', '?'] = 0 then .ok .help
    else if stricmp t ['/', 'T'] = 0 then if r.length < line.length then timeoutScan ex nobreak seconds r else .hang
    else if stricmp t ['/', 'N', 'O', 'B', 'R', 'E', 'A', 'K'] = 0 then if r.length < line.length then timeoutScan ex true seconds r else .hang
    else if seconds.nonzero then .ok .bad
    else if (strtodF t).2 ≠ [] then .ok .bad
    else if r.length < line.length then timeoutScan ex nobreak (strtodF t).1 r else .hang
  | .ub => .ub
  | .hang => .hang
termination_by line.length

/-- `SLEEP_GRANULARITY`, pbat/command/pBat_Timeout.c:57. -/
def sleepTenth : Nat := roundRatio fOne 10

/-- `(unsigned int)(x * 1000)` for a finite `x`, pbat/command/pBat_Timeout.c:114, 126 and 137. -/
def millis (n : Nat) : Nat := roundMag (n * 1000) / fOne

/-- `pBat_Kbhit` at a time in ms, for a key pressed first at the time `key`. -/
def keyHit (key : Option Nat) (now : Nat) : Bool := key.any (· ≤ now)

/-- The loop of pbat/command/pBat_Timeout.c:121-143: the time of its end in ms; `.hang` when it does not end. -/
def timeoutLoop (nobreak : Bool) (key : Option Nat) (n now : Nat) : Res Nat :=
  if n = 0 then .ok now
  else if sleepTenth < n then
    if !nobreak && keyHit key (now + millis sleepTenth) then .ok (now + millis sleepTenth)
    else if roundMag (n - sleepTenth) < n then timeoutLoop nobreak key (roundMag (n - sleepTenth)) (now + millis sleepTenth)
    else .hang
  else .ok (now + millis n)
termination_by n

/-- The loop that waits for a key at the time `key`, pbat/command/pBat_Timeout.c:113-114. -/
def timeoutKey (key now : Nat) : Nat := if key ≤ now then now else timeoutKey key (now + 100)
termination_by key - now

/-- The waiting, pbat/command/pBat_Timeout.c:109-144. -/
def timeoutWait (nobreak : Bool) (key : Option Nat) (seconds : FDbl) : Res Nat :=
  match seconds with
  | .fin true 0 => .ok 0
  | .fin false n => timeoutLoop nobreak key n 0
  | .nan => .ok 0
  | .inf false => match key with
    | some k => if nobreak then .hang else .ok (timeoutKey k 100)
    | none => .hang
  | _ => match key with
    | some k => if nobreak then .hang else .ok (timeoutKey k 0)
    | none => .hang

/-- `pBat_CmdTimeout`, pbat/command/pBat_Timeout.c:59-151, on the line after the name of the command: the status and the time it took in ms. -/
def cmdTimeout (ex : List Char → Res (List Char)) (key : Option Nat) (line : List Char) : Res (Nat × Nat) := do
  match ← timeoutScan ex false (.fin false 0) line with
  | .help => .ok (0, 0)
  | .bad => .ok (4, 0)
  | .wait nobreak seconds => do
    let t ← timeoutWait nobreak key seconds
    .ok (0, t)

end PBat
