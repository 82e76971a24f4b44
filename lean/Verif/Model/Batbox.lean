import Verif.Model.Num
import Verif.Model.Mem
import Verif.Model.Prompt
/-
Model of the module BATBOX (modules/batbox/batbox.c) and of the functions of the console library it uses on Linux
(libpbat/console/pBat_Console.c, pBat_ConsoleANSI.c).

The parameters of the command are given as a list of texts (what successive calls of `pBat_GetNextParameterEs` return). The output is a
terminal (`isatty` is true); a character of the output stands for a byte. The keyboard is the list of the bytes that will be typed; what
is read after its end is the end of the file. The answers of `pBat_Kbhit` (pBat_Console.c:94-106), which depend on when the keys are
typed, are a list. Setting and restoring the modes of the terminal is not modelled, and the bytes written to
the terminal before a read from the same stream are supposed to leave the buffer (glibc).
-/
namespace PBat.Box

/-- `pBat_Getch`, libpbat/console/pBat_Console.c:29-90: the code and the bytes left. `fgetc` gives -1 at the end of the file. -/
def getchAux (l : List Nat) : { p : Int × List Nat // p.2.length ≤ l.length } :=
  match l with
  | [] => ⟨(-1, []), Nat.le_refl _⟩
  | ch :: r =>
    if ch = 27 then
      match getchAux r with
      | ⟨(c2, r2), h2⟩ =>
        if c2 = 91 then
          match getchAux r2 with
          | ⟨(c3, r3), h3⟩ =>
            if c3 = 65 then ⟨(72, r3), by simp at h2 h3 ⊢; omega⟩
            else if c3 = 66 then ⟨(80, r3), by simp at h2 h3 ⊢; omega⟩
            else if c3 = 67 then ⟨(77, r3), by simp at h2 h3 ⊢; omega⟩
            else if c3 = 68 then ⟨(75, r3), by simp at h2 h3 ⊢; omega⟩
            else if c3 = 70 then ⟨(79, r3), by simp at h2 h3 ⊢; omega⟩
            else if c3 = 72 then ⟨(71, r3), by simp at h2 h3 ⊢; omega⟩
            else if c3 = 50 then match getchAux r3 with | ⟨(_, r4), h4⟩ => ⟨(82, r4), by simp at h2 h3 h4 ⊢; omega⟩
            else if c3 = 51 then match getchAux r3 with | ⟨(_, r4), h4⟩ => ⟨(83, r4), by simp at h2 h3 h4 ⊢; omega⟩
            else if c3 = 53 then match getchAux r3 with | ⟨(_, r4), h4⟩ => ⟨(73, r4), by simp at h2 h3 h4 ⊢; omega⟩
            else if c3 = 54 then match getchAux r3 with | ⟨(_, r4), h4⟩ => ⟨(81, r4), by simp at h2 h3 h4 ⊢; omega⟩
            else if c3 = 77 then ⟨(-2, r3), by simp at h2 h3 ⊢; omega⟩
            else ⟨(-1, r3), by simp at h2 h3 ⊢; omega⟩
        else ⟨(27, r2), by simp at h2 ⊢; omega⟩
    else ⟨(ch, r), by simp⟩
termination_by l.length
decreasing_by all_goals (simp_all; try omega)

/-- See `getchAux`. -/
def getch (l : List Nat) : Int × List Nat := (getchAux l).1

/-- The loop of `pBat_GetMousePos` that waits for the beginning of a report, libpbat/console/pBat_ConsoleANSI.c:256-259. It never ends
at the end of the file. -/
def waitMouse (l : List Nat) : Res (List Nat) :=
  match l with
  | [] => .hang
  | k :: ks =>
    let p := getch (k :: ks)
    if p.1 = -2 then .ok p.2
    else if p.2.length < (k :: ks).length then waitMouse p.2 else .hang
termination_by l.length

/-- `tomouse_b`, libpbat/console/pBat_ConsoleANSI.c:175-231: the button and the new value of `latest`, for the byte of the report. The
bits are taken by divisions, which is what `&` does on two's complement numbers. -/
def toMouse (latest : Int) (byte : Int) : Int × Int :=
  let b := byte - 32
  let btn := b % 4
  if b / 64 % 2 = 1 then (if btn = 1 then 7 else 6, 0)
  else
    let moving := b / 32 % 2 = 1
    let latest := if moving then 8 else latest
    if btn = 0 then
      let t := if latest = 1 then 3 else 1
      (t, if moving then latest else t)
    else if btn = 1 then (5, if moving then latest else 5)
    else if btn = 2 then
      let t := if latest = 2 then 4 else 2
      (t, if moving then latest else t)
    else if moving then (0, latest) else (8, latest)

/-- An `int` assigned to a `short`. -/
def toShort (n : Int) : Int := (n + 32768) % 65536 - 32768

/-- The environment: `pBat_GetEnv`, `pBat_SetEnv`. -/
structure Env (E : Type) where
  get : E → List Char → Option (List Char)
  set : E → List Char → List Char → E

/-- What the command does outside of the interpreter: bytes written to the output, bytes written to the terminal, delays. -/
inductive Act where
  | put (s : List Char)
  | tty (s : List Char)
  | wait (ms : Int)
  deriving DecidableEq, Repr

/-- The state: `orig` and `last` (batbox.c:124), the environment, the keyboard, the answers of `pBat_Kbhit`, what has been done so far. -/
structure St (E : Type) where
  origX : Int
  origY : Int
  lastX : Int
  lastY : Int
  env : E
  keys : List Nat
  hits : List Bool
  acts : List Act
  deriving DecidableEq, Repr

/-- One more action. -/
def St.act {E} (s : St E) (a : Act) : St E := { s with acts := s.acts ++ [a] }

/-- `pBat_GetMousePos`, libpbat/console/pBat_ConsoleANSI.c:244-268, with `core_input_initialize` and `core_input_terminate` (233-242), on
a terminal: X, Y, the button. -/
def mousePos {E} (s : St E) (onmove : Bool) : Res ((Int × Int × Int) × St E) := do
  let s := s.act (.tty ("\x1b[?".toList ++ intText (if onmove then 1003 else 1000) ++ "h".toList))
  let ks ← waitMouse s.keys
  let b := getch ks
  let x := getch b.2
  let y := getch x.2
  let s := { s with keys := y.2 }
  .ok ((toShort (x.1 - 33), toShort (y.1 - 33), (toMouse 8 b.1).1),
    s.act (.tty ("\x1b[?".toList ++ intText (if onmove then 1003 else 1000) ++ "l".toList)))

/-- `fast_switch_cmp`, modules/batbox/batbox.c:102-106. -/
def isSwitch (c : Char) : List Char → Bool
  | '/' :: x :: t => (x == c || x == c.toUpper) && (t == [] || t == ['_'])
  | _ => false

/-- `fast_noswitch_check`, modules/batbox/batbox.c:108-109. -/
def noSwitch (p : List Char) : Bool := p.head? != some '/' && p != []

/-- `args_get_number`, modules/batbox/batbox.c:111-130. -/
def getNumber {E} (V : Env E) (e : E) (p : List Char) : Int :=
  if (strtol0 p).2 ≠ [] then
    match V.get e p with
    | none => 0
    | some b => longToInt (strtol0 b).1
  else longToInt (strtol0 p).1

/-- The addition of two `int`: undefined when it overflows. -/
def addInt (a b : Int) : Res Int := if -2 ^ 31 ≤ a + b ∧ a + b < 2 ^ 31 then .ok (a + b) else .ub

/-- `pBat_SetConsoleCursorPosition`, libpbat/console/pBat_ConsoleANSI.c:117-123. -/
def cursorTo (x y : Int) : List Char := "\x1b[".toList ++ intText (y + 1) ++ ";".toList ++ intText (x + 1) ++ "H".toList

/-- `pBat_SetConsoleCursorState`, libpbat/console/pBat_ConsoleANSI.c:131-141. -/
def cursorState (visible : Int) : List Char := if visible ≠ 0 then "\x1b[25h".toList else "\x1b[25l".toList

/-- `PORTABLE_COLOR`, modules/batbox/batbox.c:48-56; only the low eight bits are looked at. -/
def portable (n : Int) : Nat := foreColor (n % 16).toNat ||| backColor (n / 16 % 16).toNat

/-- The bytes of `pBat_SetConsoleTextColor`: see `setTextColor`. -/
def colorText (code : Nat) : List Char := (setTextColor code).flatMap fun n => "\x1b[".toList ++ natText n ++ "m".toList

/-- `fprintf("%c")`: the low eight bits. -/
def lowByte (n : Int) : Char := Char.ofNat (n % 256).toNat

/-- The key of `/k` and `/l`, batbox.c:214-218. -/
def readKey (ks : List Nat) : Int × List Nat :=
  let k := getch ks
  if k.1 = 224 then (k.1 + (getch k.2).1, (getch k.2).2) else k

/-- `/m` and `/y` set the three variables named after them (batbox.c:249-283) or print (287). -/
def mouseDone {E} (V : Env E) (s : St E) (x y t : Int) : Option (List Char × List Char × List Char) → St E
  | some n => { s with env := V.set (V.set (V.set s.env n.1 (intText x)) n.2.1 (intText y)) n.2.2 (intText t) }
  | none => s.act (.put (intText x ++ ":".toList ++ intText y ++ ":".toList ++ intText t ++ "\n".toList))

/-- `batbox`, modules/batbox/batbox.c:132-305: the status and the state. A subcommand without its parameter ends the loop. The condition
of line 202 is kept as it is: the name is taken when there is no next parameter and the current one (`/k` itself) is not a switch. -/
def batbox {E} (V : Env E) (s : St E) : List (List Char) → Res (Int × St E)
  | [] => .ok (0, s)
  | p :: r =>
    if isSwitch 'a' p then
      match r with
      | [] => .ok (0, s)
      | v :: r => batbox V (s.act (.put [lowByte (getNumber V s.env v)])) r
    else if isSwitch 'd' p then
      match r with
      | [] => .ok (0, s)
      | v :: r => batbox V (s.act (.put v)) r
    else if isSwitch 'n' p then
      let y := toShort (s.lastY + 1)
      batbox V ({ s with lastY := y }.act (.put (cursorTo s.lastX y))) r
    else if isSwitch 'o' p then
      match r with
      | [] => .ok (0, s)
      | [v] => .ok (0, { s with origX := toShort (getNumber V s.env v) })
      | v :: w :: r => batbox V { s with origX := toShort (getNumber V s.env v), origY := toShort (getNumber V s.env w) } r
    else if isSwitch 'g' p then
      match r with
      | [] => .ok (0, s)
      | [v] => do let _ ← addInt s.origX (getNumber V s.env v); .ok (0, s)
      | v :: w :: r => do
        let x ← addInt s.origX (getNumber V s.env v)
        let y ← addInt s.origY (getNumber V s.env w)
        batbox V ({ s with lastX := toShort x, lastY := toShort y }.act (.put (cursorTo (toShort x) (toShort y)))) r
    else if isSwitch 'h' p then
      match r with
      | [] => .ok (0, s)
      | v :: r => batbox V (s.act (.put (cursorState (getNumber V s.env v)))) r
    else if isSwitch 'w' p then
      match r with
      | [] => .ok (0, s)
      | v :: r => batbox V (s.act (.wait (getNumber V s.env v))) r
    else if isSwitch 'c' p then
      match r with
      | [] => .ok (0, s)
      | v :: r => batbox V (s.act (.put (colorText (portable (getNumber V s.env v))))) r
    else if isSwitch 'k' p || isSwitch 'l' p then
      let wait := p[2]? != some '_'
      let cur := r.headD p
      let name := r == [] && noSwitch cur
      let hit := s.hits.headD false
      let s := if wait then s else { s with hits := s.hits.tail }
      if !wait && !hit then batbox V s r
      else
        let key := readKey s.keys
        let s := { s with keys := key.2 }
        if name then
          let isL := p[1]? == some 'l' || p[1]? == some 'L'
          .ok (0, { s with env := V.set s.env cur (if isL && key.1 < 255 then [lowByte key.1] else intText key.1) })
        else .ok (key.1, s)
    else if isSwitch 'y' p || isSwitch 'm' p then
      let onmove := p[1]? == some 'y' || (p[1]? == some 'm' && p[2]? == some '_')
      match mousePos s onmove with
      | .ub => .ub
      | .hang => .hang
      | .ok (m, s) =>
        match r with
        | x :: y :: t :: r' =>
          if noSwitch x && noSwitch y && noSwitch t then batbox V (mouseDone V s m.1 m.2.1 m.2.2 (some (x, y, t))) r'
          else batbox V (mouseDone V s m.1 m.2.1 m.2.2 none) (x :: y :: t :: r')
        | r' => batbox V (mouseDone V s m.1 m.2.1 m.2.2 none) r'
    else batbox V s r
termination_by ps => ps.length

end PBat.Box
