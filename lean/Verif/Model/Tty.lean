import Verif.Model.LineEdit
/-
Model of the dealings of the interpreter with the terminal on Linux: the modes of the terminal, the keys waiting in it, and the question for
the place of the cursor.  Code: pbat/linenoise/linenoise.c (the editor of lines, whose keys are those of Model/LineEdit.lean) and
libpbat/console/pBat_Console.c (single keys, for PAUSE, MORE and TIMEOUT).

The user types at any time, the terminal answers at any time after it was asked, the interpreter takes its steps in between.

Simplifications: of the modes only those that matter for typing are kept (the others are changed, saved and restored together with them); while
lines are gathered by the terminal (`icanon`), its own editing keys and the waiting for the end of the line are left out (everything there that the
interpreter reads, it reads with `icanon` off); of the keys that send signals only Ctrl-C is modelled; system calls succeed; the environment does
not name a terminal of the list `unsupported_term`; one thread.
-/
namespace PBat.Tty

/-- The modes of a terminal (`struct termios`): lines are gathered, what is typed is shown, Ctrl-C sends a signal, Enter becomes a newline. -/
structure Mode where
  icanon : Bool
  echo : Bool
  isig : Bool
  icrnl : Bool
  deriving DecidableEq, Repr

/-- `enableRawMode`, pbat/linenoise/linenoise.c:343-357. -/
def Mode.raw (_ : Mode) : Mode := { icanon := false, echo := false, isig := false, icrnl := false }

/-- `pBat_Getch`, libpbat/console/pBat_Console.c:34-35. -/
def Mode.single (m : Mode) : Mode := { m with icanon := false, echo := false }

/-- `pBat_Kbhit`, libpbat/console/pBat_Console.c:98-100. -/
def Mode.poll (m : Mode) : Mode := { m with icanon := false }

/-- What the interpreter is doing. -/
inductive Phase
  /-- running commands -/
  | idle
  /-- in `getCursorPosition`, with what was read so far; the terminal has `cols` columns -/
  | ask (cols : Nat) (buf : List Nat)
  /-- in the loop of `linenoiseEdit` -/
  | edit (l : LnState)
  /-- in `pBat_Getch`, which will put `old` back, with the bytes read so far -/
  | key (old : Mode) (got : List Nat)
  /-- ended -/
  | off
  /-- something undefined was done -/
  | undef

/-- The terminal and the interpreter.  `queue`: what was typed (or reported) and not read; `asked`: the reports the terminal has still to
send; `hold`: what the stream `fInput` has read and not given yet; `buffered`: whether that stream reads ahead; `orig`, `rawmode`: the static
variables of linenoise.c:163-164; `hist`: the history; `lines`: what `linenoise` returned so far, `none` for `NULL`; `seen`: the modes in
which programs were started. -/
structure St where
  mode : Mode
  queue : List Nat
  asked : Nat
  hold : List Nat
  buffered : Bool
  orig : Mode
  rawmode : Bool
  phase : Phase
  hist : List (List Nat)
  lines : List (Option (List Nat))
  seen : List Mode

/-- A number in decimal digits. -/
def dec (n : Nat) : List Nat := if n < 10 then [48 + n] else dec (n / 10) ++ [48 + n % 10]

/-- What a terminal sends when asked for the place of the cursor: ESC [ row ; column R. -/
def report (row col : Nat) : List Nat := 27 :: 91 :: dec row ++ 59 :: dec col ++ [82]

/-- The sign of a number, for `sscanf`: whether it is a minus, and the rest. -/
def sign : List Nat → Bool × List Nat
  | 45 :: r => (true, r)
  | 43 :: r => (false, r)
  | r => (false, r)

/-- `%d` of `sscanf`: blanks, a sign, digits.  Numbers beyond `int` are not cut. -/
def scanInt (s : List Nat) : Option (Int × List Nat) :=
  let t := s.dropWhile fun c => c = 32 ∨ 9 ≤ c ∧ c ≤ 13
  let p := sign t
  let ds := p.2.takeWhile fun c => 48 ≤ c ∧ c ≤ 57
  if ds = [] then none else
    let n : Int := (ds.foldl (fun n c => 10 * n + (c - 48)) 0 : Nat)
    some (if p.1 then -n else n, p.2.drop ds.length)

/-- `getCursorPosition`, pbat/linenoise/linenoise.c:396-399, on what was read: the column, or -1. -/
def cursorColumn : List Nat → Int
  | 27 :: 91 :: s =>
    match scanInt s with
    | some (_, 59 :: r) =>
      match scanInt r with
      | some (c, _) => c
      | none => -1
    | _ => -1
  | _ => -1

/-- `l.plen = getCursorPosition(...) - 1`, pbat/linenoise/linenoise.c:1032: a `size_t`. -/
def promptLen (buf : List Nat) : Nat := ((cursorColumn buf - 1) % (2 ^ 64)).toNat

/-- The bytes the editor reads for the next key, as far as those waiting tell: `linenoiseUtf8ReadCode`, pbat/linenoise/utf8.c:482-507, and the
escape sequences, pbat/linenoise/linenoise.c:1107-1124. -/
def keyNeed : List Nat → Nat
  | [] => 1
  | 27 :: 91 :: s1 :: _ => if 48 ≤ s1 ∧ s1 ≤ 57 then 4 else 3
  | b :: _ =>
    if b &&& 0x80 = 0 then (if b = 27 then 3 else 1)
    else if b &&& 0xE0 = 0xC0 then 2
    else if b &&& 0xF0 = 0xE0 then 3
    else if b &&& 0xF8 = 0xF0 then 4
    else 1

/-- What `pBat_Getch` returns for the byte after ESC [, libpbat/console/pBat_Console.c:42-86. -/
def keyCode (c : Int) : Int :=
  if c = 65 then 72 else if c = 66 then 80 else if c = 67 then 77 else if c = 68 then 75 else if c = 70 then 79 else if c = 72 then 71
  else if c = 50 then 82 else if c = 51 then 83 else if c = 53 then 73 else if c = 54 then 81 else if c = 77 then -2 else -1

/-- `pBat_Getch`, libpbat/console/pBat_Console.c:29-90, on the bytes that `fgetc` will give: the code and the bytes left; `none` when it waits for
more.  The first argument bounds the calls. -/
def getKey : Nat → List Nat → Option (Int × List Nat)
  | 0, _ => none
  | _ + 1, [] => none
  | n + 1, ch :: r =>
    if ch ≠ 27 then some (ch, r) else
      match getKey n r with
      | none => none
      | some (c2, r2) =>
        if c2 ≠ 91 then some (27, r2) else
          match getKey n r2 with
          | none => none
          | some (c3, r3) =>
            if c3 = 50 ∨ c3 = 51 ∨ c3 = 53 ∨ c3 = 54 then
              match getKey n r3 with
              | none => none
              | some (_, r4) => some (keyCode c3, r4)
            else some (keyCode c3, r3)

/-- Whether `pBat_Getch` returns after these bytes. -/
def keyDone (got : List Nat) : Bool := (getKey (got.length + 1) got).isSome

/-- The bytes a stream reads ahead from a terminal. -/
def ahead : Nat := 1024

/-- `fgetc(fInput)`: the byte and the new state; `none`: it waits. -/
def St.fgetc (s : St) : Option (Nat × St) :=
  match s.hold with
  | b :: h => some (b, { s with hold := h })
  | [] =>
    match s.queue with
    | [] => none
    | b :: q =>
      if s.buffered then some (b, { s with hold := q.take (ahead - 1), queue := q.drop (ahead - 1) })
      else some (b, { s with queue := q })

/-- `pBat_SigHandlerBreak`, pbat/core/pBat_Run.c:857-890, at the prompt or in a command typed there: another interpreter takes the place of
this one (`execl`), so nothing is put back.  The terminal drops what was typed before Ctrl-C. -/
def St.interrupt (s : St) : St :=
  match s.phase with
  | .off => { s with queue := [] }
  | .undef => s
  | _ => { s with queue := [], hold := [], buffered := true, rawmode := false, phase := .idle, hist := [] }

/-- The terminal receives a byte from the keyboard. -/
def St.typed1 (s : St) (b : Nat) : St :=
  if s.mode.isig = true ∧ b = 3 then s.interrupt
  else { s with queue := s.queue ++ [if s.mode.icrnl = true ∧ b = 13 then 10 else b] }

/-- The terminal receives bytes from the keyboard. -/
def St.typed (s : St) (bs : List Nat) : St := bs.foldl St.typed1 s

/-- `disableRawMode`, pbat/linenoise/linenoise.c:369-373 (`TCSAFLUSH` drops what waits in the terminal). -/
def St.cooked (s : St) : St :=
  if s.rawmode then { s with mode := s.orig, queue := [], rawmode := false } else s

/-- The end of `linenoiseRaw` and `linenoise`, pbat/linenoise/linenoise.c:1233-1236 and 1300-1302. -/
def St.leave (s : St) (line : Option (List Nat)) (hist : List (List Nat)) : St :=
  { s.cooked with phase := .idle, hist := hist, lines := s.lines ++ [line] }

/-- `enableRawMode`, pbat/linenoise/linenoise.c:334-362 (`TCSAFLUSH` again), and the question of `getCursorPosition`, line 386. -/
def St.prompt (s : St) (cols : Nat) : St :=
  { s with orig := s.mode, mode := s.mode.raw, queue := [], rawmode := true, asked := s.asked + 1, phase := .ask cols [] }

/-- The interpreter takes what it waits for: a byte (`getCursorPosition`, linenoise.c:389-394; `pBat_Getch`) or a key (the loop of
`linenoiseEdit`, linenoise.c:1035-1189).  `none`: it waits. -/
def St.read (u : CharTables) (complete : List Nat → Reply) (s : St) : Option St :=
  match s.phase with
  | .ask cols buf =>
    match s.queue with
    | [] => none
    | b :: q =>
      if b = 82 then some { s with queue := q, phase := .edit (lnStart s.hist cols (promptLen buf)) }
      else if buf.length + 1 = 31 then some { s with queue := q, phase := .edit (lnStart s.hist cols (promptLen (buf ++ [b]))) }
      else some { s with queue := q, phase := .ask cols (buf ++ [b]) }
  | .edit l =>
    if s.queue.length < keyNeed s.queue then none else
      match lnKey u complete l s.queue with
      | .ok (.more l' q) => some { s with queue := q, phase := .edit l' }
      | .ok (.done l' _) => some (s.leave (some (lnStr l'.buf)) (histAdd l'.hist (lnStr l'.buf)))
      | .ok (.fail l' _) => some (s.leave none l'.hist)
      | _ => some { s with phase := .undef }
  | .key old got =>
    match s.fgetc with
    | none => none
    | some (b, s1) =>
      if keyDone (got ++ [b]) then some { s1 with mode := old, phase := .idle } else some { s1 with phase := .key old (got ++ [b]) }
  | _ => none

/-- What can happen. -/
inductive Ev
  /-- the user types a key for the line at the prompt -/
  | type (bs : List Nat)
  /-- the user presses keys for something else -/
  | press (bs : List Nat)
  /-- the terminal reports the place of the cursor -/
  | report (row col : Nat)
  /-- the interpreter reads a line, from a terminal of so many columns -/
  | prompt (cols : Nat)
  /-- the interpreter takes what it waits for -/
  | read
  /-- the interpreter waits for a key: PAUSE (pbat/command/pBat_Pause.c:55), MORE -/
  | pause
  /-- the interpreter looks whether a key was pressed: TIMEOUT (pbat/command/pBat_Timeout.c:108, 138) -/
  | poll
  /-- a program is run, and leaves the terminal in a mode -/
  | program (left : Mode)
  /-- the interpreter ends with `exit` -/
  | quit

/-- What happens; `none` when it cannot. -/
def St.step (u : CharTables) (complete : List Nat → Reply) (s : St) : Ev → Option St
  | .type bs => some (s.typed bs)
  | .press bs => some (s.typed bs)
  | .report r c =>
    if 0 < s.asked ∧ r < 65536 ∧ 0 < c ∧ c < 65536 then some { s with queue := s.queue ++ Tty.report r c, asked := s.asked - 1 } else none
  | .prompt cols => match s.phase with | .idle => if 0 < cols then some (s.prompt cols) else none | _ => none
  | .read => s.read u complete
  /- `pBat_Getch`, libpbat/console/pBat_Console.c:33-36 -/
  | .pause => match s.phase with | .idle => some { s with mode := s.mode.single, phase := .key s.mode [] } | _ => none
  /- `pBat_Kbhit`, libpbat/console/pBat_Console.c:94-105; `setbuf` on a stream in use, as glibc does it: what it holds is dropped -/
  | .poll => match s.phase with | .idle => some { s with mode := s.mode.poll, hold := [], buffered := false } | _ => none
  | .program m => match s.phase with | .idle => some { s with mode := m, seen := s.seen ++ [s.mode] } | _ => none
  /- `linenoiseAtExit`, pbat/linenoise/linenoise.c:1329-1332 -/
  | .quit => match s.phase with | .off => none | .undef => none | _ => some { s.cooked with phase := .off }

/-- A history. -/
def St.run (u : CharTables) (complete : List Nat → Reply) : List Ev → St → Option St
  | [], s => some s
  | e :: es, s => match s.step u complete e with | none => none | some s1 => s1.run u complete es

/-- The interpreter begins, in a terminal of some mode, knowing some lines. -/
def St.init (m : Mode) (hist : List (List Nat)) : St :=
  { mode := m, queue := [], asked := 0, hold := [], buffered := true, orig := m, rawmode := false, phase := .idle, hist := hist, lines := []
    seen := [] }

end PBat.Tty
