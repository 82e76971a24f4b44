import Verif.Model.Mem

/-!
Model of the interactive line editor: `pbat/linenoise/linenoise.c`, `pbat/linenoise/utf8.c`
and `pbat/linenoise/pBat_LineNoise.c`.

Unlike in the other models a byte is a `Nat` (its value as `unsigned char`, 0 to 255): the
editor looks at single bits of it.
-/

namespace PBat

/-- The two tables of `pbat/linenoise/utf8.c` lines 53-377 (`wideCharTable`,
`combiningCharTable`) behind `isWideChar` (381-386) and `isCombiningChar` (390-395).  The
tables are left abstract: every theorem holds whatever they contain. -/
structure CharTables where
  /-- `isCombiningChar` -/
  comb : Nat → Bool
  /-- `isWideChar` -/
  wide : Nat → Bool

/-- `pbat/linenoise/utf8.c` lines 408-438, `utf8BytesToCodePoint`: the length and the code of
the character the bytes begin with; `none` when 0 is returned, in which case `*cp` is left
unset. -/
def utf8Code : List Nat → Option (Nat × Nat)
  | [] => none
  | b0 :: r =>
    if b0 &&& 0x80 = 0 then some (1, b0)
    else if b0 &&& 0xE0 = 0xC0 then
      match r with
      | b1 :: _ => some (2, ((b0 &&& 0x1F) <<< 6) ||| (b1 &&& 0x3F))
      | _ => none
    else if b0 &&& 0xF0 = 0xE0 then
      match r with
      | b1 :: b2 :: _ =>
        some (3, ((b0 &&& 0x0F) <<< 12) ||| ((b1 &&& 0x3F) <<< 6) ||| (b2 &&& 0x3F))
      | _ => none
    else if b0 &&& 0xF8 = 0xF0 then
      match r with
      | b1 :: b2 :: b3 :: _ =>
        some (4, ((b0 &&& 0x07) <<< 18) ||| ((b1 &&& 0x3F) <<< 12) ||| ((b2 &&& 0x3F) <<< 6)
          ||| (b3 &&& 0x3F))
      | _ => none
    else none

/-- `pbat/linenoise/utf8.c` lines 452-457, the loop of `linenoiseUtf8NextCharLen` over the
combining marks: `acc` is `pos - beg`, `s` the bytes from `pos` on.  A character that cannot be
decoded leaves `cp` unset before it is looked at: `ub`.  (The bytes left are a bound on the
number of rounds: every round takes at least one.) -/
def skipMarks (u : CharTables) (fuel : Nat) (acc : Nat) (s : List Nat) : Res Nat :=
  match fuel with
  | 0 => .ok acc
  | fuel + 1 =>
    if s = [] then .ok acc
    else match utf8Code s with
      | none => .ub
      | some (n, cp) => if u.comb cp then skipMarks u fuel (acc + n) (s.drop n) else .ok acc

/-- `pbat/linenoise/utf8.c` lines 442-459, `linenoiseUtf8NextCharLen` on the bytes `s` from the
position on: the length of the character and its width; `(0, none)` stands for the return at
line 448, before `*col_len` is set. -/
def nextGlyph (u : CharTables) (s : List Nat) : Res (Nat × Option Nat) :=
  match utf8Code s with
  | none => .ub
  | some (n, cp) =>
    if u.comb cp then .ok (0, none)
    else do
      let k ← skipMarks u s.length n (s.drop n)
      .ok (k, some (if u.wide cp then 2 else 1))

/-- `pbat/linenoise/utf8.c` lines 399-404, `prevUtf8CharLen`: the number of bytes to go back,
given the bytes before the position, nearest first.  When there are only continuation bytes the
result leads before the begin of the buffer. -/
def prevBytes : List Nat → Option Nat
  | [] => none
  | b :: r => if b &&& 0xC0 = 0x80 then (prevBytes r).map (· + 1) else some 1

/-- `pbat/linenoise/utf8.c` lines 463-479, `linenoiseUtf8PrevCharLen`: `s` the bytes before the
position (first byte first), `acc` is `end - pos`.  Going back before the begin of the buffer
and looking at a code that was not decoded are `ub`. -/
def prevGlyph (u : CharTables) (fuel : Nat) (acc : Nat) (s : List Nat) : Res Nat :=
  match fuel with
  | 0 => .ok 0
  | fuel + 1 =>
    if s = [] then .ok 0
    else match prevBytes s.reverse with
      | none => .ub
      | some n => match utf8Code (s.drop (s.length - n)) with
        | none => .ub
        | some (_, cp) =>
          if u.comb cp then prevGlyph u fuel (acc + n) (s.take (s.length - n)) else .ok (acc + n)

/-- What the editor writes on the terminal, one constructor for each control sequence of
`linenoise.c`. -/
inductive TermOp
  /-- `\x1b[%dB` -/
  | down (n : Nat)
  /-- `\x1b[%dA` -/
  | up (n : Nat)
  /-- `\x1b[%dC` -/
  | right (n : Nat)
  /-- `\r` -/
  | cr
  /-- `\n` -/
  | nl
  /-- `\x1b[0K` -/
  | clear
  /-- `\x1b[H\x1b[2J` -/
  | cls
  /-- bytes of the line -/
  | text (s : List Nat)
  deriving DecidableEq

/-- `pbat/linenoise/linenoise.c` lines 287-312, `columnPosForMultiLine`: `s` the bytes from
`off` on.  A character of length 0 makes `off` stand still: the loop does not end (`hang`), or,
at the position asked for, the width it did not set is used (`ub`). -/
def columns (u : CharTables) (cols pos : Nat) (fuel : Nat) (s : List Nat)
    (off ret colwid : Nat) : Res Nat :=
  match fuel with
  | 0 => .ok ret
  | fuel + 1 =>
    if s = [] then .ok ret
    else match nextGlyph u s with
      | .ub => .ub
      | .hang => .hang
      | .ok (_, none) => if off ≥ pos then .ub else .hang
      | .ok (n, some w) =>
        let ret1 := if colwid + w > cols then ret + (colwid + w - cols) else ret
        let wid1 := if colwid + w > cols then w else if colwid + w = cols then 0 else colwid + w
        if off ≥ pos then .ok ret1
        else columns u cols pos fuel (s.drop n) (off + n) (ret1 + w) wid1

/-- `pbat/linenoise/linenoise.c` lines 174-187, `struct linenoiseState`, with the history
(167-169).  `buf` is the text of the line: the bytes `[0, len)` of the buffer, whose byte `len`
is the terminator.  `hist` holds the entries of the history, the oldest first, each without its
terminator. -/
structure LnState where
  buf : List Nat
  pos : Nat
  hist : List (List Nat)
  /-- `history_index` -/
  idx : Nat
  cols : Nat
  plen : Nat
  oldcol : Nat
  maxrows : Nat
  /-- what has been written on the terminal so far -/
  out : List TermOp
  deriving DecidableEq

/-- `l.buflen` after line 1023: the size of the buffer of `linenoise` (line 1280,
`LINENOISE_MAX_LINE`) but one. -/
def lnRoom : Nat := 4095

/-- `LINENOISE_DEFAULT_HISTORY_MAX_LEN`, line 155 -/
def lnHistMax : Nat := 100

/-- what `strdup(buf)` copies: the bytes before the first zero -/
def lnStr (s : List Nat) : List Nat := s.takeWhile (· ≠ 0)

/-- `pbat/linenoise/linenoise.c` lines 766-858, `refreshMultiLine`, the mode pBat selects
(`pBat_LineNoise.c` line 44).  pBat gives no prompt (line 46 there) and no hints.  A terminal
without columns makes the divisions `ub`.  Overflow of `int` is not modelled. -/
def refresh (u : CharTables) (l : LnState) : Res LnState := do
  let colpos ← columns u l.cols l.buf.length l.buf.length l.buf 0 0 l.plen
  if l.cols = 0 then .ub
  else
    let rows := (l.plen + colpos + l.cols - 1) / l.cols
    let rpos := (l.plen + l.oldcol + l.cols) / l.cols
    let old := l.maxrows
    let maxrows := max rows old
    let o1 := if old > rpos then [TermOp.down (old - rpos)] else []
    let o2 := (List.replicate (old - 1) [TermOp.cr, .clear, .up 1]).flatten
    let o3 := if l.plen = 0 then [TermOp.cr, .clear] else [TermOp.cr, .right l.plen, .clear]
    let colpos2 ← columns u l.cols l.pos l.buf.length l.buf 0 0 l.plen
    let wrap := l.pos ≠ 0 ∧ l.pos = l.buf.length ∧ (colpos2 + l.plen) % l.cols = 0
    let o4 := if wrap then [TermOp.nl, .cr] else []
    let rows := if wrap then rows + 1 else rows
    let maxrows := max rows maxrows
    let rpos2 := (l.plen + colpos2 + l.cols) / l.cols
    let o5 := if rows > rpos2 then [TermOp.up (rows - rpos2)] else []
    let col := (l.plen + colpos2) % l.cols
    let o6 := if col ≠ 0 then [TermOp.cr, .right col] else [TermOp.cr]
    .ok { l with oldcol := colpos2, maxrows := maxrows,
                 out := l.out ++ o1 ++ o2 ++ o3 ++ [TermOp.text l.buf] ++ o4 ++ o5 ++ o6 }

/-- `pbat/linenoise/linenoise.c` lines 872-896, `linenoiseEditInsert` -/
def lnInsert (u : CharTables) (l : LnState) (c : List Nat) : Res LnState :=
  if l.buf.length + c.length ≤ lnRoom then
    if l.buf.length = l.pos then
      refresh u { l with buf := l.buf ++ c, pos := l.pos + c.length }
    else
      refresh u { l with buf := l.buf.take l.pos ++ c ++ l.buf.drop l.pos,
                         pos := l.pos + c.length }
  else .ok l

/-- `pbat/linenoise/linenoise.c` lines 899-904, `linenoiseEditMoveLeft` -/
def lnLeft (u : CharTables) (l : LnState) : Res LnState :=
  if l.pos > 0 then do
    let n ← prevGlyph u l.pos 0 (l.buf.take l.pos)
    refresh u { l with pos := l.pos - n }
  else .ok l

/-- `pbat/linenoise/linenoise.c` lines 907-912, `linenoiseEditMoveRight` -/
def lnRight (u : CharTables) (l : LnState) : Res LnState :=
  if l.pos ≠ l.buf.length then do
    let n ← nextGlyph u (l.buf.drop l.pos)
    refresh u { l with pos := l.pos + n.1 }
  else .ok l

/-- `pbat/linenoise/linenoise.c` lines 915-920, `linenoiseEditMoveHome` -/
def lnHome (u : CharTables) (l : LnState) : Res LnState :=
  if l.pos ≠ 0 then refresh u { l with pos := 0 } else .ok l

/-- `pbat/linenoise/linenoise.c` lines 923-928, `linenoiseEditMoveEnd` -/
def lnEnd (u : CharTables) (l : LnState) : Res LnState :=
  if l.pos ≠ l.buf.length then refresh u { l with pos := l.buf.length } else .ok l

/-- `pbat/linenoise/linenoise.c` lines 949-951, the entry shown instead of the line: `strncpy`
of at most `buflen` bytes, the last of which is then overwritten. -/
def lnLoad (e : List Nat) : List Nat := e.take (lnRoom - 1)

/-- `pbat/linenoise/linenoise.c` lines 934-954, `linenoiseEditHistoryNext`; `prev` is
`dir == LINENOISE_HISTORY_PREV`.  An index outside the history is `ub`. -/
def lnHistory (u : CharTables) (l : LnState) (prev : Bool) : Res LnState :=
  if l.hist.length > 1 then
    if l.idx ≥ l.hist.length then .ub
    else
      let hist := l.hist.set (l.hist.length - 1 - l.idx) (lnStr l.buf)
      if prev then
        if l.idx + 1 ≥ l.hist.length then
          .ok { l with hist := hist, idx := l.hist.length - 1 }
        else
          let e := lnLoad (hist.getD (l.hist.length - 1 - (l.idx + 1)) [])
          refresh u { l with hist := hist, idx := l.idx + 1, buf := e, pos := e.length }
      else
        if l.idx = 0 then .ok { l with hist := hist, idx := 0 }
        else
          let e := lnLoad (hist.getD (l.hist.length - 1 - (l.idx - 1)) [])
          refresh u { l with hist := hist, idx := l.idx - 1, buf := e, pos := e.length }
  else .ok l

/-- `pbat/linenoise/linenoise.c` lines 958-966, `linenoiseEditDelete` -/
def lnDelete (u : CharTables) (l : LnState) : Res LnState :=
  if l.buf.length > 0 ∧ l.pos < l.buf.length then do
    let n ← nextGlyph u (l.buf.drop l.pos)
    refresh u { l with buf := l.buf.take l.pos ++ l.buf.drop (l.pos + n.1) }
  else .ok l

/-- `pbat/linenoise/linenoise.c` lines 969-978, `linenoiseEditBackspace` -/
def lnBackspace (u : CharTables) (l : LnState) : Res LnState :=
  if l.pos > 0 ∧ l.buf.length > 0 then do
    let n ← prevGlyph u l.pos 0 (l.buf.take l.pos)
    refresh u { l with buf := l.buf.take (l.pos - n) ++ l.buf.drop l.pos, pos := l.pos - n }
  else .ok l

/-- `pbat/linenoise/linenoise.c` lines 986-989, the two loops of `linenoiseEditDeletePrevWord`:
the new position, given the bytes before the old one, nearest first -/
def wordStart (s : List Nat) : Nat :=
  ((s.dropWhile (· = 32)).dropWhile (· ≠ 32)).length

/-- `pbat/linenoise/linenoise.c` lines 982-994, `linenoiseEditDeletePrevWord` -/
def lnDelWord (u : CharTables) (l : LnState) : Res LnState :=
  let p := wordStart (l.buf.take l.pos).reverse
  refresh u { l with buf := l.buf.take p ++ l.buf.drop l.pos, pos := p }

/-- `pbat/linenoise/linenoise.c` lines 1086-1094, `CTRL_T` -/
def lnSwap (u : CharTables) (l : LnState) : Res LnState :=
  if 0 < l.pos ∧ l.pos < l.buf.length then
    let a := l.buf.getD (l.pos - 1) 0
    let b := l.buf.getD l.pos 0
    refresh u { l with buf := (l.buf.set (l.pos - 1) b).set l.pos a,
                       pos := if l.pos ≠ l.buf.length - 1 then l.pos + 1 else l.pos }
  else .ok l

/-- `pbat/linenoise/linenoise.c` lines 1165-1169, `CTRL_U` -/
def lnKill (u : CharTables) (l : LnState) : Res LnState :=
  refresh u { l with buf := [], pos := 0 }

/-- `pbat/linenoise/linenoise.c` lines 1170-1174, `CTRL_K` -/
def lnKillEnd (u : CharTables) (l : LnState) : Res LnState :=
  refresh u { l with buf := l.buf.take l.pos }

/-- `pbat/linenoise/linenoise.c` lines 1181-1184, `CTRL_L` -/
def lnClear (u : CharTables) (l : LnState) : Res LnState :=
  refresh u { l with out := l.out ++ [.cls] }

/-- the outcome of reading one character -/
inductive ReadCode
  /-- `nread <= 0`, with the bytes left -/
  | stop (rest : List Nat)
  /-- the bytes, the code, the bytes left -/
  | got (bytes : List Nat) (c : Nat) (rest : List Nat)

/-- `pbat/linenoise/utf8.c` lines 482-507, `linenoiseUtf8ReadCode`.  `inp` holds the bytes that
the terminal will ever deliver.  A read that delivers less than asked for leaves bytes of the
buffer unset (`ub`); errors of `read` are not modelled. -/
def readCode (inp : List Nat) : Res ReadCode :=
  match inp with
  | [] => .ok (.stop [])
  | b :: r =>
    let more (k : Nat) : Res ReadCode :=
      if r = [] ∧ 0 < k then .ok (.stop [])
      else if r.length < k then .ub
      else match utf8Code (b :: r.take k) with
        | none => .ub
        | some (n, c) => .ok (.got ((b :: r.take k).take n) c (r.drop k))
    if b &&& 0x80 = 0 then more 0
    else if b &&& 0xE0 = 0xC0 then more 1
    else if b &&& 0xF0 = 0xE0 then more 2
    else if b &&& 0xF8 = 0xF0 then more 3
    else .ok (.stop r)

/-- `pbat/linenoise/linenoise.c` lines 473-488, `xlibcu8_completion_get_item`: the loop, given
the bytes before the position, nearest first; the number of bytes gone back -/
def itemLen : Bool → List Nat → Nat
  | _, [] => 0
  | quotes, b :: r =>
    if b = 34 then itemLen (!quotes) r + 1
    else if quotes = false ∧ (b = 9 ∨ b = 32 ∨ b = 38 ∨ b = 124) then 0
    else itemLen quotes r + 1

/-- `pbat/linenoise/linenoise.c` lines 461-507, `xlibcu8_completion_get_item` -/
def completionItem (before after : List Nat) : List Nat :=
  let n := itemLen (after.head? = some 34) before.reverse
  let s := before.drop (before.length - n)
  match s with
  | 34 :: r => lnStr r
  | _ => lnStr s

/-- what the completion callback answers (`pBat_CompletionHandler`) -/
inductive Reply
  /-- nothing: no file matches -/
  | none
  /-- `(char*) -1`: the matching files are to be listed -/
  | many
  /-- text to be inserted -/
  | one (s : List Nat)

/-- `pbat/linenoise/linenoise.c` lines 532-582, `completeLine` with `xlibcu8_completion_insert`
(509-524).  The text behind the cursor is moved with `memcpy`: `ub` when source and destination
overlap.  What the list of files prints is not modelled. -/
def lnComplete (u : CharTables) (complete : List Nat → Reply) (l : LnState) : Res LnState :=
  match complete (completionItem (l.buf.take l.pos) (l.buf.drop l.pos)) with
  | .none => refresh u l
  | .many => do
    let l1 ← refresh u { l with pos := l.buf.length }
    refresh u { l1 with pos := l.pos }
  | .one s =>
    if lnRoom - l.buf.length < s.length then refresh u l
    else if s.length < l.buf.length - l.pos then .ub
    else refresh u { l with buf := l.buf.take l.pos ++ s ++ l.buf.drop l.pos,
                            pos := l.pos + s.length }

/-- `pbat/linenoise/linenoise.c` lines 1107-1161, `ESC`: the bytes after the escape character.
At the end of the input the bytes of the sequence stay unset (`ub`). -/
def lnEscape (u : CharTables) (l : LnState) (inp : List Nat) : Res (LnState × List Nat) :=
  match inp with
  | s0 :: s1 :: r =>
    if s0 = 91 then
      if 48 ≤ s1 ∧ s1 ≤ 57 then
        match r with
        | s2 :: r2 =>
          if s2 = 126 ∧ s1 = 51 then do let l ← lnDelete u l; .ok (l, r2)
          else .ok (l, r2)
        | [] => .ub
      else do
        let l ←
          (if s1 = 65 then lnHistory u l true
          else if s1 = 66 then lnHistory u l false
          else if s1 = 67 then lnRight u l
          else if s1 = 68 then lnLeft u l
          else if s1 = 72 then lnHome u l
          else if s1 = 70 then lnEnd u l
          else .ok l)
        .ok (l, r)
    else if s0 = 79 then do
      let l ←
        (if s1 = 72 then lnHome u l
        else if s1 = 70 then lnEnd u l
        else .ok l)
      .ok (l, r)
    else .ok (l, r)
  | _ => .ub

/-- what one round of the loop leads to -/
inductive LnNext
  /-- the loop goes on -/
  | more (l : LnState) (inp : List Nat)
  /-- the loop is left and the line returned -/
  | done (l : LnState) (inp : List Nat)
  /-- the loop is left with -1 -/
  | fail (l : LnState) (inp : List Nat)

/-- the state goes on with the input that is left -/
def goOn (inp : List Nat) (r : Res LnState) : Res LnNext := do let l ← r; .ok (.more l inp)

/-- `pbat/linenoise/linenoise.c` lines 1035-1189: one round of the loop of `linenoiseEdit`.
`pBat_InitCompletion` has registered a callback (line 1047). -/
def lnKey (u : CharTables) (complete : List Nat → Reply) (l : LnState) (inp : List Nat) :
    Res LnNext := do
  match ← readCode inp with
  | .stop rest => .ok (.done l rest)
  | .got bytes c rest =>
    if c = 9 then goOn rest (lnComplete u complete l)
    else if c = 13 then do
      let l ← lnEnd u { l with hist := l.hist.dropLast }
      .ok (.done l rest)
    else if c = 3 then .ok (.fail l rest)
    else if c = 127 ∨ c = 8 then goOn rest (lnBackspace u l)
    else if c = 4 then
      if l.buf.length > 0 then goOn rest (lnDelete u l)
      else .ok (.fail { l with hist := l.hist.dropLast } rest)
    else if c = 20 then goOn rest (lnSwap u l)
    else if c = 2 then goOn rest (lnLeft u l)
    else if c = 6 then goOn rest (lnRight u l)
    else if c = 16 then goOn rest (lnHistory u l true)
    else if c = 14 then goOn rest (lnHistory u l false)
    else if c = 27 then do
      let p ← lnEscape u l rest
      .ok (.more p.1 p.2)
    else if c = 21 then goOn rest (lnKill u l)
    else if c = 11 then goOn rest (lnKillEnd u l)
    else if c = 1 then goOn rest (lnHome u l)
    else if c = 5 then goOn rest (lnEnd u l)
    else if c = 12 then goOn rest (lnClear u l)
    else if c = 23 then goOn rest (lnDelWord u l)
    else goOn rest (lnInsert u l bytes)

/-- `pbat/linenoise/linenoise.c` lines 1035-1189: the loop.  Every round that goes on has taken
a byte of the input at least, so the bytes bound the number of rounds. -/
def lnLoop (u : CharTables) (complete : List Nat → Reply) (fuel : Nat) (l : LnState)
    (inp : List Nat) : Res LnNext :=
  match fuel with
  | 0 => .hang
  | fuel + 1 => do
    match ← lnKey u complete l inp with
    | .more l inp => lnLoop u complete fuel l inp
    | r => .ok r

/-- `pbat/linenoise/linenoise.c` lines 1341-1368, `linenoiseHistoryAdd`; failing allocations are
not modelled -/
def histAdd (h : List (List Nat)) (line : List Nat) : List (List Nat) :=
  if h.getLast? = some line then h
  else if h.length = lnHistMax then h.drop 1 ++ [line]
  else h ++ [line]

/-- `pbat/linenoise/linenoise.c` lines 1004-1034, the begin of `linenoiseEdit`; `plen` is the
column of the cursor as the terminal reports it. -/
def lnStart (hist : List (List Nat)) (cols plen : Nat) : LnState :=
  { buf := [], pos := 0, hist := histAdd hist [], idx := 0, cols := cols, plen := plen,
    oldcol := 0, maxrows := 0, out := [] }

/-- `pbat/linenoise/pBat_LineNoise.c` lines 32-64, `pBat_LineNoise`, with `linenoise` (lines
1279-1304 of `linenoise.c`) on a terminal: the line (`none` when 1 is returned), the history and
the input that is left. -/
def lnRead (u : CharTables) (complete : List Nat → Reply) (cols plen : Nat)
    (hist : List (List Nat)) (inp : List Nat) :
    Res (Option (List Nat) × List (List Nat) × List Nat) := do
  match ← lnLoop u complete (inp.length + 1) (lnStart hist cols plen) inp with
  | .done l rest => .ok (some (lnStr l.buf), histAdd l.hist (lnStr l.buf), rest)
  | .fail l rest => .ok (none, l.hist, rest)
  | .more _ _ => .hang

/-- Prompt after prompt: `pBat_LineNoise` is called for each line (`pbat/core/pBat_Read.c`
lines 146-262), the history stays in the static variables of `linenoise.c` (lines 167-169).
`dims` holds the columns of the terminal and the column of the cursor at each prompt.
Here each prompt finds what the last one did not take; that the change of the modes of the
terminal drops it is modelled in Model/Tty.lean. -/
def lnReads (u : CharTables) (complete : List Nat → Reply) :
    List (Nat × Nat) → List (List Nat) → List Nat →
    Res (List (Option (List Nat)) × List (List Nat) × List Nat)
  | [], hist, inp => .ok ([], hist, inp)
  | d :: ds, hist, inp => do
    let r ← lnRead u complete d.1 d.2 hist inp
    let s ← lnReads u complete ds r.2.1 r.2.2
    .ok (r.1 :: s.1, s.2)

end PBat
