import Verif.Model.Mem
/-
Model of the line editor of the library libcu8, which reads from the console on Windows: `libcu8_readconsole` and the
functions it uses, libcu8/src/read.c:262-628, 768-847, 858-1052.

The bytes of the line and the offset of the cursor are modelled; what is shown on the screen is not.  A failing `assert`
is counted as undefined behaviour.
-/
namespace PBat.Cu8

/-! ### Characters from the console -/

/-- `IS_SURROGATE`, libcu8/src/read.c:769. -/
def isSurrogate (w : Nat) : Bool := w &&& 0xD800 != 0
/-- `IS_SURROGATE_LOW`, libcu8/src/read.c:771. -/
def isLow (w : Nat) : Bool := isSurrogate w && (w &&& 0x0400 != 0)

/-- The part of `libcu8_get_console_input` behind `retry`, libcu8/src/read.c:785-812, for the units the console gives: the
units of a character and what follows, `none` when there are no more. -/
def getRetry : Nat → List Nat → Option (List Nat × List Nat)
  | w, rest =>
    if !isSurrogate w then some ([w], rest) else
      match rest with
      | [] => none
      | v :: rest => if isLow v then some ([w, v], rest) else getRetry v rest
termination_by _ rest => rest.length

/-- `libcu8_get_console_input`, libcu8/src/read.c:772-813. -/
def getInput : List Nat → Option (List Nat × List Nat)
  | [] => none
  | w :: rest => if isLow w then getInput rest else getRetry w rest

/-! ### The history -/

/-- An entry of the history: the block that holds its text, whether the pointer was damaged, and the text. -/
structure Entry where
  block : Nat
  wild : Bool
  text : List Nat
  deriving DecidableEq, Repr

/-- `libcu8_history`, the blocks that were freed and the number of the next block. -/
structure Hist where
  entries : List Entry := []
  freed : List Nat := []
  next : Nat := 0
  deriving DecidableEq, Repr

/-- `LIBCU8_HISTORY_SIZE`, libcu8/src/internals.h:119. -/
def histSize : Nat := 50

/-- `memmove` of 49 bytes instead of 49 entries, libcu8/src/read.c:880-881: `k` entries are moved (3 of 16 bytes, or 6 of 8
bytes), and one byte of the next one, which is damaged unless both pointers have this byte in common. -/
def shiftBytes (k : Nat) (same : Nat → Nat → Bool) (l : List Entry) : List Entry :=
  (l.drop 1).take k ++ ((l.drop k).take 1).map (fun e =>
    match l[k + 1]? with
    | some f => if same e.block f.block then e else { e with wild := true }
    | none => e) ++ l.drop (k + 1)

/-- `libcu8_history_add_entry`, libcu8/src/read.c:858-890. -/
def histAdd (k : Nat) (same : Nat → Nat → Bool) (line : List Nat) (h : Hist) : Res Hist :=
  let text := if line.getLast? = some 10 then line.dropLast else line
  let new : Entry := ⟨h.next, false, text⟩
  if h.entries.length < histSize then .ok { h with entries := h.entries ++ [new], next := h.next + 1 }
  else
    match h.entries with
    | [] => .ub
    | e :: _ =>
      if e.wild = true ∨ e.block ∈ h.freed then .ub
      else .ok { entries := (shiftBytes k same h.entries).take (histSize - 1) ++ [new], freed := e.block :: h.freed, next := h.next + 1 }

/-! ### The line editor -/

/-- What a key does: the arrows and the like; `esc`, `back`, `enter`; `tab` with the text of the completion, if any; Ctrl-Z; a
character in UTF-8. -/
inductive EKey where
  | left | right | delete | up | down | toEnd | home | otherKey
  | esc | back | enter | stop
  | tab (completion : Option (List Nat))
  | char (utf8 : List Nat)
  deriving DecidableEq, Repr

/-- The line so far, the offset of the cursor, the entry of the history. -/
structure ESt where
  line : List Nat := []
  pos : Nat := 0
  hid : Int
  deriving DecidableEq, Repr

/-- How a key ends: the editor goes on, or the line is read, with the bytes for which there was no room. -/
inductive EOut where
  | more (s : ESt)
  | got (line remain : List Nat)
  deriving DecidableEq, Repr

/-- `IS_FOLLOWING_BYTE`, libcu8/src/read.c:894. -/
def isFollowing (b : Nat) : Bool := b &&& 0xC0 == 0x80

/-- The loop of `libcu8_previous_character`, libcu8/src/read.c:900-914, from `pos - 1`. -/
def backOver (line : List Nat) : Nat → Nat
  | 0 => 0
  | p + 1 => if isFollowing (line.getD (p + 1) 0) then backOver line p else p + 1

/-- `libcu8_previous_character`. -/
def prevChar (line : List Nat) (pos : Nat) : Nat := if pos = 0 then 0 else backOver line (pos - 1)

/-- `libcu8_next_character`, libcu8/src/read.c:916-929, on what is behind the cursor: the length of the character. -/
def nextLen : List Nat → Nat
  | [] => 0
  | _ :: t => 1 + (t.takeWhile isFollowing).length

/-- The loop ends when the buffer is full, libcu8/src/read.c:303. -/
def goOn (orig : Nat) (s : ESt) : Res EOut :=
  .ok (if s.line.length < orig then .more s else .got s.line [])

/-- An entry of the history is shown, libcu8/src/read.c:363-380, 400-423. -/
def showEntry (orig : Nat) (h : Hist) (hid : Int) (s : ESt) : Res EOut :=
  match h.entries[hid.toNat]? with
  | none => .ub
  | some e =>
    if e.text.length ≤ orig then
      if e.wild = true ∨ e.block ∈ h.freed then .ub
      else goOn orig { line := e.text, pos := e.text.length, hid := hid }
    else goOn orig { s with hid := hid }

/-- A character is put at the cursor, libcu8/src/read.c:559-609, with `libcu8_write_buffered`, libcu8/src/read.c:1056-1077: the
bytes of the line behind the cursor, or the last of them, go through the array `utf8`.  The cursor must not be behind the end
of the line, libcu8/src/read.c:642. -/
def putChar (orig : Nat) (u : List Nat) (s : ESt) : Res EOut :=
  let n := u.length
  let tail := s.line.drop s.pos
  let m := tail.length
  let r : List Nat × List Nat :=
    if m = 0 then (s.line, u)
    else if m < n then (s.line.take s.pos ++ u.take m, u.drop m ++ tail)
    else (s.line.take s.pos ++ u ++ tail.take (m - n), tail.drop (m - n))
  let room := orig - s.line.length
  let line := r.1 ++ r.2.take room
  if s.pos + n > line.length then .ub
  else .ok (if room < n ∨ line.length = orig then .got line (r.2.drop room) else .more { s with line := line, pos := s.pos + n })

/-- A key, libcu8/src/read.c:303-612.  `orig` is the size of the buffer. -/
def editKey (orig : Nat) (h : Hist) (k : EKey) (s : ESt) : Res EOut :=
  match k with
  | .left => .ok (.more (if s.pos > 0 then { s with pos := s.pos - 1 } else s))
  | .right => .ok (.more (if s.pos < s.line.length then { s with pos := s.pos + 1 } else s))
  | .delete => .ok (.more (if s.pos < s.line.length then
      { s with line := s.line.take s.pos ++ (s.line.drop s.pos).drop (nextLen (s.line.drop s.pos)) } else s))
  | .up =>
    let hid := if s.hid > 0 then s.hid - 1 else s.hid
    if (h.entries.length : Int) > hid then showEntry orig h hid s else .ok (.more { s with hid := hid })
  | .down =>
    let hid := if s.hid < (h.entries.length : Int) - 1 then s.hid + 1 else (h.entries.length : Int) - 1
    if hid < 0 then .ub else
    if (h.entries.length : Int) > hid then showEntry orig h hid s else .ok (.more { s with hid := hid })
  | .toEnd => .ok (.more { s with pos := s.line.length })
  | .home => .ok (.more { s with pos := 0 })
  | .otherKey => .ok (.more s)
  | .esc => .ok (.more { s with line := [], pos := 0 })
  | .back => .ok (.more (if s.pos > 0 then
      { s with line := s.line.take (prevChar s.line s.pos) ++ s.line.drop s.pos, pos := prevChar s.line s.pos } else s))
  | .tab none => .ok (.more s)
  | .tab (some c) =>
    -- `libcu8_completion_insert`, libcu8/src/read.c:1036-1052: `memcpy` of what is behind the cursor
    if orig - s.line.length < c.length then .ok (.more s)
    else if c.length < s.line.length - s.pos ∧ c ≠ [] then .ub
    else goOn orig { s with line := s.line.take s.pos ++ c ++ s.line.drop s.pos, pos := s.pos + c.length }
  | .enter => .ok (.got (s.line ++ [10]) [])
  | .stop => .ok (.got s.line [])
  | .char u => putChar orig u s

/-- The keys one after the other; `none` if there are no more before the line is read. -/
def editKeys (orig : Nat) (h : Hist) : List EKey → ESt → Res (Option (List Nat × List Nat × List EKey))
  | [], _ => .ok none
  | k :: ks, s =>
    (editKey orig h k s).bind fun
      | .more s => editKeys orig h ks s
      | .got line remain => .ok (some (line, remain, ks))

/-- `libcu8_readconsole`, libcu8/src/read.c:262-628: the line, the bytes for which there was no room, the keys left and the
history. -/
def readConsole (k : Nat) (same : Nat → Nat → Bool) (orig : Nat) (h : Hist) (keys : List EKey) :
    Res (Option (List Nat × List Nat × List EKey × Hist)) :=
  (editKeys orig h keys { hid := h.entries.length }).bind fun
    | none => .ok none
    | some (line, remain, rest) => (histAdd k same line h).bind fun h => .ok (some (line, remain, rest, h))

/-- Lines one after the other. -/
def readLines (k : Nat) (same : Nat → Nat → Bool) (orig : Nat) : List (List EKey) → Hist → Res (List (List Nat) × Hist)
  | [], h => .ok ([], h)
  | keys :: more, h =>
    (readConsole k same orig h keys).bind fun
      | none => .ok ([], h)
      | some (line, _, _, h) => (readLines k same orig more h).bind fun r => .ok (line :: r.1, r.2)

end PBat.Cu8
