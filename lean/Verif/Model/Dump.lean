import Verif.Model.Mem
import Verif.Model.Num
import Verif.Model.If
/-
Model of the program DUMP, `dump/dump.c`, on a 64 bit little-endian system where `char` is signed (x86-64, glibc).  Bytes are numbers below 256.
Simplifications: allocation does not fail; messages on the error output are left out; `printf` with a type of the same size and other sign shows
the same bits; addresses do not wrap around.
-/
namespace PBat

/-- `types`, dump/dump.c:123-135, with the limits of dump/dump_h_gen.c:44-63: the name, the size, and the longer of the lengths of `max` and `min`. -/
def dumpTypes : List (List Char × Nat × Nat) :=
  [(['c'], 1, 4), (['u', 'c'], 1, 3), (['s'], 2, 6), (['u', 's'], 2, 5), (['i'], 4, 11), (['u', 'i'], 4, 10), (['l', 'l'], 8, 20),
   (['u', 'l', 'l'], 8, 20), (['f'], 4, 14), (['d'], 8, 23)]

/-- `struct dump_t`, dump/dump.c:94-101; of the flags only `DUMP_HEX` can be changed without undefined behaviour (`dumpOption`), so that
`DUMP_ADDRESS`, `DUMP_CHARS` and `DUMP_TITLE` are set and `DUMP_QUIET` is not. -/
structure DumpCtx where
  hex : Bool
  size : Nat
  type : Nat
  n : Nat
  width : Nat

/-- `fill_context`, dump/dump.c:173-200: `a` is 17, `s` is 1 and `c` is the size. -/
def fillContext (type : Nat) (hex : Bool) : DumpCtx :=
  let t := dumpTypes.getD type ([], 0, 0)
  let w := if hex then t.2.1 * 2 else t.2.2
  { hex := hex, size := t.2.1, type := type, n := (80 - 17) / (w + 1 + t.2.1), width := w }

/-- `get_type`, dump/dump.c:202-217. -/
def getType (t : List Char) : Option Nat := dumpTypes.findIdx? fun d => stricmp t d.1 == 0

/-- The bytes of an object in memory, the least first. -/
def leNat : List Nat → Nat
  | [] => 0
  | b :: bs => b + 256 * leNat bs

/-- The same as a number with a sign, of `k` bytes. -/
def leInt (k : Nat) (bs : List Nat) : Int := if 2 ^ (8 * k - 1) ≤ leNat bs then (leNat bs : Int) - 2 ^ (8 * k) else leNat bs

/-- `%x` of a number. C library. -/
def hexText (n : Nat) : List Char :=
  if n < 16 then ["0123456789abcdef".toList.getD n '0'] else hexText (n / 16) ++ ["0123456789abcdef".toList.getD (n % 16) '0']

/-- Digits made at least as long as a width by zeros. -/
def zeroPad (w : Nat) (t : List Char) : List Char := List.replicate (w - t.length) '0' ++ t

/-- `%0wd`, `%0wu` and their long forms. C library. -/
def padInt (w : Nat) (i : Int) : List Char := if i < 0 then '-' :: zeroPad (w - 1) (natText (-i).toNat) else zeroPad w (natText i.toNat)

/-- `GET_CAST(context->type, p, printf, context->format)`, dump/dump.c:73-92 and 255, with the format of dump/dump.c:185-187.  The macros compare the
index in `types` with the numbers of dump/dump.c:50-60, where `DUMP_LONGLONG` is `DUMP_UINT`: the types from `ll` on are read as the one before.
`ull` gives a `float` to `%llu`; `f` reads eight bytes at each element of four, the last of which is at the end of the buffer; `d` matches nothing. -/
def dumpValue (c : DumpCtx) (bs : List Nat) : Res (List Char) :=
  match c.type with
  | 0 => .ok (if c.hex then zeroPad c.width (hexText (leInt 1 bs % 2 ^ 32).toNat) else padInt c.width (leInt 1 bs))
  | 1 => .ok (if c.hex then zeroPad c.width (hexText (leNat bs)) else padInt c.width (leNat bs))
  | 2 => .ok (if c.hex then zeroPad c.width (hexText (leInt 2 bs % 2 ^ 32).toNat) else padInt c.width (leInt 2 bs))
  | 3 => .ok (if c.hex then zeroPad c.width (hexText (leNat bs)) else padInt c.width (leNat bs))
  | 4 => .ok (if c.hex then zeroPad c.width (hexText (leInt 4 bs % 2 ^ 32).toNat) else padInt c.width (leInt 4 bs))
  | 5 => .ok (if c.hex then zeroPad c.width (hexText (leNat bs)) else padInt c.width (leNat bs))
  | 6 => .ok (if c.hex then zeroPad c.width (hexText (leNat bs)) else padInt c.width (leInt 8 bs))
  | 7 => .ub
  | 8 => .ub
  | _ => .ok []

/-- The loop on the elements, dump/dump.c:252-259: `k` of them. -/
def dumpValues (c : DumpCtx) : Nat → List Nat → Res (List Char)
  | 0, _ => .ok []
  | k + 1, data => do
    let t ← dumpValue c (data.take c.size)
    let r ← dumpValues c k (data.drop c.size)
    .ok (t ++ ' ' :: r)

/-- The characters: those below a blank become points, dump/dump.c:283-290; bytes from 128 on are negative. -/
def dumpChar (b : Nat) : Nat := if b < 32 ∨ 128 ≤ b then 46 else b

/-- `printf("%s", chars)` of a buffer some bytes of which nobody wrote. -/
def putChars : List (Option Nat) → Res (List Char)
  | [] => .ub
  | none :: _ => .ub
  | some 0 :: _ => .ok []
  | some b :: r => do
    let t ← putChars r
    .ok (Char.ofNat b :: t)

/-- The loop of dump/dump.c:283-290: a byte nobody wrote is compared. -/
def dumpDots : List (Option Nat) → Res (List (Option Nat))
  | [] => .ok []
  | none :: _ => .ub
  | some b :: r => do
    let t ← dumpDots r
    .ok (some (dumpChar b) :: t)

/-- `%p`. C library (glibc). -/
def ptrText (a : Nat) : List Char := if a = 0 then "(nil)".toList else '0' :: 'x' :: hexText a

/-- One turn of the loop of `dump_fd`, dump/dump.c:233-297, after `read` gave `bs`: the line, and the buffer `chars` after it. -/
def dumpRow (c : DumpCtx) (addr : Nat) (chars : List (Option Nat)) (bs : List Nat) : Res (List Char × List (Option Nat)) := do
  let size := c.n * c.size
  let data := bs ++ List.replicate (size - bs.length) 0
  let count := if bs.length < size ∧ bs.length % c.size ≠ 0 then bs.length + (c.size - bs.length % c.size) else bs.length
  let vs ← dumpValues c (count / c.size) data
  let blanks := (List.replicate (c.n - count / c.size) (List.replicate c.width ' ' ++ [' '])).flatten
  let copied := (data.take count).map some ++ some 0 :: chars.drop (count + 1)
  let dots ← dumpDots (copied.take size)
  let chars' := dots ++ copied.drop size
  let t ← putChars chars'
  .ok (ptrText addr ++ ' ' :: vs ++ blanks ++ t ++ ['\n'], chars')

/-- The loop of `dump_fd`, dump/dump.c:233-300, on what `read` gives: bytes, or an error (-1), after which `memcpy` is asked for `(size_t)-1` bytes. -/
def dumpLoop (c : DumpCtx) (addr : Nat) (chars : List (Option Nat)) : List (Option (List Nat)) → Res (List Char)
  | [] => .ok []
  | none :: _ => .ub
  | some bs :: rs => do
    let l ← dumpRow c addr chars bs
    let r ← dumpLoop c (addr + c.n * c.size) l.2 rs
    .ok (l.1 ++ r)

/-- `dump_fd`, dump/dump.c:219-308. -/
def dumpFd (c : DumpCtx) (reads : List (Option (List Nat))) : Res (List Char) := dumpLoop c 0 (List.replicate (c.n * c.size + 1) none) reads

/-- What is done with an argument: the variables `type` and `flags & DUMP_HEX` go on, a file is dumped, or the program ends with a status. -/
inductive DumpArg where
  | go (type : Nat) (hex : Bool)
  | file
  | stop (status : Int)

/-- One turn of the loop of `main`, dump/dump.c:342-406.  `while (*argv)` never ends inside the argument: `*argv` is the address of a character. -/
def dumpOption (type : Nat) (hex : Bool) (a : List Char) : Res DumpArg :=
  if prefixI ['/', 'T'] a then
    match getType (if (a.drop 2).head? = some ':' then a.drop 3 else a.drop 2) with
    | none => .ok (.stop 1)
    | some t => .ok (.go t hex)
  else if stricmp a ['/', 'H'] = 0 then .ok (.go type true)
  else if prefixI ['/', 'B'] a then .ub
  else if stricmp a ['/', '?'] = 0 then .ok (.stop 0)
  else .ok .file

/-- The loop of `main` and its end, dump/dump.c:342-417; `files` gives what the reads of a file give, `none` if it cannot be opened, and `input` what those of
the standard input give.  What is written and the status. -/
def dumpArgs (files : List Char → Option (List (Option (List Nat)))) (input : List (Option (List Nat))) (type : Nat) (hex : Bool) (n : Nat) :
    List (List Char) → Res (List Char × Int)
  | [] =>
    if n = 0 then do
      let out ← dumpFd (fillContext type hex) input
      .ok (out, 0)
    else .ok ([], 0)
  | a :: as => do
    let s ← dumpOption type hex a
    match s with
    | .stop st => .ok ([], st)
    | .go t h => dumpArgs files input t h n as
    | .file =>
      match files a with
      | none => .ok ([], 2)
      | some reads => do
        let out ← dumpFd (fillContext type hex) reads
        let r ← dumpArgs files input type hex (n + 1) as
        .ok (a ++ " -----------------\n".toList ++ out ++ r.1, r.2)

/-- `main`, dump/dump.c:326-419, on the arguments after the name of the program. -/
def dumpMain (files : List Char → Option (List (Option (List Nat)))) (input : List (Option (List Nat))) (args : List (List Char)) : Res (List Char × Int) :=
  dumpArgs files input 0 false 0 args

end PBat
