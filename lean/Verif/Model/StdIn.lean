/-
Model of what commands read from their standard input, and of the redirections of it.  Code: pbat/core/pBat_Stream.h:66-98 (the macros that move
a stream to another file) and pbat/core/pBat_Stream.c:74-280; the readers are the loops of SET /P, FIND, XARGS, TYPE, MORE, WC, of the questions
of DEL, COPY and MOVE, and the programs that are started.

The stream `fInput` reads ahead: what it holds belongs to the file its descriptor referred to when it was read.

What the macros do with it depends on the C library.  Of the library these points are kept: what `fflush` does with what was read ahead of a stream
that is only read, and whether the mark for the end of the file stays until it is cleared.  `Lib.ms` is a library that behaves as the comment at
pBat_Stream.h:81-86 expects (`fflush` drops what was read ahead and does not move the descriptor); `Lib.gnu` and `Lib.musl` are the two usual libraries
of Linux: both move the descriptor back *from where it is* by what was read ahead, both keep the mark for the end of the file (as the C
standard asks); when the descriptor cannot be moved, the first keeps what was read ahead, the second drops it.

Simplifications: a source is a file or a pipe and its bytes are there from the start (a terminal: C106); how much a system call reads is
arbitrary; no system call fails but those that would move a descriptor before its beginning or that of a pipe; `setvbuf` (pBat_Stream.h:66-70) does not
change what is held; newlines are not translated; one thread, and no lock on the stack of redirections (C93).
-/
namespace PBat.In

/-- What `fflush` does with what a stream read ahead. -/
inductive Sync
  /-- forgets it -/
  | drop
  /-- moves the descriptor back by that much and forgets it; keeps it if the descriptor cannot be moved -/
  | back
  /-- moves the descriptor back by that much if possible, and forgets it -/
  | backDrop
  deriving DecidableEq, Repr

/-- The C library: `fflush`, and whether a stream that met the end of its file stays at the end until `clearerr`. -/
structure Lib where
  sync : Sync
  sticky : Bool
  deriving DecidableEq, Repr

def Lib.ms : Lib := { sync := .drop, sticky := false }
def Lib.gnu : Lib := { sync := .back, sticky := true }
def Lib.musl : Lib := { sync := .backDrop, sticky := true }

/-- An open file: its bytes, the place of the next one, whether the place can be changed (no for a pipe). -/
structure Desc where
  data : List UInt8
  pos : Nat
  seek : Bool
  deriving DecidableEq, Repr

/-- The bytes still to be read. -/
def Desc.rest (d : Desc) : List UInt8 := d.data.drop d.pos

/-- `fInput`: the open file of its descriptor, what was read ahead, the mark for the end of the file; and the open files saved in the
items of the stack of redirections (`oldfd`). -/
structure St where
  cur : Desc
  buf : List UInt8
  eof : Bool
  stack : List Desc
  deriving DecidableEq, Repr

/-- `fgetc(fInput)`; when something has to be read, the system call reads `k` bytes if there are so many, and at least one if there is one. -/
def getc (l : Lib) (k : Nat → Nat) (s : St) : Option UInt8 × St :=
  match s.buf with
  | b :: r => (some b, { s with buf := r })
  | [] =>
    if l.sticky && s.eof then (none, s)
    else
      match s.cur.rest.take (max 1 (k s.cur.pos)) with
      | [] => (none, { s with eof := true })
      | b :: r => (some b, { s with buf := r, cur := { s.cur with pos := s.cur.pos + (r.length + 1) } })

/-- Reading with `fgetc` until `stop` says so or the end is met; `fgets` and `fread` read the same bytes. -/
def getMany (l : Lib) (k : Nat → Nat) (stop : UInt8 → Bool) : Nat → St → List UInt8 × St
  | 0, s => ([], s)
  | n + 1, s =>
    match getc l k s with
    | (none, s') => ([], s')
    | (some b, s') =>
      if stop b then ([b], s')
      else
        let r := getMany l k stop n s'
        (b :: r.1, r.2)

/-- More steps than there are bytes. -/
def fuel (s : St) : Nat := s.buf.length + s.cur.rest.length + 1

/-- A line as SET /P reads it: `pBat_EsGet` at pbat/command/pBat_Set.c:335, the loop of `fgets` at libpbat/estr/pBat_Estr.c:213-260 (C04). -/
def gets (l : Lib) (k : Nat → Nat) (s : St) : List UInt8 × St := getMany l k (· == 10) (fuel s) s

/-- Everything: the loops of FIND (pbat/command/pBat_Find.c:126), XARGS (pBat_Xargs.c:80), TYPE (pBat_Type.c:58), MORE (pBat_More.c:274).  The
mark for the end is only cleared for a terminal (pBat_Find.c:155, pBat_Xargs.c:100, pBat_Type.c:61, pBat_More.c:308). -/
def all (l : Lib) (k : Nat → Nat) (s : St) : List UInt8 × St := getMany l k (fun _ => false) (fuel s) s

/-- What is read from the descriptor of `fInput` without the stream: by WC (pbat/command/pBat_Wc.c:78, 91), by questions
(pBat_Ask.c:66), and by the programs started, which get the same open file (pBat_Stream.c:264: the macro is applied to `stdin`, with which
nothing was read). -/
def direct (n : Nat) (s : St) : List UInt8 × St :=
  (s.cur.rest.take n, { s with cur := { s.cur with pos := s.cur.pos + (s.cur.rest.take n).length } })

/-- `lseek(fileno(s), ftell(s), SEEK_SET)`, pBat_Stream.h:89: `ftell` is the place of the descriptor less what was read ahead. -/
def seekBack (n : Nat) (d : Desc) : Desc :=
  if d.seek && decide (n ≤ d.pos) then { d with pos := d.pos - n } else d

/-- `fflush(s)`, pBat_Stream.h:90. -/
def flush (l : Lib) (s : St) : St :=
  match l.sync with
  | .drop => { s with buf := [] }
  | .back =>
    if s.buf = [] then s
    else if s.cur.seek && decide (s.buf.length ≤ s.cur.pos)
    then { s with buf := [], cur := { s.cur with pos := s.cur.pos - s.buf.length } }
    else s
  | .backDrop =>
    if s.cur.seek && decide (s.buf.length ≤ s.cur.pos)
    then { s with buf := [], cur := { s.cur with pos := s.cur.pos - s.buf.length } }
    else { s with buf := [] }

/-- `PBAT_DUP_STDIN(fd, fInput)`, pBat_Stream.h:87-92, before the `dup2`. -/
def leave (l : Lib) (s : St) : St := flush l { s with cur := seekBack s.buf.length s.cur }

/-- `pBat_OpenOutput` and `pBat_OpenOutputD` for the input, pbat/core/pBat_Stream.c:126-130, 180-183: the file of `oldfd` and that of the
descriptor are the same while the macro runs. -/
def openIn (l : Lib) (d : Desc) (s : St) : St :=
  let t := leave l s
  { t with cur := d, stack := t.cur :: t.stack }

/-- `pBat_PopStreamStack` for the input, pBat_Stream.c:219-222. -/
def pop (l : Lib) (s : St) : St :=
  let t := leave l s
  match t.stack with
  | [] => s
  | d :: r => { t with cur := d, stack := r }

/-- What commands do with their input. -/
inductive Op
  | getc (k : Nat → Nat)
  | gets (k : Nat → Nat)
  | all (k : Nat → Nat)
  | direct (n : Nat)
  | openIn (d : Desc)
  | pop

/-- One of them: what was read, and the state after. -/
def step (l : Lib) (s : St) : Op → List UInt8 × St
  | .getc k => let r := getc l k s; (r.1.toList, r.2)
  | .gets k => gets l k s
  | .all k => all l k s
  | .direct n => direct n s
  | .openIn d => ([], openIn l d s)
  | .pop => ([], pop l s)

/-- A history: what each reads. -/
def run (l : Lib) : St → List Op → List (List UInt8) × St
  | s, [] => ([], s)
  | s, o :: os =>
    let r := step l s o
    let q := run l r.2 os
    (r.1 :: q.1, q.2)

end PBat.In
