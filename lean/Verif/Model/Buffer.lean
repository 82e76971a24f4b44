import Verif.Model.Stream
/-
Model of the buffering of the output: `pBat_DuplicateStdStreams` (pbat/init/pBat_Init.c), the macros of `pbat/core/pBat_Stream.h`, the functions
of `pbat/core/pBat_Stream.c`, and what the children made by `pBat_RunFile` and `pBat_StartFile` (pbat/core/pBat_Exec.c) do with the buffers they
inherit.

An open file is a number, and so is a terminal.  Files are written at their end: redirections open them with `O_APPEND`
(pbat/core/pBat_Stream.c:96-97), and it is assumed that the streams given to the interpreter are written at the end too.  Not modelled: errors of
`write`, `dup2` and `open`, the input, other threads (pipelines and `FOR /F`), and the larger buffer given to terminals by DIR and TYPE, which is
flushed before they return (pbat/command/pBat_Dir.c:243-248, pbat/command/pBat_Type.c:210-214).
-/
namespace PBat.Buf

variable {β : Type}

/-- Contents of the files. -/
abbrev Disk (β : Type) := Nat → List β

/-- `write`: the text is put at the end. -/
def app (d : Disk β) (c : Nat) (t : List β) : Disk β := fun x => if x = c then d x ++ t else d x

/-- Opening with `O_TRUNC`. -/
def cut (d : Disk β) (c : Nat) : Disk β := fun x => if x = c then [] else d x

/-- The libc: which files are terminals (`isatty`), and how many characters a fully buffered stream writes out when its buffer holds a text
(none as long as the buffer is not full, whole blocks afterwards; the number of characters is not fixed here). -/
structure Libc (β : Type) where
  tty : Nat → Bool
  spill : List β → Nat

/-- The streams of the interpreter: `io` is what they designate, `po` and `pe` are the texts in the buffers of `_fOutput` and `_fError`. -/
structure St (β : Type) where
  io : Io Nat
  po : List β
  pe : List β
  disk : Disk β

/-- `fputs` on `_fOutput`.  The stream is not buffered if it is a terminal, pbat/core/pBat_Stream.h:64-68 and pbat/init/pBat_Init.c:122-123. -/
def putOut (lc : Libc β) (s : St β) (t : List β) : St β :=
  let b := s.po ++ t
  let n := if lc.tty s.io.out then b.length else lc.spill b
  { s with po := b.drop n, disk := app s.disk s.io.out (b.take n) }

/-- `fputs` on `_fError`; pbat/init/pBat_Init.c:125-126. -/
def putErr (lc : Libc β) (s : St β) (t : List β) : St β :=
  let b := s.pe ++ t
  let n := if lc.tty s.io.err then b.length else lc.spill b
  { s with pe := b.drop n, disk := app s.disk s.io.err (b.take n) }

/-- `fputs` on `fOutput`, which is `_fOutput` or `_fError`. -/
def printOut (lc : Libc β) (s : St β) (t : List β) : St β := if s.io.outOwn then putOut lc s t else putErr lc s t

/-- `fputs` on `fError`. -/
def printErr (lc : Libc β) (s : St β) (t : List β) : St β := if s.io.errOut then putOut lc s t else putErr lc s t

/-- `fflush(_fOutput)`. -/
def flushOut (s : St β) : St β := { s with po := [], disk := app s.disk s.io.out s.po }

/-- `fflush(_fError)`. -/
def flushErr (s : St β) : St β := { s with pe := [], disk := app s.disk s.io.err s.pe }

/-- The `fflush` of `PBAT_DUP_STD`, pbat/core/pBat_Stream.h:76-79. -/
def flushFd (s : St β) : Fd → St β
  | .out => flushOut s
  | .err => flushErr s
  | _ => s

/-- `pBat_OpenOutput` for an output, pbat/core/pBat_Stream.c:76-153: the file is opened, and perhaps emptied, before the stream is flushed. -/
def openFd (s : St β) (f : Nat) (trunc : Bool) (fd : Fd) : St β :=
  let s := { s with disk := if trunc then cut s.disk f else s.disk }
  let s := flushFd s fd
  { s with io := s.io.openOutput f fd }

/-- `pBat_PopStreamStack`, pbat/core/pBat_Stream.c:191-230. -/
def pop (s : St β) : St β :=
  match s.io.stack with
  | [] => s
  | it :: _ =>
    if it.lock then s
    else
      let s := flushFd s it.fd
      { s with io := s.io.pop }

/-- What a program started by `pBat_RunFile` writes on its output (`false`) and on its error stream (`true`), in this order.  It writes to what
`fOutput` and `fError` designate, `pBat_ApplyStreams`, pbat/core/pBat_Stream.c:254-269. -/
def writes (io : Io Nat) : List (Bool × List β) → Disk β → Disk β
  | [], d => d
  | (e, t) :: ws, d => writes io ws (app d (if e then io.streams.2.2 else io.streams.2.1) t)

/-- What happens to the streams. -/
inductive Op (β : Type) where
  /-- An internal command prints on `fOutput`. -/
  | out (t : List β)
  /-- An internal command prints on `fError`. -/
  | err (t : List β)
  /-- `> f` and `>> f`. -/
  | openOut (f : Nat) (trunc : Bool)
  /-- `2> f` and `2>> f`. -/
  | openErr (f : Nat) (trunc : Bool)
  /-- `2>&1`. -/
  | errToOut
  /-- `1>&2`. -/
  | outToErr
  /-- The end of a redirection. -/
  | pop
  /-- A program is run. -/
  | run (ws : List (Bool × List β))
  /-- A program cannot be run. -/
  | fail
  /-- START gives a document to the start script, which prints nothing. -/
  | start
  /-- The start script cannot be run; the text is the message. -/
  | noStart (m : List β)
  /-- Ctrl-C. -/
  | brk

/-- One operation; `io0` is what the streams designate in a new interpreter.
* `errToOut`, `outToErr`: pbat/core/pBat_Run.c:282-298.
* `run`, `fail`: `pBat_RunFile`, pbat/core/pBat_Exec.c:294-336; nothing is flushed before `fork`.  The child replaces itself by the program, and
  the copies of the buffers disappear.  If this fails, `exit` tries to write the copies to descriptors which have been closed.
* `start`, `noStart`: `pBat_StartFile`, pbat/core/pBat_Exec.c:552-597: the child calls `pBat_OpenOutput`, which flushes its copy of `_fOutput`.
  When the start script cannot be run, the message is printed on `fError` and `exit` writes the copy of `_fError`; what is printed on `_fOutput`
  goes to `/dev/null`.
* `brk`: `pBat_SigHandlerBreak`, pbat/core/pBat_Run.c:860-893: the process replaces itself by a new interpreter. -/
def step (lc : Libc β) (io0 : Io Nat) (s : St β) : Op β → St β
  | .out t => printOut lc s t
  | .err t => printErr lc s t
  | .openOut f b => openFd s f b .out
  | .openErr f b => openFd s f b .err
  | .errToOut => { s with io := { s.io.openOutputD none .none with errOut := true } }
  | .outToErr => { s with io := { s.io.openOutputD none .none with outOwn := false } }
  | .pop => pop s
  | .run ws => { s with disk := writes s.io ws s.disk }
  | .fail => s
  | .start => { s with disk := app s.disk s.io.out s.po }
  | .noStart m => { s with disk := app (app s.disk s.io.out s.po) s.io.err (s.pe ++ if s.io.errOut then [] else m) }
  | .brk => { s with io := io0, po := [], pe := [] }

/-- A history. -/
def steps (lc : Libc β) (io0 : Io Nat) : St β → List (Op β) → St β
  | s, [] => s
  | s, o :: os => steps lc io0 (step lc io0 s o) os

/-- `exit` of the interpreter flushes the streams, in an order which belongs to the libc. -/
def finish (errFirst : Bool) (s : St β) : St β := if errFirst then flushOut (flushErr s) else flushErr (flushOut s)

/-- `pBat_DuplicateStdStreams`, pbat/init/pBat_Init.c:91-127: the state at the start, `out` and `err` are what descriptors 1 and 2 designate. -/
def init (out err : Nat) (d : Disk β) : St β := ⟨⟨0, out, err, true, false, []⟩, [], [], d⟩

end PBat.Buf
