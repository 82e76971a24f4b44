/-
Model of the stack of redirections, `pbat/core/pBat_Stream.c` and `pbat/core/pBat_Stream.h`.

What a file descriptor designates is an element of a type `τ` (an open file, a terminal, an end of a pipe).  `dup` and
`dup2` do not fail: when they do, the code ends the process.  Buffering and file positions are not modelled.
-/
namespace PBat

/-- `PBAT_STDIN`, `PBAT_STDOUT`, `PBAT_STDERR` and -1 (the item only saves the substitution). -/
inductive Fd where
  | inp | out | err | none
  deriving DecidableEq, Repr

/-- `STREAMSTACK`, pbat/core/pBat_Stream.h:107-113.  `old` is what `oldfd` designates; it is unset for items which do not
redirect a descriptor.  `subst` is the pair of bits `PBAT_SUBST_FOUTPUT`, `PBAT_SUBST_FERROR`. -/
structure SItem (τ : Type) where
  fd : Fd
  old : Option τ
  subst : Bool × Bool
  lock : Bool
  deriving DecidableEq, Repr

/-- The stream variables of a thread, pbat/core/pBat_Globals.c:86-91: `inp`, `out`, `err` are what `fInput`, `_fOutput`
and `_fError` designate; `outOwn` tells whether `fOutput == _fOutput` (otherwise it is `_fError`), `errOut` whether
`fError == _fOutput` (otherwise it is `_fError`).  `stack` is `lppsStreamStack`. -/
structure Io (τ : Type) where
  inp : τ
  out : τ
  err : τ
  outOwn : Bool
  errOut : Bool
  stack : List (SItem τ)
  deriving DecidableEq, Repr

variable {τ : Type}

/-- What `fInput`, `fOutput` and `fError` designate. -/
def Io.streams (io : Io τ) : τ × τ × τ :=
  (io.inp, if io.outOwn then io.out else io.err, if io.errOut then io.out else io.err)

/-- `PBAT_GET_SUBST`, pbat/core/pBat_Stream.h:123-125. -/
def Io.subst (io : Io τ) : Bool × Bool := (io.outOwn, io.errOut)

/-- `PBAT_APPLY_SUBST`, pbat/core/pBat_Stream.h:119-121. -/
def Io.applySubst (io : Io τ) (s : Bool × Bool) : Io τ := { io with outOwn := s.1, errOut := s.2 }

/-- What a descriptor designates. -/
def Io.get (io : Io τ) : Fd → Option τ
  | .inp => some io.inp
  | .out => some io.out
  | .err => some io.err
  | .none => Option.none

/-- `PBAT_DUP_STDIN` and `PBAT_DUP_STD`, pbat/core/pBat_Stream.h:66-90. -/
def Io.dupTo (io : Io τ) : Fd → Option τ → Io τ
  | .inp, some t => { io with inp := t }
  | .out, some t => { io with out := t }
  | .err, some t => { io with err := t }
  | _, _ => io

/-- `pBat_OpenOutput` once `open` has succeeded, pbat/core/pBat_Stream.c:106-138. -/
def Io.openOutput (io : Io τ) (t : τ) (fd : Fd) : Io τ :=
  let io' := io.dupTo fd (some t)
  { io' with
    outOwn := if fd = .out then true else io'.outOwn
    errOut := if fd = .err then false else io'.errOut
    stack := { fd := fd, old := io.get fd, subst := io.subst, lock := false } :: io.stack }

/-- `pBat_OpenOutputD`, pbat/core/pBat_Stream.c:145-188. -/
def Io.openOutputD (io : Io τ) (t : Option τ) (fd : Fd) : Io τ :=
  let io' := io.dupTo fd t
  { io' with stack := { fd := fd, old := io.get fd, subst := io.subst, lock := false } :: io.stack }

/-- Restoring what an item saved, the second half of `pBat_PopStreamStack`, pbat/core/pBat_Stream.c:200-229. -/
def Io.unwind (io : Io τ) (it : SItem τ) (rest : List (SItem τ)) : Io τ :=
  { (io.dupTo it.fd it.old).applySubst it.subst with stack := rest }

/-- `pBat_PopStreamStack`, pbat/core/pBat_Stream.c:191-230. -/
def Io.pop (io : Io τ) : Io τ :=
  match io.stack with
  | [] => io
  | it :: rest => if it.lock then io else io.unwind it rest

/-- `pBat_GetStreamStackLockState`, pbat/core/pBat_Stream.h:104. -/
def Io.lockState (io : Io τ) : Bool :=
  match io.stack with
  | [] => true
  | it :: _ => it.lock

/-- `pBat_SetStreamStackLockState`, pbat/core/pBat_Stream.h:100-101. -/
def Io.setLock (io : Io τ) (b : Bool) : Io τ :=
  match io.stack with
  | [] => io
  | it :: rest => { io with stack := { it with lock := b } :: rest }

/-- `pBat_PopStreamStackUntilLock`, pbat/core/pBat_Stream.c:232-238. -/
def Io.popUntilLock (io : Io τ) : Io τ := go io io.stack
where
  /-- The loop; the second argument is the stack. -/
  go (io : Io τ) : List (SItem τ) → Io τ
    | [] => io
    | it :: rest => if it.lock then io else go (io.unwind it rest) rest

end PBat
