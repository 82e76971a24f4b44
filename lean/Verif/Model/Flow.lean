/-
Model of the commands of a pipeline running at the same time: the bytes in the pipes, and the locks the commands take.  Code: pbat/core/pBat_Run.c:141-195
(the members of a pipeline are threads of the interpreter, connected by pipes), pbat/pBat.c:116-122 (`SIGPIPE` is ignored: what is written to a
pipe nobody reads is dropped), pbat/command/pBat_Echo.c:64-110 and pbat/command/pBat_Set.c:423-545 (these commands write while they hold a lock).

The threads take their steps in any order.

Simplifications: the descriptors are those of C93, so that the end of a pipe is met when its writer has ended; bytes are written and read one by
one (a system call for more of them is several of these), the buffers of the streams count as room in the pipe; a command that writes its
messages elsewhere than to the pipe does not wait; the commands end by themselves but for the input they read (programs that wait for
something else are left out).
-/
namespace PBat.Flow

/-- The locks, pbat/core/pBat_Globals.c: those that are held while something is written. -/
inductive Mx
  | echo
  | set
  deriving DecidableEq, Repr

/-- What a thread is about to do. -/
inductive Act (σ : Type) where
  | done
  | put (b : UInt8) (s : σ)
  | get (k : Option UInt8 → σ)
  | lock (m : Mx) (s : σ)
  | unlock (m : Mx) (s : σ)

/-- The threads, the bytes in the pipes (`pipe i` is the input of the member `i`, `pipe n` the output of the last), who holds the locks. -/
structure St (σ : Type) where
  prog : Nat → σ
  pipe : Nat → List UInt8
  held : Mx → Option Nat

/-- Change at one place. -/
def upd {α : Type} (f : Nat → α) (i : Nat) (x : α) : Nat → α := fun j => if j = i then x else f j

/-- Change of one lock. -/
def setMx (f : Mx → Option Nat) (m : Mx) (x : Option Nat) : Mx → Option Nat := fun j => if j = m then x else f j

section
variable {σ : Type} (next : σ → Act σ) (cap n : Nat)

/-- Has ended. -/
def isDone (s : σ) : Bool := match next s with | .done => true | _ => false

/-- A step of the thread `i`; `none`: it has ended or has to wait. -/
def step (i : Nat) (s : St σ) : Option (St σ) :=
  match next (s.prog i) with
  | .done => none
  | .put b p =>
    if i + 1 = n then some { s with prog := upd s.prog i p, pipe := upd s.pipe (i + 1) (s.pipe (i + 1) ++ [b]) }
    else if isDone next (s.prog (i + 1)) then some { s with prog := upd s.prog i p }
    else if (s.pipe (i + 1)).length < cap then
      some { s with prog := upd s.prog i p, pipe := upd s.pipe (i + 1) (s.pipe (i + 1) ++ [b]) }
    else none
  | .get k =>
    match s.pipe i with
    | b :: r => some { s with prog := upd s.prog i (k (some b)), pipe := upd s.pipe i r }
    | [] => if i = 0 ∨ isDone next (s.prog (i - 1)) = true then some { s with prog := upd s.prog i (k none) } else none
  | .lock m p =>
    match s.held m with
    | none => some { s with prog := upd s.prog i p, held := setMx s.held m (some i) }
    | some _ => none
  | .unlock m p => some { s with prog := upd s.prog i p, held := setMx s.held m none }

/-- `k` steps, of any threads. -/
inductive Reach : Nat → St σ → St σ → Prop
  | refl (s) : Reach 0 s s
  | step {k s t u i} : i < n → step next cap n i s = some t → Reach k t u → Reach (k + 1) s u

/-- Nobody can go on. -/
def Stuck (s : St σ) : Prop := ∀ i, i < n → step next cap n i s = none

/-- Everybody has ended. -/
def AllDone (s : St σ) : Prop := ∀ i, i < n → next (s.prog i) = .done
end

/-- A command that does not read.  `print`: the commands that write without a lock (TYPE, DIR, FIND and so on); `echo`: pbat/command/pBat_Echo.c:64-110;
`setA`: SET /A, which prints its result when no script is run, pbat/command/pBat_Set.c:423-545. -/
inductive Simple
  | print (t : List UInt8)
  | echo (t : List UInt8)
  | setA (t : List UInt8)

/-- The commands of a member.  `each f`: the commands that read their input line by line to its end and do `f` with each line (FIND, XARGS, MORE,
TYPE, a FOR /F loop over the output of a command); `line f`: SET /P and what depends on it. -/
inductive Cmd
  | simple (c : Simple)
  | each (f : List UInt8 → List Simple)
  | line (f : List UInt8 → List Simple)

/-- What is left to do of a member: bytes to write, locks to take or give back, reading, with what was read of the current line. -/
inductive Micro
  | put (b : UInt8)
  | lock (m : Mx)
  | unlock (m : Mx)
  | each (acc : List UInt8) (f : List UInt8 → List Simple)
  | line (acc : List UInt8) (f : List UInt8 → List Simple)

/-- A command that does not read, pBat_Echo.c:64-110, pBat_Set.c:423-545. -/
def Simple.micro : Simple → List Micro
  | .print t => t.map .put
  | .echo t => .lock .echo :: (t.map .put ++ [.unlock .echo])
  | .setA t => .lock .set :: (t.map .put ++ [.unlock .set])

def micros (l : List Simple) : List Micro := (l.map Simple.micro).flatten

def Cmd.micro : Cmd → List Micro
  | .simple c => c.micro
  | .each f => [.each [] f]
  | .line f => [.line [] f]

/-- The commands of a member, one after the other. -/
def prog (l : List Cmd) : List Micro := (l.map Cmd.micro).flatten

/-- The next thing to do; a line ends with a newline or with the input (`pBat_EsGet`, C04). -/
def next : List Micro → Act (List Micro)
  | [] => .done
  | .put b :: r => .put b r
  | .lock m :: r => .lock m r
  | .unlock m :: r => .unlock m r
  | .each acc f :: r => .get fun x =>
    match x with
    | none => if acc = [] then r else micros (f acc) ++ r
    | some b => if b = 10 then micros (f (acc ++ [b])) ++ .each [] f :: r else .each (acc ++ [b]) f :: r
  | .line acc f :: r => .get fun x =>
    match x with
    | none => micros (f acc) ++ r
    | some b => if b = 10 then micros (f (acc ++ [b])) ++ r else .line (acc ++ [b]) f :: r

/-- A pipeline at its start: the members, the input of the first. -/
def start (ms : List (List Cmd)) (inp : List UInt8) : St (List Micro) where
  prog i := prog (ms.getD i [])
  pipe i := if i = 0 then inp else []
  held _ := none

end PBat.Flow
