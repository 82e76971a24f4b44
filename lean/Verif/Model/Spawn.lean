/-!
# Starting programs from several threads

`pBat_RunFile` on systems with `fork` (/repo/pbat/core/pBat_Exec.c:273-374), together with the unwaited use of
`pBat_StartFile` (/repo/pbat/core/pBat_Exec.c:539-614), as a transition system.  One step is one system call.
Several threads of the interpreter (pipelines, FOR /F, background commands) may be inside these functions at once;
`PBAT_RUNFILE_LOCK` is empty on these systems (/repo/pbat/core/pBat_Exec.h:45-48).

A *run* is one call of `pBat_RunFile`; runs are numbered by naturals, and any number of them may be in progress.

Simplifications: a failing `pipe` ends the interpreter (the report has the code -1, :287-290) and is left out;
only the ends of the pipes made by `pBat_RunFile` are recorded in the tables of descriptors, so that `pipe` may return
any two numbers not used by such ends; descriptors of files are other numbers; memory and the environment are not modelled.
-/
namespace PBat.Spawn

/-- An end of the pipe of a run: the run and whether it is the end for writing. -/
abbrev End := Nat × Bool

/-- A table of descriptors: the ends that they stand for, and the flag FD_CLOEXEC. -/
structure Fds where
  tab : Nat → Option End
  ce : Nat → Bool

/-- Store a value in a function. -/
def put {α : Type} (f : Nat → α) (n : Nat) (x : α) : Nat → α := fun m => if m = n then x else f m

/-- `close` (close(2)): the descriptor stands for nothing any more. -/
def Fds.close (f : Fds) (n : Nat) : Fds := { f with tab := put f.tab n none }

/-- `pBat_SetFdInheritance(fd, 0)` (/repo/pbat/core/pBat_FdInheritance.c:54-59). -/
def Fds.mark (f : Fds) (n : Nat) : Fds := { f with ce := put f.ce n true }

/-- What `execv` leaves of the table (execve(2)). -/
def Fds.exec (f : Fds) : Fds := { f with tab := fun n => if f.ce n then none else f.tab n }

/-- Where the thread of a run is (/repo/pbat/core/pBat_Exec.c:282-369). -/
inductive Ph where
  /-- before the call -/
  | idle
  /-- after `pipe`, :287 -/
  | piped (r w : Nat)
  /-- after `fork`, :292, with the result of it -/
  | forked (child : Bool) (r w : Nat)
  /-- in `read`, :352 -/
  | reading (r : Nat)
  /-- before `close(fds[0])`, :347, :354 or :360; the flag tells whether `*error` is to be set -/
  | shut (bad : Bool) (r : Nat)
  /-- in `waitpid`, :363 -/
  | waiting
  /-- returned: `none` if `*error` was set, otherwise the value returned -/
  | done (o : Option Nat)

/-- Where the process made for a run is. -/
inductive Kd where
  /-- not made -/
  | none
  /-- in the son, before the loop, :294-300 -/
  | setup (f : Fds) (r w : Nat)
  /-- in the loop, :307-309, with the counter -/
  | closing (k : Nat) (f : Fds) (r w : Nat)
  /-- before `execv`, :314 -/
  | ready (f : Fds) (w : Nat)
  /-- `execv` returned, before `write`, :330 -/
  | failing (f : Fds) (w : Nat)
  /-- before `close(fds[1])`, :331 -/
  | wrote (f : Fds) (w : Nat)
  /-- before `exit(-1)`, :333 -/
  | exiting (f : Fds)
  /-- ended by `exit(-1)` -/
  | gone
  /-- in the son of `pBat_StartFile`, /repo/pbat/core/pBat_Exec.c:553-590 -/
  | bare (f : Fds)
  /-- the program runs -/
  | prog (f : Fds)
  /-- the program has ended, with its status as `waitpid` gives it -/
  | ended (st : Nat)

/-- The table of the process. -/
def Kd.tab : Kd → Nat → Option End
  | .setup f _ _ | .closing _ f _ _ | .ready f _ | .failing f _ | .wrote f _ | .exiting f | .bare f | .prog f => f.tab
  | .none | .gone | .ended _ => fun _ => Option.none

/-- The status that `waitpid` gives for the process (wait(2)); `exit(-1)` leaves 255. -/
def Kd.status : Kd → Option Nat
  | .gone => some (255 * 256)
  | .ended st => some st
  | _ => Option.none

/-- The state: the table of the interpreter, its threads, the processes, and whether the pipe of a run holds the byte. -/
structure Sys where
  fds : Fds
  th : Nat → Ph
  kid : Nat → Kd
  data : Nat → Bool

/-- The system calls, with the run they belong to. -/
inductive Act where
  | pipe (i r w : Nat)
  | fork (i : Nat) (ok : Bool)
  | closeW (i : Nat)
  | readX (i : Nat)
  | readEnd (i : Nat)
  | closeR (i : Nat)
  | wait (i : Nat)
  /-- a signal, after which its handler returned, interrupts `read` or `waitpid` -/
  | sig (i : Nat)
  | start (i : Nat)
  | kMark (i : Nat)
  | kClose (i : Nat)
  | kShut (i : Nat)
  | exec (i : Nat) (ok : Bool)
  | kWrite (i : Nat)
  | kCloseW (i : Nat)
  | kExit (i : Nat)
  | finish (i : Nat) (st : Nat)
deriving DecidableEq

/-- Some process has the end for writing of the pipe of the run. -/
def Held (s : Sys) (i : Nat) : Prop :=
  (∃ n, s.fds.tab n = some (i, true)) ∨ ∃ j n, (s.kid j).tab n = some (i, true)

/-- `WEXITSTATUS` (wait(2)). -/
def wexit (st : Nat) : Nat := st / 256 % 256

/-- One system call (/repo/pbat/core/pBat_Exec.c:273-374; :539-614 for `start`).  `waits i` is the flag PBAT_EXEC_WAIT of the run.
The handler of SIGINT is installed without SA_RESTART (/repo/pbat/pBat.c:95-99) and returns when the
question is answered by no (/repo/pbat/core/pBat_Run.c:858-875). -/
inductive Step (waits : Nat → Bool) (s : Sys) : Act → Sys → Prop
  | pipe {i r w} : s.th i = .idle → r ≠ w → s.fds.tab r = none → s.fds.tab w = none →
      Step waits s (.pipe i r w)
        { s with fds := { s.fds with tab := put (put s.fds.tab r (some (i, false))) w (some (i, true)) }, th := put s.th i (.piped r w) }
  | forkOk {i r w} : s.th i = .piped r w →
      Step waits s (.fork i true) { s with th := put s.th i (.forked true r w), kid := put s.kid i (.setup s.fds r w) }
  | forkBad {i r w} : s.th i = .piped r w →
      Step waits s (.fork i false) { s with th := put s.th i (.forked false r w) }
  | closeW {i c r w} : s.th i = .forked c r w →
      Step waits s (.closeW i) { s with fds := s.fds.close w, th := put s.th i (if c then .reading r else .shut true r) }
  | readX {i r} : s.th i = .reading r → s.data i = true →
      Step waits s (.readX i) { s with th := put s.th i (.shut true r) }
  | readEnd {i r} : s.th i = .reading r → s.data i = false → ¬ Held s i →
      Step waits s (.readEnd i) { s with th := put s.th i (.shut false r) }
  | closeR {i bad r} : s.th i = .shut bad r →
      Step waits s (.closeR i)
        { s with fds := s.fds.close r, th := put s.th i (if bad then .done none else if waits i then .waiting else .done (some (wexit 0))) }
  | wait {i st} : s.th i = .waiting → (s.kid i).status = some st →
      Step waits s (.wait i) { s with th := put s.th i (.done (some (wexit st))) }
  | sigRead {i r} : s.th i = .reading r →
      Step waits s (.sig i) { s with th := put s.th i (.shut true r) }
  | sigWait {i} : s.th i = .waiting →
      Step waits s (.sig i) { s with th := put s.th i (.done (some (wexit 0))) }
  | start {i} : s.th i = .idle →
      Step waits s (.start i) { s with th := put s.th i (.done (some 0)), kid := put s.kid i (.bare s.fds) }
  | kMark {i f r w} : s.kid i = .setup f r w →
      Step waits s (.kMark i) { s with kid := put s.kid i (.closing 3 (f.mark w) r w) }
  | kClose {i k f r w} : s.kid i = .closing k f r w → k < 2048 →
      Step waits s (.kClose i) { s with kid := put s.kid i (.closing (k + 1) (if k ≠ w then f.close k else f) r w) }
  | kShut {i k f r w} : s.kid i = .closing k f r w → ¬ k < 2048 →
      Step waits s (.kShut i) { s with kid := put s.kid i (.ready (f.close r) w) }
  | execOk {i f w} : s.kid i = .ready f w →
      Step waits s (.exec i true) { s with kid := put s.kid i (.prog f.exec) }
  | execBad {i f w} : s.kid i = .ready f w →
      Step waits s (.exec i false) { s with kid := put s.kid i (.failing f w) }
  | bareOk {i f} : s.kid i = .bare f →
      Step waits s (.exec i true) { s with kid := put s.kid i (.prog f.exec) }
  | bareBad {i f} : s.kid i = .bare f →
      Step waits s (.exec i false) { s with kid := put s.kid i .gone }
  | kWrite {i f w} : s.kid i = .failing f w →
      Step waits s (.kWrite i) { s with kid := put s.kid i (.wrote f w), data := put s.data i true }
  | kCloseW {i f w} : s.kid i = .wrote f w →
      Step waits s (.kCloseW i) { s with kid := put s.kid i (.exiting (f.close w)) }
  | kExit {i f} : s.kid i = .exiting f →
      Step waits s (.kExit i) { s with kid := put s.kid i .gone }
  | finish {i f st} : s.kid i = .prog f →
      Step waits s (.finish i st) { s with kid := put s.kid i (.ended st) }

/-- Before any run. -/
def Sys.init : Sys := ⟨⟨fun _ => none, fun _ => false⟩, fun _ => .idle, fun _ => .none, fun _ => false⟩

/-- The states reached, with the calls made, the last first. -/
inductive Run (waits : Nat → Bool) : List Act → Sys → Prop
  | nil : Run waits [] Sys.init
  | cons {l s a s'} : Run waits l s → Step waits s a s' → Run waits (a :: l) s'

/-- What the caller of a run was told, if it was: `none` stands for `*error`. -/
def Sys.returned (s : Sys) (i : Nat) : Option (Option Nat) :=
  match s.th i with
  | .done o => some o
  | _ => none

end PBat.Spawn
