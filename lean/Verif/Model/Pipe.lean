/-
Model of the file descriptors of pipelines: `pBat_ExecOperators` and `pBat_LaunchPipe` (pbat/core/pBat_Run.c), FOR /F of a
command (pbat/command/pBat_For.c), START /B (pbat/command/pBat_Start.c), the clones they start (pbat/core/pBat_Clone.c,
pbat/core/pBat_ExitInt.c) and the redirections (pbat/core/pBat_Stream.c).

All threads share one table of descriptors.  What each thread does to it is a list of system calls; the steps of the threads
are interleaved in any order and the system chooses the number of each new descriptor.

Simplifications: the commands are those that are executed (the choices of `&&`, `||`, IF, FOR and CALL are made, and files
that cannot be opened are left out), so that the commands of a thread form a sequence; `1>&2` does not occur; a command
run leaves the descriptors as they are; system calls fail only on descriptors that are not open.  EXIT outside a
pipeline ends the thread like the others do, not the process.
-/
namespace PBat.Pipe

/-- Names of threads and of pipes: the `n`-th clone of the thread `π` is `n :: π`; the pipe it writes to has the same name. -/
abbrev Name := List Nat

/-- What a descriptor designates: something that is not a pipe of the model, or an end of a pipe. -/
inductive Chan (φ : Type) where
  | file (f : φ)
  | rd (p : Name)
  | wr (p : Name)
  deriving DecidableEq, Repr

/-- `PARSED_STREAM`, pbat/core/pBat_Parse.h:31-38: the files of `<`, `>` and `2>`, and `2>&1`. -/
structure Redirs (φ : Type) where
  inp : Option φ := none
  out : Option φ := none
  err : Option φ := none
  merge : Bool := false

mutual
/-- A command: an ordinary one, EXIT, a block (also the commands of IF, FOR, CALL), START /B, and FOR /F of a command with
what it does for all the lines. -/
inductive Cmd (ι φ : Type) where
  | run (i : ι)
  | exit
  | block (b : Cmds ι φ)
  | start (b : Cmds ι φ)
  | feed (b body : Cmds ι φ)
/-- Commands that follow each other. -/
inductive Cmds (ι φ : Type) where
  | nil
  | cons (p : Line ι φ) (rest : Cmds ι φ)
/-- A pipeline. -/
inductive Line (ι φ : Type) where
  | last (r : Redirs φ) (c : Cmd ι φ)
  | pipe (r : Redirs φ) (c : Cmd ι φ) (rest : Line ι φ)
end

/-- The variables that hold descriptors: those of `fInput`, `_fOutput`, `_fError`; `oldfd` of the items of the stack; `newfd`
of `pBat_OpenOutput`; `pipedes`; `lastin`; `fdin`, `fdout` of `pipe_launch_data_t`; the three of `clone_data_t`; `pFile` of
the FOR loops. -/
inductive Reg where
  | inp | out | err | saved (n : Nat) | new | p0 | p1 | last | fdin | fdout | cin | cout | cerr | feed (n : Nat)
  deriving DecidableEq, Repr

/-- The system calls, and `move`: a descriptor goes from one variable to another.  `run`: a command is run, with `fError`
the same as `_fOutput` or not. -/
inductive Act (ι φ : Type) where
  | dup (dst src : Reg)
  | dup2 (src dst : Reg)
  | close (r : Reg)
  | open (dst : Reg) (f : φ)
  | pipe (p : Name) (r w : Reg)
  | move (dst src : Reg)
  | run (i : ι) (errOut : Bool)
  deriving DecidableEq, Repr

/-- What a thread has to do.  `spawn` starts a clone, which gets the writing end of a pipe or not, and the reading end of
another or not. -/
inductive Prog (ι φ : Type) where
  | done
  | act (a : Act ι φ) (k : Prog ι φ)
  | spawn (p : Name) (out inp : Bool) (child k : Prog ι φ)
  deriving DecidableEq, Repr

variable {ι φ : Type}

/-- A sequence of system calls. -/
def Prog.acts (l : List (Act ι φ)) (k : Prog ι φ) : Prog ι φ := l.foldr .act k

/-- Where a thread stands: its name, the items of its stack of redirections with the descriptor they save, if any, and the
`subst` they save (pbat/core/pBat_Stream.h:107-113), whether `fError == _fOutput`, and the number of FOR /F loops it is in. -/
structure Ctx where
  path : Name
  stack : List (Option Reg × Bool) := []
  errOut : Bool := false
  feeds : Nat := 0

/-- `pBat_OpenOutputD` on a descriptor, which is closed afterwards, pbat/core/pBat_Stream.c:157-201 and
pbat/core/pBat_Run.c:199-203, 211-217. -/
def Ctx.take (c : Ctx) (src r : Reg) : List (Act ι φ) × Ctx :=
  ([.dup (.saved c.stack.length) r, .dup2 src r, .close src], { c with stack := (some r, c.errOut) :: c.stack })

/-- `pBat_OpenOutput`, pbat/core/pBat_Stream.c:74-155. -/
def Ctx.openTo (c : Ctx) (f : Option φ) (r : Reg) : List (Act ι φ) × Ctx :=
  match f with
  | none => ([], c)
  | some f =>
    let t := c.take .new r
    (.open .new f :: t.1, { t.2 with errOut := if r = .err then false else t.2.errOut })

/-- `2>&1`, pbat/core/pBat_Run.c:281-287. -/
def Ctx.merge (c : Ctx) (m : Bool) : Ctx :=
  if m then { c with stack := (none, c.errOut) :: c.stack, errOut := true } else c

/-- `pBat_ExecOutput`, pbat/core/pBat_Run.c:246-301. -/
def Ctx.redirect (c : Ctx) (r : Redirs φ) : List (Act ι φ) × Ctx :=
  let a := c.openTo r.inp .inp
  let b := a.2.openTo r.out .out
  let d := b.2.openTo r.err .err
  (a.1 ++ b.1 ++ d.1, d.2.merge r.merge)

/-- `pBat_PopStreamStack` as often as told, pbat/core/pBat_Stream.c:203-243. -/
def pops : List (Option Reg × Bool) → Nat → List (Act ι φ)
  | (some r, _) :: rest, k + 1 => [.dup2 (.saved rest.length) r, .close (.saved rest.length)] ++ pops rest k
  | (none, _) :: rest, k + 1 => pops rest k
  | _, _ => []

/-- `pBat_Exit`, pbat/core/pBat_ExitInt.c:28-47, and the end of the thread. -/
def Ctx.leave (c : Ctx) : Prog ι φ :=
  .acts (pops c.stack c.stack.length ++ [.close .inp, .close .out, .close .err]) .done

/-- The descriptors of a clone, `pBat_DuplicateData`, pbat/core/pBat_Clone.c:137-151. -/
def Ctx.clone (c : Ctx) : List (Act ι φ) :=
  [.dup .cin .inp, .dup .cout .out, .dup .cerr (if c.errOut then .out else .err)]

/-- The beginning of `pBat_LaunchPipe`, pbat/core/pBat_Run.c:208-217. -/
def Ctx.joined (c : Ctx) (inp : Bool) : List (Act ι φ) × Ctx :=
  let a := c.take (ι := ι) (φ := φ) .fdout .out
  if inp then
    let b := a.2.take .fdin .inp
    (a.1 ++ b.1, b.2)
  else a

/-- The end of `pBat_ExecOperators`, pbat/core/pBat_Run.c:199-203. -/
def Ctx.fed (c : Ctx) (inp : Bool) : List (Act ι φ) × Ctx :=
  if inp then c.take .last .inp else ([], c)

mutual
/-- A command, with what follows it.  `n` clones were started before.  EXIT: pbat/command/pBat_Exit.c:97-104; START /B:
pbat/command/pBat_Start.c:71-108; FOR /F: pbat/command/pBat_For.c:1288-1308, 1350-1408, 563-615 and 1550-1564. -/
def Cmd.code : Cmd ι φ → Ctx → (Nat → Prog ι φ) → Nat → Prog ι φ
  | .run i, c, k, n => .act (.run i c.errOut) (k n)
  | .exit, c, _, _ => c.leave
  | .block b, c, k, n => b.code c k n
  | .start b, c, k, n =>
    .acts c.clone (.spawn (n :: c.path) false false
      (b.code { path := n :: c.path } (fun _ => Ctx.leave { path := n :: c.path }) 0) (k (n + 1)))
  | .feed b body, c, k, n =>
    .act (.pipe (n :: c.path) (.feed c.feeds) .p1) (.acts c.clone (.spawn (n :: c.path) true false
      (let j := Ctx.joined (ι := ι) (φ := φ) { path := n :: c.path } false
       .acts j.1 (b.code j.2 (fun _ => j.2.leave) 0))
      (body.code { c with feeds := c.feeds + 1 } (fun m => .act (.close (.feed c.feeds)) (k m)) (n + 1))))
/-- `pBat_RunParsedLine` for each of the pipelines, pbat/core/pBat_Run.c:326-381. -/
def Cmds.code : Cmds ι φ → Ctx → (Nat → Prog ι φ) → Nat → Prog ι φ
  | .nil, _, k, n => k n
  | .cons p rest, c, k, n => p.code false c (fun m => rest.code c k m) n
/-- A pipeline: the loop of `pBat_ExecOperators`, pbat/core/pBat_Run.c:156-196, and the last command,
pbat/core/pBat_Run.c:199-203 and 366-376.  `inp`: `lastin` is set. -/
def Line.code : Line ι φ → Bool → Ctx → (Nat → Prog ι φ) → Nat → Prog ι φ
  | .last r cmd, inp, c, k, n =>
    let a := c.fed (ι := ι) (φ := φ) inp
    let b := a.2.redirect (ι := ι) r
    .acts (a.1 ++ b.1) (cmd.code b.2
      (fun m => .acts (pops b.2.stack (b.2.stack.length - c.stack.length)) (k m)) n)
  | .pipe r cmd rest, inp, c, k, n =>
    .act (.pipe (n :: c.path) .p0 .p1) (.acts c.clone (.spawn (n :: c.path) true inp
      (let j := Ctx.joined (ι := ι) (φ := φ) { path := n :: c.path } inp
       let b := j.2.redirect (ι := ι) r
       .acts (j.1 ++ b.1) (cmd.code b.2 (fun _ => b.2.leave) 0))
      (.act (.move .last .p0) (rest.code true c k (n + 1)))))
end

/-! ### The machine -/

/-- A table with one entry changed. -/
def upd {α β : Type} [DecidableEq α] (f : α → β) (a : α) (b : β) : α → β := fun x => if x = a then b else f x

/-- A thread. -/
structure Thr (ι φ : Type) where
  path : Name
  regs : Reg → Nat
  prog : Prog ι φ

/-- A command run: by which thread, and what its input, output and error streams designate. -/
structure Event (ι φ : Type) where
  who : Name
  cmd : ι
  inp : Chan φ
  out : Chan φ
  err : Chan φ
  deriving DecidableEq, Repr

/-- The process: the descriptors, the threads started so far (numbered below `size`) and the commands run. -/
structure Sys (ι φ : Type) where
  tab : Nat → Option (Chan φ)
  size : Nat
  thr : Nat → Thr ι φ
  trace : List (Event ι φ)

/-- A system call.  `n1`, `n2` are the numbers the system gives to new descriptors. -/
def doAct (a : Act ι φ) (who : Name) (regs : Reg → Nat) (tab : Nat → Option (Chan φ)) (n1 n2 : Nat) :
    Option ((Reg → Nat) × (Nat → Option (Chan φ)) × List (Event ι φ)) :=
  match a with
  | .dup d s =>
    match tab (regs s), tab n1 with
    | some c, none => some (upd regs d n1, upd tab n1 (some c), [])
    | _, _ => none
  | .dup2 s d =>
    match tab (regs s), tab (regs d) with
    | some c, some _ => some (regs, upd tab (regs d) (some c), [])
    | _, _ => none
  | .close r =>
    match tab (regs r) with
    | some _ => some (regs, upd tab (regs r) none, [])
    | none => none
  | .open d f =>
    match tab n1 with
    | none => some (upd regs d n1, upd tab n1 (some (.file f)), [])
    | some _ => none
  | .pipe p r w =>
    match tab n1, tab n2, decide (n1 = n2) with
    | none, none, false =>
      some (upd (upd regs r n1) w n2, upd (upd tab n1 (some (.rd p))) n2 (some (.wr p)), [])
    | _, _, _ => none
  | .move d s => some (upd regs d (regs s), tab, [])
  | .run i e =>
    match tab (regs .inp), tab (regs .out), tab (regs .err) with
    | some a, some b, some c => some (regs, tab, [⟨who, i, a, b, if e then b else c⟩])
    | _, _, _ => none

/-- The variables of a clone when it starts. -/
def childRegs (regs : Reg → Nat) : Reg → Nat
  | .inp => regs .cin
  | .out => regs .cout
  | .err => regs .cerr
  | .fdout => regs .p1
  | .fdin => regs .last
  | _ => 0

/-- One step of the thread `i`; `none` if it has none. -/
def Sys.step (s : Sys ι φ) (i n1 n2 : Nat) : Option (Sys ι φ) :=
  if i < s.size then
    match (s.thr i).prog with
    | .done => none
    | .act a k =>
      match doAct a (s.thr i).path (s.thr i).regs s.tab n1 n2 with
      | none => none
      | some (regs, tab, ev) =>
        some { s with tab := tab, thr := upd s.thr i ⟨(s.thr i).path, regs, k⟩, trace := s.trace ++ ev }
    | .spawn p _ _ child k =>
      some { s with
        size := s.size + 1
        thr := upd (upd s.thr i ⟨(s.thr i).path, (s.thr i).regs, k⟩) s.size ⟨p, childRegs (s.thr i).regs, child⟩ }
  else none

/-- What can happen: the threads take their steps in any order. -/
inductive Reach : Sys ι φ → Sys ι φ → Prop
  | refl (s : Sys ι φ) : Reach s s
  | step {s t u : Sys ι φ} (i n1 n2 : Nat) : Reach s t → t.step i n1 n2 = some u → Reach s u

/-- The interpreter about to run commands. -/
def begin (b : Cmds ι φ) (tab : Nat → Option (Chan φ)) (regs : Reg → Nat) : Sys ι φ :=
  { tab := tab, size := 1, thr := fun _ => ⟨[], regs, b.code { path := [] } (fun _ => .done) 0⟩, trace := [] }

end PBat.Pipe
