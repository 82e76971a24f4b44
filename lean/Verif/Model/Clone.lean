import Verif.Model.Mem
/-
Model of the copies of the interpreter that run in threads: `pBat_CloneInstance`, `pBat_CloneTrampoline` and `pBat_DuplicateData`
(pbat/core/pBat_Clone.c), the functions that copy and free what an instance holds, and `pBat_Exit` (pbat/core/pBat_ExitInt.c).

All threads share one memory.  A cell is an object made by `malloc` (or an array on the stack); reading, writing or freeing an address that
holds no object is undefined, as is freeing an array on the stack.  The addresses given by `malloc` are a list given from outside: a run is
`stuck` if the list gives an address in use, so that what is proved holds for every allocator.

Simplifications: allocation does not fail; the fields of a structure are written at once; streams, the string cache and the script are not
modelled (they are made anew for a copy); `realloc` frees and allocates (perhaps at the same address); an item of the stack of SETLOCAL is not
a cell of its own.
-/
namespace PBat

/-- Objects in memory: texts, arrays of pointers, `ENVVAR` and `ENVBUF` (pbat/core/pBat_Env.h:26-42), `COMMANDLIST`
(libpbat/cmdlist/pBat_CmdList.h). -/
inductive HObj where
  | text (s : List Char)
  | ptrs (stack : Bool) (l : List (Option Nat))
  | var (name content : Option Nat) (inherit : Bool) (prev : Option Nat)
  | envbuf (nb index buf : Nat)
  | node (name : Nat) (isDef : Bool) (proc : Nat) (left right : Option Nat)
  deriving DecidableEq, Repr

/-- Memory. -/
abbrev Heap := Nat → Option HObj

/-- Another object at an address. -/
def Heap.put (h : Heap) (a : Nat) (o : Option HObj) : Heap := fun x => if x = a then o else h x

/-- Code that uses memory: one access after the other, each with what follows.  Threads are interleaved between accesses. -/
inductive HM (α : Type) where
  | ret (a : α)
  | ub
  | hang
  | read (a : Nat) (k : HObj → HM α)
  | write (a : Nat) (o : HObj) (k : HM α)
  | alloc (o : HObj) (k : Nat → HM α)
  | free (a : Nat) (k : HM α)

/-- Sequence. -/
def HM.bind {α β : Type} : HM α → (α → HM β) → HM β
  | .ret a, f => f a
  | .ub, _ => .ub
  | .hang, _ => .hang
  | .read a k, f => .read a fun o => (k o).bind f
  | .write a o k, f => .write a o (k.bind f)
  | .alloc o k, f => .alloc o fun x => (k x).bind f
  | .free a k, f => .free a (k.bind f)

instance : Monad HM where
  pure := .ret
  bind := HM.bind

/-- What an access does: `xs` are the addresses `malloc` has not given yet. -/
inductive HStep (α : Type) where
  | done
  | next (m : HM α) (h : Heap) (xs : List Nat)
  | ub
  | hang
  | stuck

/-- One access. -/
def HM.step {α : Type} : HM α → Heap → List Nat → HStep α
  | .ret _, _, _ => .done
  | .ub, _, _ => .ub
  | .hang, _, _ => .hang
  | .read a k, h, xs =>
    match h a with
    | some o => .next (k o) h xs
    | none => .ub
  | .write a o k, h, xs =>
    match h a with
    | some _ => .next k (h.put a (some o)) xs
    | none => .ub
  | .alloc o k, h, xs =>
    match xs with
    | [] => .stuck
    | x :: xs => if (h x).isSome then .stuck else .next (k x) (h.put x (some o)) xs
  | .free a k, h, xs =>
    match h a with
    | some (.ptrs true _) => .ub
    | some _ => .next k (h.put a none) xs
    | none => .ub

/-- The outcome of code that runs alone. -/
inductive HRes (α : Type) where
  | ok (a : α) (h : Heap) (xs : List Nat)
  | ub
  | hang
  | stuck

/-- Code that runs alone. -/
def HM.exec {α : Type} : HM α → Heap → List Nat → HRes α
  | .ret a, h, xs => .ok a h xs
  | .ub, _, _ => .ub
  | .hang, _, _ => .hang
  | .read a k, h, xs =>
    match h a with
    | some o => (k o).exec h xs
    | none => .ub
  | .write a o k, h, xs =>
    match h a with
    | some _ => k.exec (h.put a (some o)) xs
    | none => .ub
  | .alloc o k, h, xs =>
    match xs with
    | [] => .stuck
    | x :: xs => if (h x).isSome then .stuck else (k x).exec (h.put x (some o)) xs
  | .free a k, h, xs =>
    match h a with
    | some (.ptrs true _) => .ub
    | some _ => k.exec (h.put a none) xs
    | none => .ub

/-- What two threads have come to. -/
inductive PRes (α β : Type) where
  | now (m : HM α) (n : HM β) (h : Heap) (xs : List Nat)
  | ub
  | hang
  | stuck

/-- Two threads that share the memory; the schedule tells whose turn it is (`true`: the first). -/
def par {α β : Type} : List Bool → HM α → HM β → Heap → List Nat → PRes α β
  | [], m, n, h, xs => .now m n h xs
  | true :: s, m, n, h, xs =>
    match m.step h xs with
    | .done => par s m n h xs
    | .next m h xs => par s m n h xs
    | .ub => .ub
    | .hang => .hang
    | .stuck => .stuck
  | false :: s, m, n, h, xs =>
    match n.step h xs with
    | .done => par s m n h xs
    | .next n h xs => par s m n h xs
    | .ub => .ub
    | .hang => .hang
    | .stuck => .stuck

/-- Undefined behaviour. -/
def hub {α : Type} : HM α := .ub

/-- No end. -/
def hhang {α : Type} : HM α := .hang

/-- Reading an object. -/
def hread (a : Nat) : HM HObj := .read a .ret

/-- Writing an object. -/
def hwrite (a : Nat) (o : HObj) : HM Unit := .write a o (.ret ())

/-- `malloc`. -/
def halloc (o : HObj) : HM Nat := .alloc o .ret

/-- `free`. -/
def hfree (a : Nat) : HM Unit := .free a (.ret ())

/-- `free` of a pointer that may be null. -/
def hfreeOpt : Option Nat → HM Unit
  | none => pure ()
  | some a => hfree a

/-- Reading a text. -/
def readText (a : Nat) : HM (List Char) := do
  let o ← hread a
  match o with
  | .text s => pure s
  | _ => hub

/-- Reading an array of pointers. -/
def readPtrs (a : Nat) : HM (List (Option Nat)) := do
  let o ← hread a
  match o with
  | .ptrs _ l => pure l
  | _ => hub

/-- Writing one pointer of an array. -/
def writePtr (a i : Nat) (p : Option Nat) : HM Unit := do
  let o ← hread a
  match o with
  | .ptrs s l => if i < l.length then hwrite a (.ptrs s (l.set i p)) else hub
  | _ => hub

/-- `strdup`. C library. -/
def hstrdup (a : Nat) : HM Nat := do
  let s ← readText a
  halloc (.text s)

/-- Copying texts from one array to another: the loops of `pBat_DuplicateLocalVar` (pbat/core/pBat_Var.c:611-622) and `pBat_DirStackCopy`
(pbat/core/pBat_DirStack.c:115-133, where no pointer is null). -/
def dupSlots (new : Nat) : Nat → List (Option Nat) → HM Unit
  | _, [] => pure ()
  | i, none :: ps => dupSlots new (i + 1) ps
  | i, some p :: ps => do
    let q ← hstrdup p
    writePtr new i (some q)
    dupSlots new (i + 1) ps

/-- `pBat_DuplicateLocalVar`, pbat/core/pBat_Var.c:600-627. -/
def dupLocal (b : Nat) : HM Nat := do
  let new ← halloc (.ptrs false (List.replicate 128 none))
  let l ← readPtrs b
  dupSlots new 0 l
  pure new

/-- Freeing the texts of an array. -/
def freeSlots : List (Option Nat) → HM Unit
  | [] => pure ()
  | p :: ps => do
    hfreeOpt p
    freeSlots ps

/-- `pBat_FreeLocalBlock`, pbat/core/pBat_Var.c:629-639: the entries from 0x21 to 0x7F, then the array. -/
def freeLocalBlock (b : Nat) : HM Unit := do
  let l ← readPtrs b
  freeSlots (l.drop 33)
  hfree b

/-- The content given to `pBat_SetLocalVar`: a text copied, or nothing. -/
def newSlot : Option (List Char) → HM (Option Nat)
  | none => pure none
  | some t => do
    let q ← halloc (.text t)
    pure (some q)

/-- `pBat_SetLocalVar`, pbat/core/pBat_Var.c:331-367. -/
def heapSetLocal (b : Nat) (c : Nat) (t : Option (List Char)) : HM Unit :=
  if c < 128 ∧ 32 < c then do
    let l ← readPtrs b
    let q ← newSlot t
    writePtr b c q
    hfreeOpt (l[c]?.join)
  else pure ()

/-- `struct dirstack_t`, pbat/core/pBat_DirStack.h:25-28. -/
structure DirStack where
  paths : Option Nat
  count : Nat
  deriving DecidableEq, Repr

/-- The pointers of the stack (none is read if it is empty). -/
def dirPtrs (d : DirStack) : HM (List (Option Nat)) :=
  if d.count = 0 then pure []
  else match d.paths with
    | none => hub
    | some a => readPtrs a

/-- `pBat_DirStackCopy`, pbat/core/pBat_DirStack.c:95-137. -/
def dirStackCopy (d : DirStack) : HM DirStack := do
  let new ← halloc (.ptrs false (List.replicate d.count none))
  let l ← dirPtrs d
  dupSlots new 0 l
  pure ⟨some new, d.count⟩

/-- `pBat_DirStackFree`, pbat/core/pBat_DirStack.c:39-45. -/
def dirStackFree (d : DirStack) : HM Unit := do
  let l ← dirPtrs d
  freeSlots l
  hfreeOpt d.paths

/-- `pBat_PushDir`, pbat/core/pBat_DirStack.c:47-69. -/
def heapPushDir (d : DirStack) (t : List Char) : HM DirStack := do
  let l ← dirPtrs d
  hfreeOpt d.paths
  let new ← halloc (.ptrs false (l ++ [none]))
  let q ← halloc (.text t)
  writePtr new l.length (some q)
  pure ⟨some new, d.count + 1⟩

/-- `realloc` to a smaller array; nothing remains for size 0. -/
def shrink (d : DirStack) (l : List (Option Nat)) : HM (Option Nat) := do
  hfreeOpt d.paths
  if l = [] then pure none
  else do
    let new ← halloc (.ptrs false l)
    pure (some new)

/-- `pBat_PopDir`, pbat/core/pBat_DirStack.c:71-93, with the use of the answer by its callers (they free it). -/
def heapPopDir (d : DirStack) : HM (Option (List Char) × DirStack) :=
  if d.count = 0 then pure (none, d)
  else do
    let l ← dirPtrs d
    match l[d.count - 1]? with
    | some (some p) => do
      let new ← shrink d (l.take (d.count - 1))
      let t ← readText p
      hfree p
      pure (some t, ⟨new, d.count - 1⟩)
    | _ => hub

/-- `pBat_AllocEnvVar`, pbat/core/pBat_Env.c:106-134. -/
def allocEnvVar (n c : Option Nat) : HM Nat := do
  let v ← halloc (.var none none false none)
  match n, c with
  | some n, some c => do
    let n ← hstrdup n
    let c ← hstrdup c
    hwrite v (.var (some n) (some c) false none)
    pure v
  | _, _ => pure v

/-- The copy of one variable, pbat/core/pBat_Env.c:97-98. -/
def dupVar (p : Option Nat) : HM Nat :=
  match p with
  | none => hub
  | some a => do
    let o ← hread a
    match o with
    | .var n c _ _ => allocEnvVar n c
    | _ => hub

/-- The loop of `pBat_EnvDup`, pbat/core/pBat_Env.c:96-98. -/
def envDupLoop (new : Nat) : Nat → List (Option Nat) → HM Unit
  | _, [] => pure ()
  | i, p :: ps => do
    let q ← dupVar p
    writePtr new i (some q)
    envDupLoop new (i + 1) ps

/-- `pBat_EnvDup`, pbat/core/pBat_Env.c:80-104. -/
def heapEnvDup (e : Nat) : HM Nat := do
  let o ← hread e
  match o with
  | .envbuf nb index buf => do
    let new ← halloc (.envbuf nb 0 0)
    let nbuf ← halloc (.ptrs false (List.replicate nb none))
    let l ← readPtrs buf
    envDupLoop nbuf 0 (l.take index)
    hwrite new (.envbuf nb index nbuf)
    pure new
  | _ => hub

/-- One variable of `pBat_EnvFree`, pbat/core/pBat_Env.c:388-394. -/
def freeVar (p : Option Nat) : HM Unit :=
  match p with
  | none => hub
  | some a => do
    let o ← hread a
    match o with
    | .var n c _ _ => do
      hfreeOpt n
      hfreeOpt c
      hfree a
    | _ => hub

/-- The loop of `pBat_EnvFree`. -/
def freeVars : List (Option Nat) → HM Unit
  | [] => pure ()
  | p :: ps => do
    freeVar p
    freeVars ps

/-- `pBat_EnvFree`, pbat/core/pBat_Env.c:381-399: the variables and the array, not the `ENVBUF`, nor the values saved for procedures. -/
def heapEnvFree (e : Nat) : HM Unit := do
  let o ← hread e
  match o with
  | .envbuf _ index buf => do
    let l ← readPtrs buf
    freeVars (l.take index)
    hfree buf
  | _ => hub

/-- The text of a macro, or the code of a command, libpbat/cmdlist/pBat_CmdList.c:362-375. -/
def dupProc (isDef : Bool) (proc : Nat) : HM Nat := if isDef then hstrdup proc else pure proc

/-- A branch, libpbat/cmdlist/pBat_CmdList.c:380-384. -/
def dupBranch (dup : Nat → HM Nat) : Option Nat → HM (Option Nat)
  | none => pure none
  | some p => do
    let q ← dup p
    pure (some q)

/-- `pBat_DuplicateCommandList` on a node, libpbat/cmdlist/pBat_CmdList.c:348-389; the first number bounds the depth. -/
def dupCommands : Nat → Nat → HM Nat
  | 0, _ => hhang
  | f + 1, p => do
    let o ← hread p
    match o with
    | .node n d pr l r => do
      let q ← halloc (.node 0 false 0 none none)
      let n ← hstrdup n
      let pr ← dupProc d pr
      let l ← dupBranch (dupCommands f) l
      let r ← dupBranch (dupCommands f) r
      hwrite q (.node n d pr l r)
      pure q
    | _ => hub

/-- A branch, libpbat/cmdlist/pBat_CmdList.c:333-341. -/
def freeBranch (fr : Nat → HM Unit) : Option Nat → HM Unit
  | none => pure ()
  | some p => fr p

/-- `pBat_FreeCommandList` on a node, libpbat/cmdlist/pBat_CmdList.c:326-346. -/
def freeCommands : Nat → Nat → HM Unit
  | 0, _ => hhang
  | f + 1, p => do
    let o ← hread p
    match o with
    | .node n d pr l r => do
      hfree n
      hfreeOpt (if d then some pr else none)
      freeBranch (freeCommands f) l
      freeBranch (freeCommands f) r
      hfree p
    | _ => hub

/-- The values a copy takes over, pbat/core/pBat_Clone.c:110-117, 131-138. -/
structure Settings where
  delayed : Bool
  echo : Bool
  errorLevel : Int
  isScript : Bool
  cmdly : Bool
  abort : Int
  color : Nat
  dir : List Char
  file : List Char
  eof : Bool
  pos : Nat
  deriving DecidableEq, Repr

/-- The variables of a thread, pbat/core/pBat_Globals.c:56-97; `envStack` is `lpesEnv` (environment, `bDelayedExpansion`,
`bCmdlyCorrect`). -/
structure Inst where
  commands : Nat
  locals : Nat
  args : Nat
  dirs : DirStack
  env : Nat
  envStack : List (Nat × Bool × Bool)
  set : Settings
  deriving DecidableEq, Repr

/-- `pBat_DuplicateData` and `pBat_CloneTrampoline`, pbat/core/pBat_Clone.c:63-154: the variables of the new thread (`lpesEnv` starts
empty). -/
def cloneInst (f : Nat) (i : Inst) : HM Inst := do
  let c ← dupCommands f i.commands
  let l ← dupLocal i.locals
  let a ← dupLocal i.args
  let d ← dirStackCopy i.dirs
  let e ← heapEnvDup i.env
  pure ⟨c, l, a, d, e, [], i.set⟩

/-- `pBat_FreeEnvStack`, pbat/core/pBat_EnvStack.c:61-78, and the environment that remains (pbat/core/pBat_ExitInt.c:34-35). -/
def freeEnvs (e : Nat) : List (Nat × Bool × Bool) → HM Unit
  | [] => heapEnvFree e
  | x :: xs => do
    heapEnvFree e
    freeEnvs x.1 xs

/-- `pBat_Exit`, pbat/core/pBat_ExitInt.c:28-45. -/
def instExit (f : Nat) (i : Inst) : HM Unit := do
  freeCommands f i.commands
  freeLocalBlock i.locals
  freeLocalBlock i.args
  freeEnvs i.env i.envStack
  dirStackFree i.dirs

/-- `pBat_PushEnvStack` (SETLOCAL), pbat/core/pBat_EnvStack.c:24-41. -/
def heapPushEnv (i : Inst) : HM Inst := do
  let e ← heapEnvDup i.env
  pure { i with env := e, envStack := (i.env, i.set.delayed, i.set.cmdly) :: i.envStack }

/-- `pBat_PopEnvStack` (ENDLOCAL), pbat/core/pBat_EnvStack.c:43-59. -/
def heapPopEnv (i : Inst) : HM Inst :=
  match i.envStack with
  | [] => pure i
  | x :: xs => do
    heapEnvFree i.env
    pure { i with env := x.1, envStack := xs, set := { i.set with delayed := x.2.1, cmdly := x.2.2 } }

/-- Entering a label or a script called by CALL, pbat/command/pBat_Call.c:237-239, 346-352: the new blocks are arrays on the stack. -/
def callEnter (i : Inst) : HM Inst := do
  let l ← halloc (.ptrs true (List.replicate 128 none))
  let a ← halloc (.ptrs true (List.replicate 128 none))
  pure { i with locals := l, args := a }

end PBat
