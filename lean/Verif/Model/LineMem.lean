/-!
# The memory of the lines that are run

The blocks of memory taken and given back while a line is parsed, run and dropped: pbat/core/pBat_Parse.c:30-532,
pbat/core/pBat_Run.c:52-585, 816-850, pbat/command/pBat_If.c, pbat/command/pBat_For.c:84-620, pbat/command/pBat_Block.c,
pbat/command/pBat_Xargs.c, pbat/command/pBat_Call.c:356-397.  A block is a number that is never given twice, so that a number
that is not in use is either free or was never taken; to read or free such a block is undefined.  A growable string is one
block (its buffer is the matter of C01, the cache of strings of C35).  What the texts say is not modelled: the result of every
condition, the number of turns of every loop, the lines of the scripts called, and what every other command does to the flow
are answers of an environment that may depend on everything that happened before.  Allocation never fails.
-/

namespace PBat.Lm

/-- The operator before a command, pbat/core/pBat_Parse.h:50-54. -/
inductive Ty | none | yes | not | pipe
  deriving DecidableEq, Repr

/-- What `bAbortCommand` says, pbat/core/pBat_Globals.h:58-60 (nothing sets `PBAT_ABORT_COMMAND_LINE`). -/
inductive Abort | no | block | level
  deriving DecidableEq, Repr

/-- Where the parsing of a part of a line stops: nowhere, at a block without end while the line is split
(pbat/core/pBat_Parse.c:329-335), or at a redirection that is wrong (pbat/core/pBat_Parse.c:88-267). -/
inductive Stop | ok | ops | redir
  deriving DecidableEq, Repr

/-- A part of a line apart from its command: the operator before it, how many files it names in redirections, whether its
parsing stops. -/
structure Head where
  ty : Ty
  files : Nat
  stop : Stop
  deriving DecidableEq, Repr

/-- Commands as far as the memory of lines depends on them.  A line is a list of parts.  `simple` is any command that runs no
line; `macro` is a command made by DEF, with what it expands to; `xargs` is XARGS, with the command it runs. -/
inductive Cmd
  | simple
  | block (ls : List (List (Head × Cmd)))
  | iff (yes : List (List (Head × Cmd))) (no : Option (List (List (Head × Cmd))))
  | loop (plain : Bool) (body : List (List (Head × Cmd)))
  | macro (c : Cmd)
  | xargs (c : Cmd)
  | call

/-- A line: the commands between the operators. -/
abbrev Line := List (Head × Cmd)

/-- The line begins with IF or FOR, pbat/core/pBat_Run.c:130-132. -/
def Cmd.look : Cmd → Bool
  | .iff .. => true
  | .loop .. => true
  | _ => false

/-- What IF finds, pbat/command/pBat_If.c:133-306: the result of ERRORLEVEL, EXIST, DEFINED; of a comparison with one string
taken, with two strings; an end of the line too early with none, one, two strings taken; an operator that is not known. -/
inductive Cond | word (b : Bool) | one (b : Bool) | two (b : Bool) | less | lessOne | lessTwo | unknown
  deriving DecidableEq, Repr

/-- What FOR goes on to, pbat/command/pBat_For.c:378-462: the end, a value, a pattern with so many files. -/
inductive Item | stop | text | found (k : Nat)
  deriving DecidableEq, Repr

/-- The answers of the environment: the `t`-th answer needed is the one at `t`.  `junk` tells whether the seven bytes after
`cNodeType` in a block just taken by `malloc` are not all zero. -/
structure Env where
  skip : Nat → Bool
  exits : Nat → Bool
  abort : Nat → Abort
  cond : Nat → Cond
  forOk : Nat → Bool
  item : Nat → Item
  fetch : Nat → Option Line
  junk : Nat → Bool

/-- The blocks in use, the next number, how many answers were taken, `bAbortCommand`; and a record of what happened: IF with an
ELSE run its command, IF met an operator that is not known, FOR run without its line, files of a pattern left by an abort, EXIT
in a member of a pipe. -/
structure St where
  live : List Nat
  next : Nat
  tick : Nat
  ab : Abort
  elses : Nat := 0
  unknowns : Nat := 0
  bares : Nat := 0
  lefts : Nat := 0
  gones : Nat := 0
  deriving DecidableEq, Repr

/-- How a piece of code ends: with a value, with EXIT, in undefined behaviour, or not within the depth allowed. -/
inductive Out (α : Type) | done (a : α) (s : St) | gone (s : St) | ub | fuel

/-- Code that works on the memory. -/
def M (α : Type) := St → Out α

/-- Nothing, with a value. -/
def ret {α : Type} (a : α) : M α := fun s => .done a s

/-- One piece of code after the other. -/
def M.andThen {α β : Type} (m : M α) (f : α → M β) : M β := fun s =>
  match m s with
  | .done a s' => f a s'
  | .gone s' => .gone s'
  | .ub => .ub
  | .fuel => .fuel

instance : Monad M where
  pure := ret
  bind := M.andThen

/-- `malloc`, `strdup`, `pBat_EsInit`, `pBat_EsInit_Cached`. -/
def alloc : M Nat := fun s => .done s.next { s with live := s.next :: s.live, next := s.next + 1 }

/-- `free`, `pBat_EsFree`, `pBat_EsFree_Cached`. -/
def free (i : Nat) : M Unit := fun s => if i ∈ s.live then .done () { s with live := s.live.erase i } else .ub

/-- Reading or writing a block. -/
def use (i : Nat) : M Unit := fun s => if i ∈ s.live then .done () s else .ub

/-- An answer of the environment. -/
def ask {β : Type} (f : Nat → β) : M β := fun s => .done (f s.tick) { s with tick := s.tick + 1 }

/-- `bAbortCommand`. -/
def getAb : M Abort := fun s => .done s.ab s

/-- `bAbortCommand = a`. -/
def setAb (a : Abort) : M Unit := fun s => .done () { s with ab := a }

/-- `EXIT`, pbat/command/pBat_Exit.c:97-107. -/
def exit_ {α : Type} : M α := fun s => .gone s

/-- Undefined behaviour. -/
def undef {α : Type} : M α := fun _ => .ub

/-- Nothing within the depth allowed. -/
def deep {α : Type} : M α := fun _ => .fuel

/-- What happened is recorded; the code does nothing here. -/
def record (f : St → St) : M Unit := fun s => .done () { s with
  elses := (f s).elses, unknowns := (f s).unknowns, bares := (f s).bares, lefts := (f s).lefts }

/-- So many blocks. -/
def allocs : Nat → M (List Nat)
  | 0 => pure []
  | n + 1 => do
    let i ← alloc
    let r ← allocs n
    pure (i :: r)

/-- The blocks of a list, one after the other. -/
def frees : List Nat → M Unit
  | [] => pure ()
  | i :: r => do
    free i
    frees r

/-- `PARSED_STREAM`, pbat/core/pBat_Parse.h:33-40: the structure and the names of files in it. -/
structure Strm where
  id : Nat
  files : List Nat

/-- `PARSED_LINE`, pbat/core/pBat_Parse.h:42-47: the structure, its operator, its command with the string of it, its
redirections. -/
structure Node where
  id : Nat
  ty : Ty
  cmd : Cmd
  str : Nat
  strm : Option Strm

/-- `pBat_FreeParsedStream`, pbat/core/pBat_Parse.c:462-477. -/
def freeStream (s : Strm) : M Unit := do
  use s.id
  frees s.files
  free s.id

/-- `pBat_FreeParsedStream` of what a node has, if any. -/
def freeStreamOf : Option Strm → M Unit
  | none => pure ()
  | some s => freeStream s

/-- `if (last) free(last)`. -/
def freeLast : Option Nat → M Unit
  | none => pure ()
  | some l => free l

/-- `pBat_FreeParsedLine`, pbat/core/pBat_Parse.c:479-501: a node is freed once the next one is at hand. -/
def freeNodes (last : Option Nat) : List Node → M Unit
  | [] => freeLast last
  | n :: r => do
    freeLast last
    use n.id
    freeStreamOf n.strm
    free n.str
    use n.id
    freeNodes (some n.id) r

/-- `pBat_ParseOperators`, pbat/core/pBat_Parse.c:293-416: a node and its string for every part. -/
def parseOps (acc : List Node) : Line → M (Option (List Node))
  | [] => pure (some acc)
  | (h, c) :: r => do
    let id ← alloc
    let str ← alloc
    if h.stop = .ops then do
      freeNodes none (acc ++ [⟨id, h.ty, c, str, none⟩])
      pure none
    else parseOps (acc ++ [⟨id, h.ty, c, str, none⟩]) r

/-- `pBat_ParseOutput`, pbat/core/pBat_Parse.c:55-289, for a part with this head. -/
def parseOut (h : Head) (str : Nat) : M (Option Strm) := do
  use str
  let final ← alloc
  let param ← alloc
  let id ← alloc
  let fs ← allocs h.files
  if h.stop = .redir then do
    freeStream ⟨id, fs⟩
    free final
    free param
    pure none
  else do
    use str
    free final
    free param
    pure (some ⟨id, fs⟩)

/-- The loop of `pBat_ParseLine`, pbat/core/pBat_Parse.c:30-53. -/
def parseOuts (acc : List Node) : List (Head × Node) → M (Option (List Node))
  | [] => pure (some acc)
  | (h, n) :: r => do
    use n.id
    let s ← parseOut h n.str
    match s with
    | none => do
      freeNodes none (acc ++ n :: r.map Prod.snd)
      pure none
    | some s => parseOuts (acc ++ [{ n with strm := some s }]) r

/-- `pBat_ParseLine`, pbat/core/pBat_Parse.c:30-53. -/
def parse (l : Line) : M (Option (List Node)) := do
  let ns ← parseOps [] l
  match ns with
  | none => pure none
  | some ns => parseOuts [] ((l.map Prod.fst).zip ns)

/-- `pBat_LookAHeadMakeParsedLine`, pbat/core/pBat_Run.c:816-850, with a node: the block is copied from the text that holds it,
then the old string of the node is dropped. -/
def make (src : Nat) (c : Cmd) (n : Node) : M Node := do
  let new ← alloc
  use src
  use n.id
  free n.str
  pure { n with str := new, cmd := c }

/-- The same without a node: a new one. -/
def makeNew (src : Nat) (c : Cmd) : M Node := do
  let new ← alloc
  let id ← alloc
  use src
  pure ⟨id, .none, c, new, none⟩

/-- `pBat_DuplicateParsedStream`, pbat/core/pBat_Parse.c:503-532; there must be one. -/
def dup : Option Strm → M Strm
  | none => undef
  | some s => do
    use s.id
    let id ← alloc
    let fs ← allocs s.files.length
    pure ⟨id, fs⟩

/-- The names of the files are read, `pBat_ExecOutput`, pbat/core/pBat_Run.c:244-302. -/
def useFiles : List Nat → M Unit
  | [] => pure ()
  | i :: r => do
    use i
    useFiles r

/-- `pBat_ExecOutput`, pbat/core/pBat_Run.c:244-302. -/
def execOut : Option Strm → M Unit
  | none => pure ()
  | some s => do
    use s.id
    useFiles s.files

/-- The strings IF takes for its condition, pbat/command/pBat_If.c:133-306: the result, if IF goes on, and whether the
rest of the line is given up otherwise. -/
def test (str : Nat) : Cond → M (Bool ⊕ Bool)
  | .word b => pure (.inl b)
  | .one b => do
    let a ← alloc
    use str
    free a
    pure (.inl b)
  | .two b => do
    let a ← alloc
    use str
    let o ← alloc
    use str
    free o
    free a
    pure (.inl b)
  | .less => pure (.inr true)
  | .lessOne => do
    let a ← alloc
    use str
    free a
    pure (.inr true)
  | .lessTwo => do
    let a ← alloc
    use str
    let o ← alloc
    use str
    free o
    free a
    pure (.inr true)
  | .unknown => do
    let _a ← alloc
    use str
    let o ← alloc
    use str
    free o
    record fun s => { s with unknowns := s.unknowns + 1 }
    pure (.inr false)

/-- A thread of its own: EXIT ends only it, and `bAbortCommand` is its own.  Its steps are put where it is started: it works
on blocks of its own. -/
def thread (m : M Unit) : M Unit := fun s =>
  match m s with
  | .done _ s' => .done () { s' with ab := s.ab }
  | .gone s' => .done () { s' with ab := s.ab, gones := s'.gones + 1 }
  | .ub => .ub
  | .fuel => .fuel

/-- Whether the command is skipped, pbat/core/pBat_Run.c:134-158. -/
def skipped (e : Env) : Ty → M Bool
  | .none => pure false
  | .pipe => pure true
  | .yes => ask e.skip
  | .not => ask e.skip

mutual

/-- `pBat_RunLine`, pbat/core/pBat_Run.c:304-325. -/
def runLine (e : Env) : Nat → Line → M Unit
  | 0, _ => deep
  | n + 1, l => do
    let ns ← parse l
    match ns with
    | none => pure ()
    | some ns => do
      let ns ← runNodes e n ns
      freeNodes none ns

/-- `pBat_RunParsedLine` with `pBat_ExecOperators`, pbat/core/pBat_Run.c:111-215, 327-385.  The nodes are handed back as they
are afterwards. -/
def runNodes (e : Env) : Nat → List Node → M (List Node)
  | 0, _ => deep
  | _ + 1, [] => pure []
  | n + 1, nd :: r => do
    use nd.id
    use nd.str
    let skip ← skipped e nd.ty
    let p ← (if nd.cmd.look || skip then pure (([] : List Node), nd, r) else pipes e n [] nd r)
    let ab ← getAb
    if ab ≠ .no then pure (p.1 ++ p.2.1 :: p.2.2)
    else if skip then do
      if nd.cmd.look then pure (p.1 ++ p.2.1 :: p.2.2)
      else do
        let r' ← runNodes e n p.2.2
        pure (p.1 ++ p.2.1 :: r')
    else do
      if nd.cmd.look then pure () else execOut p.2.1.strm
      let q ← runCmd e n (p.2.1 :: p.2.2) p.2.1.str p.2.1.cmd
      match q.1 with
      | [] => pure p.1
      | nd' :: r' =>
        if q.2 then do
          use nd'.id
          if nd.cmd.look then pure (p.1 ++ nd' :: r')
          else do
            let r'' ← runNodes e n r'
            pure (p.1 ++ nd' :: r'')
        else pure (p.1 ++ nd' :: r')

/-- The members of a pipe, pbat/core/pBat_Run.c:162-204, 217-242: each one but the last gets copies of its string and its
redirections and runs in a thread of its own.  Gives the nodes passed, the last one, and the rest. -/
def pipes (e : Env) : Nat → List Node → Node → List Node → M (List Node × Node × List Node)
  | 0, _, _, _ => deep
  | _ + 1, before, nd, [] => pure (before, nd, [])
  | n + 1, before, nd, nx :: r => do
    if nx.ty = .pipe then do
      let infos ← alloc
      let str ← alloc
      use nd.str
      let st ← dup nd.strm
      thread (do
        use infos
        execOut (some st)
        let _q ← runCmd e n [] str nd.cmd
        freeStream st
        free str
        free infos)
      use nd.id
      pipes e n (before ++ [nd]) nx r
    else pure (before, nd, nx :: r)

/-- `pBat_RunCommand`, pbat/core/pBat_Run.c:387-486, with the nodes of the line from this one on (none: `lpplLine` is NULL)
and the string of the command.  The answer is the nodes afterwards and whether the rest of the line goes on. -/
def runCmd (e : Env) : Nat → List Node → Nat → Cmd → M (List Node × Bool)
  | 0, _, _, _ => deep
  | _ + 1, line, str, .simple => do
    use str
    let x ← ask e.exits
    if x then exit_
    else do
      let a ← ask e.abort
      setAb a
      use str
      pure (line, true)
  | n + 1, line, str, .block ls => do
    use str
    let top ← alloc
    let l ← alloc
    let b ← alloc
    use str
    runLines e n b l ls
    free l
    free b
    free top
    pure (line, true)
  | n + 1, line, str, .macro c => do
    use str
    let r ← alloc
    let p ← alloc
    use str
    free r
    free p
    let vars ← alloc
    let q ← runCmd e n (match line with | [] => [] | nd :: r => { nd with cmd := c } :: r) str c
    free vars
    pure q
  | n + 1, line, str, .xargs c => do
    use str
    let p ← alloc
    let s ← alloc
    use str
    let _q ← runCmd e n [] s c
    free s
    free p
    pure (line, true)
  | n + 1, line, str, .call => do
    use str
    let l ← alloc
    runBatch e n l
    setAb .no
    free l
    pure (line, true)
  | n + 1, line, str, .iff yes no => do
    use str
    let c ← ask e.cond
    let t ← test str c
    match t with
    | .inr quit => pure (line, !quit)
    | .inl true =>
      match line, no with
      | nd :: r, none => do
        let nd' ← make str (.block yes) nd
        let ns ← runNodes e n (nd' :: r)
        pure (ns, false)
      | nd :: r, some _ => do
        let nd' ← makeNew str (.block yes)
        let _ns ← runNodes e n [nd']
        record fun s => { s with elses := s.elses + 1 }
        pure (nd :: r, false)
      | [], _ => do
        let nd' ← makeNew str (.block yes)
        let ns ← runNodes e n [nd']
        freeNodes none ns
        pure ([], false)
    | .inl false =>
      match line, no with
      | _, none => pure (line, false)
      | nd :: r, some no => do
        let nd' ← make str (.block no) nd
        let ns ← runNodes e n (nd' :: r)
        pure (ns, false)
      | [], some no => do
        let nd' ← makeNew str (.block no)
        let ns ← runNodes e n [nd']
        freeNodes none ns
        pure ([], false)
  | n + 1, line, str, .loop plain body => do
    use str
    let p ← alloc
    let d ← alloc
    let i ← alloc
    use str
    let ok ← ask e.forOk
    if ok then
      match line with
      | nd :: r => do
        let nd' ← make str (.block body) nd
        let es ← alloc
        let ns ← runLoop e n plain i es [] [] (nd' :: r)
        free es
        free p
        free d
        free i
        pure (ns, false)
      | [] => do
        let nd' ← makeNew str (.block body)
        let es ← alloc
        let _ns ← runLoop e n plain i es [] [] [nd']
        free es
        free p
        free d
        free i
        use nd'.id
        let junk ← ask e.junk
        if junk then undef
        else do
          free nd'.id
          record fun s => { s with bares := s.bares + 1 }
          pure ([], false)
    else do
      free p
      free d
      free i
      pure (line, false)

/-- The loop of `pBat_RunBlock`, pbat/core/pBat_Run.c:526-579; `b` and `l` are its strings. -/
def runLines (e : Env) : Nat → Nat → Nat → List Line → M Unit
  | 0, _, _, _ => deep
  | _ + 1, b, _, [] => use b
  | n + 1, b, l, x :: r => do
    use b
    use l
    runLine e n x
    let ab ← getAb
    if ab = .no then runLines e n b l r else pure ()

/-- `pBat_RunBatch`, pbat/core/pBat_Run.c:52-107; `l` is its string. -/
def runBatch (e : Env) : Nat → Nat → M Unit
  | 0, _ => deep
  | n + 1, l => do
    use l
    let x ← ask e.fetch
    match x with
    | none => pure ()
    | some x => do
      use l
      runLine e n x
      let ab ← getAb
      if ab = .level then pure ()
      else do
        setAb .no
        runBatch e n l

/-- The turns of FOR, pbat/command/pBat_For.c:364-475, 477-620: `input` is the text between the parentheses, `es` the string of
the loop, `files` the files of the pattern at hand and `left` those still to come.  The loops with options see no pattern. -/
def runLoop (e : Env) : Nat → Bool → Nat → Nat → List Nat → List Nat → List Node → M (List Node)
  | 0, _, _, _, _, _, _ => deep
  | n + 1, plain, input, es, f :: fs, [], ns => do
    frees (f :: fs)
    runLoop e n plain input es [] [] ns
  | n + 1, plain, input, es, f :: fs, x :: left, ns => do
    use x
    use es
    let ns ← runNodes e n ns
    let ab ← getAb
    if ab ≠ .no then do
      record fun s => { s with lefts := s.lefts + (f :: fs).length }
      pure ns
    else runLoop e n plain input es (f :: fs) left ns
  | n + 1, plain, input, es, [], _, ns => do
    use input
    let it ← ask e.item
    match it with
    | .stop => pure ns
    | .found k =>
      if plain then do
        let fs ← allocs k
        runLoop e n plain input es fs fs ns
      else pure ns
    | .text => do
      use es
      let ns ← runNodes e n ns
      let ab ← getAb
      if ab ≠ .no then pure ns
      else runLoop e n plain input es [] [] ns

end

end PBat.Lm
