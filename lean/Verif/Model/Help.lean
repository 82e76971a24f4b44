import Verif.Model.Args
/-
Model of the help of the commands (`/?`): pbat/lang/pBat_ShowHelp.c, the tests for `/?` in the commands, and the commands that do little else: TITLE,
CLS, BREAK, VER, PAUSE, REM, CHCP (on Linux).
-/
namespace PBat.Help
open PBat

/-- The texts of help, named after what they are about (pbat/lang/pBat_ShowHelp.c:45-237). -/
inductive Topic
  | def_ | cd | cls | color | copy | call | del | dir | echo | for_ | goto | if_ | md | pause | rd | ren | rem | set | setlocal | endlocal | title
  | type | exit | shift | find | more | break_ | chcp | pushd | popd | wc | xargs | prompt | pecho | timeout | mod | ver | locale | start
  deriving DecidableEq, Repr

/-- `pBat_LoadInternalHelp`, pbat/lang/pBat_ShowHelp.c:45-237: the assignments in their order; the numbers are those of
pbat/lang/pBat_ShowHelp.h:23-62. -/
def loads : List (Nat × Topic) :=
  [(23, .def_), (4, .cd), (16, .cls), (21, .color), (8, .copy), (10, .call), (7, .del), (14, .dir), (0, .echo), (11, .for_), (2, .goto), (3, .if_),
   (6, .md), (20, .pause), (5, .rd), (18, .ren), (18, .rem), (1, .set), (12, .setlocal), (33, .endlocal), (17, .title), (19, .type), (22, .exit),
   (24, .shift), (25, .find), (26, .more), (27, .break_), (28, .chcp), (29, .pushd), (30, .popd), (31, .wc), (32, .xargs), (34, .prompt),
   (35, .pecho), (36, .timeout), (37, .mod), (38, .ver), (40, .locale), (39, .start)]

/-- The array `lpInternalHelp` (static, so full of `NULL` at first) after that. -/
def array : List (Option Topic) := loads.foldl (fun a p => a.set p.1 (some p.2)) (List.replicate 41 none)

/-- The loop of `pBat_ShowInternalHelp`, pbat/lang/pBat_ShowHelp.c:247-259: the end of line `\n` is written as `nl` (`PBAT_NL`). -/
def written (nl : List Char) (p : List Char) : List Char :=
  match h : strpbrk (· == '\n') p with
  | (a, []) => a
  | (a, _ :: r) => a ++ (nl ++ written nl r)
termination_by p.length
decreasing_by
  have := strpbrk_length (· == '\n') p
  rw [h] at this
  simp at this
  omega

/-- `pBat_ShowInternalHelp`, pbat/lang/pBat_ShowHelp.c:240-263: what is written to the error stream.  `tr` is `gettext`. -/
def showHelp (nl : List Char) (tr : Topic → List Char) (id : Nat) : Res (List Char) :=
  if id < 41 then
    match array[id]? with
    | some (some t) => .ok (written nl (tr t))
    | _ => .ub
  else .ok []

/-- How a command looks for `/?`. -/
inductive Look
  /-- the first parameter is compared -/
  | word
  /-- the first parameter is compared, cut to a buffer of some bytes (`pBat_GetNextParameter`) -/
  | short (n : Nat)
  /-- the beginning of the first parameter is compared -/
  | begins
  /-- the beginning of the line behind the blanks is compared -/
  | lineBegins
  /-- the line behind the blanks is compared -/
  | line
  /-- the line behind the blanks is expanded and compared -/
  | expanded
  /-- the line behind one blank is expanded and compared -/
  | behindOne
  /-- the first parameter is compared, if it is the only one -/
  | alone
  /-- the two bytes from the seventh of the line on are compared -/
  | seventh
  /-- it does not look -/
  | never
  deriving DecidableEq

/-- What a command asks for. -/
structure Row where
  name : List Char
  look : Look
  id : Nat

/-- The commands of pbat/command/pBat_CommandInfo.c:31-81 (without the block and the forms `CALL:`, `GOTO:`), with their tests for `/?`, on Linux.
Where a command goes through its parameters, the first one is looked at before anything is done. -/
def rows : List Row :=
  [ /- pBat_Echo.c:76-89 -/ ⟨"ECHO".toList, .alone, 0⟩,
    /- pBat_Exit.c:61-65 -/ ⟨"EXIT".toList, .word, 22⟩,
    /- pBat_Pause.c:45-49 -/ ⟨"PAUSE".toList, .seventh, 20⟩,
    /- pBat_Set.c:159-163 -/ ⟨"SET".toList, .short 5, 1⟩,
    /- pBat_Setlocal.c:65-69 -/ ⟨"SETLOCAL".toList, .word, 12⟩,
    /- pBat_Setlocal.c:140-146 -/ ⟨"ENDLOCAL".toList, .lineBegins, 33⟩,
    /- pBat_Rem.c:43-57 -/ ⟨"REM".toList, .never, 0⟩,
    /- pBat_Cls.c:47-51 -/ ⟨"CLS".toList, .short 4, 16⟩,
    /- pBat_Color.c:160-164 -/ ⟨"COLOR".toList, .short 4, 21⟩,
    /- pBat_Title.c:54-58 -/ ⟨"TITLE".toList, .short 3, 17⟩,
    /- pBat_Type.c:120-124 -/ ⟨"TYPE".toList, .word, 19⟩,
    /- pBat_More.c:67-71 -/ ⟨"MORE".toList, .word, 26⟩,
    /- pBat_Goto.c:53-57 -/ ⟨"GOTO".toList, .word, 2⟩,
    /- pBat_Start.c:136-140 -/ ⟨"START".toList, .word, 39⟩,
    /- pBat_Cd.c:232-236 -/ ⟨"CD".toList, .word, 4⟩, ⟨"CHDIR".toList, .word, 4⟩,
    /- pBat_Dir.c:89-94 -/ ⟨"DIR".toList, .word, 14⟩,
    /- pBat_If.c:57-61 -/ ⟨"IF".toList, .short 11, 3⟩,
    /- pBat_Del.c:86-124 -/ ⟨"DEL".toList, .word, 7⟩, ⟨"ERASE".toList, .word, 7⟩,
    /- pBat_Ren.c:43-127: no test -/ ⟨"REN".toList, .never, 0⟩, ⟨"RENAME".toList, .never, 0⟩,
    /- pBat_Copy.c:132-159 -/ ⟨"MOVE".toList, .word, 9⟩, ⟨"COPY".toList, .word, 8⟩,
    /- pBat_Mkdir.c:57-68 -/ ⟨"MD".toList, .word, 6⟩, ⟨"MKDIR".toList, .word, 6⟩,
    /- pBat_Rmdir.c:97-101 -/ ⟨"RD".toList, .word, 5⟩, ⟨"RMDIR".toList, .word, 5⟩,
    /- pBat_For.c:113-133 -/ ⟨"FOR".toList, .word, 11⟩,
    /- pBat_Call.c:66-100 -/ ⟨"CALL".toList, .word, 10⟩,
    /- pBat_Def.c:57-61 -/ ⟨"DEF".toList, .word, 23⟩,
    /- pBat_Shift.c:158-160 -/ ⟨"SHIFT".toList, .begins, 24⟩,
    /- pBat_Find.c:197-202 -/ ⟨"FIND".toList, .word, 25⟩,
    /- pBat_Break.c:54-57 -/ ⟨"BREAK".toList, .short 4, 27⟩,
    /- pBat_Chcp.c:129-132 -/ ⟨"CHCP".toList, .never, 0⟩,
    /- pBat_Pushd.c:57-71 -/ ⟨"PUSHD".toList, .begins, 29⟩,
    /- pBat_Pushd.c:101-106 -/ ⟨"POPD".toList, .lineBegins, 30⟩,
    /- pBat_Wc.c:206-214 -/ ⟨"WC".toList, .word, 31⟩,
    /- pBat_Xargs.c:58-72 -/ ⟨"XARGS".toList, .line, 32⟩,
    /- pBat_Pecho.c:84-87 -/ ⟨"PROMPT".toList, .expanded, 34⟩,
    /- pBat_Pecho.c:61-66 -/ ⟨"PECHO".toList, .behindOne, 35⟩,
    /- pBat_Timeout.c:70-74 -/ ⟨"TIMEOUT".toList, .word, 36⟩,
    /- pBat_Mod.c:303-312 -/ ⟨"MOD".toList, .word, 37⟩,
    /- pBat_Locale.c:71-82 -/ ⟨"LOCALE".toList, .word, 40⟩,
    /- pBat_Ver.c:41-47 -/ ⟨"VER".toList, .short 3, 38⟩ ]

def question : List Char := ['/', '?']

/-- A byte of the buffer of a line: the text, the NUL that ends it, and whatever is behind (the buffer comes from `malloc` and is not cleared,
libpbat/estr/pBat_Estr.c:71-104 and pbat/core/pBat_Parse.c:431). -/
def byteAt (junk : Nat → Char) (line : List Char) (i : Nat) : Char :=
  match line[i]? with
  | some c => c
  | none => if i = line.length then '\x00' else junk i

/-- `ispunct`, for the characters that separate. -/
def isSep (c : Char) : Bool := c == ',' || c == ';'

/-- Whether help is shown for the line `name ++ args`.  `ex` is `pBat_DelayedExpand`. -/
def asks (ex : List Char → Res (List Char)) (junk : Nat → Char) (name args : List Char) : Look → Res Bool
  | .word => do
    match ← nextParam stdDelims ex args with
    | some (t, _) => pure (t == question)
    | none => pure false
  | .short n => do
    match ← nextParam stdDelims ex args with
    | some (t, _) => pure (t.take (n - 1) == question)
    | none => pure false
  | .begins => do
    match ← nextParam stdDelims ex args with
    | some (t, _) => pure (t.take 2 == question)
    | none => pure false
  | .lineBegins => pure ((skipBlanks args).take 2 == question)
  | .line => pure (skipBlanks args == question)
  | .expanded => do pure ((← ex (skipBlanks args)) == question)
  | .behindOne =>
    match args with
    | c :: r => do pure ((← ex r) == question && !isSep c)
    | [] => pure false
  | .alone =>
    match args with
    | c :: r => if isSep c then pure false else do
      match ← nextParam stdDelims ex (c :: r) with
      | some (t, rest) => do
        match ← nextParam stdDelims ex rest with
        | some _ => pure false
        | none => pure (t == question)
      | none => pure false
    | [] => pure false
  | .seventh => pure (byteAt junk (name ++ args) 6 == '/' && byteAt junk (name ++ args) 7 == '?')
  | .never => pure false

/-- What the small commands do. -/
inductive Did
  | help (out : List Char)
  /-- the title of the console is set -/
  | title (t : List Char)
  /-- the screen is cleared -/
  | clear
  /-- the version of the system is printed -/
  | version
  /-- "press a key" is printed and a key awaited -/
  | wait
  | nothing
  /-- a message of this code about this text -/
  | error (code : Nat) (what : List Char)
  deriving DecidableEq

/-- The small commands. -/
inductive Small | title | cls | break_ | ver | pause | rem | chcp
  deriving DecidableEq

def Small.row : Small → Row
  | .title => ⟨"TITLE".toList, .short 3, 17⟩
  | .cls => ⟨"CLS".toList, .short 4, 16⟩
  | .break_ => ⟨"BREAK".toList, .short 4, 27⟩
  | .ver => ⟨"VER".toList, .short 3, 38⟩
  | .pause => ⟨"PAUSE".toList, .seventh, 20⟩
  | .rem => ⟨"REM".toList, .never, 0⟩
  | .chcp => ⟨"CHCP".toList, .never, 0⟩

/-- What they do when they do not show help: `pBat_CmdTitle`, pbat/command/pBat_Title.c:54-66; `pBat_CmdCls`, pbat/command/pBat_Cls.c:47-65 (the text
of the message is cut to three bytes); `pBat_CmdBreak`, pbat/command/pBat_Break.c:50-62; `pBat_CmdVer`, pbat/command/pBat_Ver.c:36-79;
`pBat_CmdPause`, pbat/command/pBat_Pause.c:43-58; `pBat_CmdRem`, pbat/command/pBat_Rem.c:43-57; `pBat_CmdChcp`, pbat/command/pBat_Chcp.c:129-132. -/
def Small.work (ex : List Char → Res (List Char)) (args : List Char) : Small → Res Did
  | .title => do
    match ← nextParam stdDelims ex args with
    | some _ => do pure (.title (← ex args))
    | none => pure .nothing
  | .cls => do
    match ← nextParam stdDelims ex args with
    | some (t, _) => pure (.error 4 (t.take 3))
    | none => pure .clear
  | .break_ => pure .nothing
  | .ver => pure .version
  | .pause => pure .wait
  | .rem => pure .nothing
  | .chcp => pure .nothing

def Small.run (nl : List Char) (tr : Topic → List Char) (ex : List Char → Res (List Char)) (junk : Nat → Char) (s : Small) (args : List Char) :
    Res Did := do
  if ← asks ex junk s.row.name args s.row.look then do pure (.help (← showHelp nl tr s.row.id))
  else s.work ex args

end PBat.Help
