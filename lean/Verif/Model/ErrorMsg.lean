import Verif.Model.Prompt
import Verif.Model.Mem
import Verif.Model.Num
/-
Model of the error messages (pbat/errors/pBat_Errors.c), of the conversions of `fprintf` they use and of `errno`.

Simplifications: writing and `strerror` succeed and leave `errno` alone; `isatty` sets it to ENOTTY when the stream is no terminal, as the C
library does; the key waited for before the program ends is not modelled. The messages are those of the source; a translation gives
another table, of which the theorems ask no more than stated.
-/
namespace PBat.Err

/-- The messages, pbat/errors/pBat_Errors.c:38-238, in the order of their numbers, pbat/errors/pBat_Errors.h:42-104. -/
def messages : List String :=
  ["No error: OK.",
   "Error : Unable to access file \"%s\".",
   "Error : Unable to find folder \"%s\".",
   "Error : \"%s\" is not recognized as an internal or external command, an operable program or a batch file.",
   "Error : \"%s\" was unexpected.",
   "Error : Invalid command line for %s.",
   "Error : Unable to find label \"%s\".",
   "Warning : Using a picobat extension but the CMDLYCORRECT option is set.",
   "Error : \"%s\" expected more arguments.",
   "Error : Incompatible arguments %s.",
   "Error : Unable to rename \"%s\".",
   "Error : Overflown maximum value.",
   "Error : Divide by 0.",
   "Error : Unable to create folder \"%s\".",
   "Error : Unable to delete folder \"%s\".",
   "Error : Stream module : \"%s\".",
   "Error : \"%c\" is an invalid character for special variables. Special variables require their name to be strict ascii characters, excluding controls characters and space (0x00 - 0x30).",
   "Error : \"%s\" is not a valid block (should at least be enclosed within parenthesis).",
   "Error : \"%s\" is not a valid token specifier.",
   "Error : Attempted to specify more than TOKEN_NB_MAX (%d) different tokens.",
   "Error : \"%s\" violates the ``Usebackq'' syntax.",
   "Error : Unable to allocate memory (in %s).",
   "Error : Can't create pipe (in %s).",
   "Error : unable to run a subprocess of picobat to process the given input (\"%s\").",
   "Error : Invalid token specifier. \"%s\" breaks input specifying rules.",
   "Error : FOR loop is trying to reassign already used %%%%%c variable.",
   "Error : \"%s\" is not a valid mathematical expression.",
   "Error : \"%s\" is not a valid top-level block.",
   "Error : Unable to duplicate file descriptor (%d).",
   "Error : Unable to create pipe at function (%s).",
   "Error : Unable to set environment string (%s).",
   "Error : \"%s\" is an invalid stream redirection.",
   "Error : Redirection for \"%s\" was already specified.",
   "Error : Encountered malformed blocks (\"%s\").",
   "Error : Blocks left unclosed at end-of-file.",
   "Error : Unable to add command \"%s\".",
   "Error : Unable to remap commands (in function %s).",
   "Error : Trying to redefine already used \"%s\" command.",
   "Error : Unable to redefine \"%s\" command.",
   "Error : Unable to set option \"%s\", it is built statically inside your version of pBat.",
   "Error : The \"%s\" comparison forbids use of strings.",
   "Error : Unable to fork the current process (in function %s).",
   "Error : Pathspec \"%s\" does not match any file.",
   "Error : %s does not recieved any valid file to process.",
   "Error : \"%s\" is not a valid number.",
   "Error : Too many arguments for %s command",
   "Error : \"%s\" is not a valid expression for IF command.",
   "Error : Unable to move file \"%s\".",
   "Error : Unable to copy file \"%s\".",
   "Error : Unable to delete file \"%s\".",
   "Error : Unable to create directory \"%s\".",
   "Error : Unable to delete directory \"%s\".",
   "Error : \"%s\" is a relative path, RENAME (or REN) do not handles relative path. If you want to move the file and rename it at the same time, you should use MOVE command.",
   "Error : \"%s\" is not a valid codepage on your system.",
   "Error : Unable to access picobat main thread to perform break.",
   "Error : Invalid label encountered within a block (at line %d).",
   "Error : Unable to lock mutex (%s).",
   "Error : Unable to release mutex (%s).",
   "Error : Unable to catenate file \"%s\".",
   "Error : Unable to load module \"%s\".",
   "Error : Incompatible module \"%s\".",
   "Error : Module \"%s\" is already loaded."]

/-- `lpQuitMessage`, pbat/errors/pBat_Errors.c:235-236. -/
def quitMessage : List Char := "Aborting current command, press any key to end picobat.".toList

/-- What is passed after the format: a text, a null pointer, or a number turned into a pointer (pbat/command/pBat_For.c:173, 999, 1165). -/
inductive Arg where
  | text (s : List Char)
  | null
  | number (n : Int)
  deriving DecidableEq, Repr

/-- `fprintf(f, format, arg)` where `arg` is a pointer to characters: a conversion other than `%s`, a null pointer, a pointer that is a
number, and a second conversion are undefined. C library. -/
def cformat : List Char → Option Arg → Res (List Char)
  | [], _ => .ok []
  | '%' :: '%' :: r, a => do let o ← cformat r a; .ok ('%' :: o)
  | '%' :: 's' :: r, some (.text s) => do let o ← cformat r none; .ok (s ++ o)
  | '%' :: _, _ => .ub
  | c :: r, a => do let o ← cformat r a; .ok (c :: o)

/-- The program: the table of messages, the message for each `errno`, `errno`, the colours, whether the error stream is a terminal. -/
structure Ctx where
  table : List (List Char)
  strerror : Nat → List Char
  errno : Nat
  col : Nat
  tty : Bool

/-- ENOTTY. -/
def enotty : Nat := 25

/-- `pBat_SetConsoleTextColor(fError, ...)`, libpbat/console/pBat_ConsoleANSI.c:69-107: what is written, and `errno`. -/
def setColor (c : Ctx) (code : Nat) : List Piece × Ctx :=
  if c.tty then ([.color code], c) else ([], { c with errno := enotty })

/-- The message, pbat/errors/pBat_Errors.c:257-266. The table has 62 pointers, of eight bytes each: the test of line 257 compares the number
with 496. -/
def messageText (table : List (List Char)) (number : Nat) (arg : Arg) : Res (List Char) :=
  if number < 62 * 8 then
    match table[number]? with
    | some m => do let t ← cformat m (some arg); .ok (t ++ ['\n'])
    | none => .ub
  else .ok []

/-- The beginning of the line that gives the reason, line 271. -/
def reasonLabel : List Char := "\tReason: ".toList

/-- `pBat_ShowErrorMessage`, pbat/errors/pBat_Errors.c:244-290: what is written and the status of the program if it ends. `code` has eight
bits, the highest of which is PBAT_PRINT_C_ERROR (0x80). -/
def showError (c : Ctx) (code : Nat) (arg : Arg) (exit : Int) : Res (List Piece × Option Nat) :=
  let reason := code.testBit 7
  let number := if reason then code - 128 else code
  let red := setColor c ((c.col &&& 0x1F0) ||| (0x01 ||| 0x08))
  match messageText c.table number arg with
  | .ub => .ub
  | .hang => .hang
  | .ok text =>
    let why := if reason then reasonLabel ++ red.2.strerror red.2.errno ++ ['\n'] else []
    let body := red.1 ++ (text ++ why).map .char ++ (setColor red.2 c.col).1
    if exit ≠ 0 then .ok (body ++ ('\n' :: quitMessage ++ ['\n']).map .char, some number) else .ok (body, none)

end PBat.Err
