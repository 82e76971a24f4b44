import Verif.Model.Env
import Verif.Model.Args
/-
Model of colours and prompts, `pbat/command/pBat_Color.c`, `libpbat/console/pBat_ConsoleANSI.c`, `pbat/core/pBat_Prompt.c`,
`pbat/command/pBat_Pecho.c`, in the build for unix.

Simplifications: the output is a terminal; colour numbers are natural numbers (no value used is negative).
-/
namespace PBat

/-- `BACKGROUND_COLOR`, pbat/command/pBat_Color.c:60-63 with the constants of libpbat/libpBat.h:274-290. -/
def backColor (x : Nat) : Nat :=
  (if 8 ≤ x then 0x80 else 0) ||| (if (x % 8) &&& 1 ≠ 0 then 0x40 else 0) ||| (if (x % 8) &&& 2 ≠ 0 then 0x20 else 0) |||
    (if (x % 8) &&& 4 ≠ 0 then 0x10 else 0)

/-- `FOREGROUND_COLOR`, pbat/command/pBat_Color.c:64-67. -/
def foreColor (x : Nat) : Nat :=
  (if 8 ≤ x then 0x08 else 0) ||| (if (x % 8) &&& 1 ≠ 0 then 0x04 else 0) ||| (if (x % 8) &&& 2 ≠ 0 then 0x02 else 0) |||
    (if (x % 8) &&& 4 ≠ 0 then 0x01 else 0)

/-- The cases of the two `switch`, pbat/command/pBat_Color.c:82-113 and 118-149: the value of a hexadecimal digit (`tolower` leaves decimal
digits as they are). -/
def colorDigit (c : Char) : Option Nat :=
  let l := c.toLower
  if '0'.toNat ≤ l.toNat ∧ l.toNat ≤ '9'.toNat then some (l.toNat - '0'.toNat)
  else if 'a'.toNat ≤ l.toNat ∧ l.toNat ≤ 'f'.toNat then some (10 + l.toNat - 'a'.toNat)
  else none

/-- The background named by a character, pbat/command/pBat_Color.c:82-113. -/
def backOf (col : Nat) (c : Char) : Option Nat :=
  match colorDigit c with
  | some d => some (backColor d)
  | none => if c = '.' then some (col &&& 0x1F0) else none

/-- The text colour named by a character, pbat/command/pBat_Color.c:118-149. -/
def foreOf (col : Nat) (c : Char) : Option Nat :=
  match colorDigit c with
  | some d => some (foreColor d)
  | none => if c = '.' then some (col &&& 0x20F) else none

/-- `pBat_GetColorCode`, pbat/command/pBat_Color.c:70-153; `none` for `-1`; `col` is `colColor`. -/
def getColorCode (col : Nat) : List Char → Option Nat
  | [f] => (foreOf col f).map fun v => v ||| ((col &&& 0x1F0) <<< 4)
  | [b, f] => (backOf col b).bind fun w => (foreOf col f).map fun v => v ||| w
  | _ => none

/-- `pBat_SetConsoleTextColor`, libpbat/console/pBat_ConsoleANSI.c:69-107: the numbers `n` of the sequences `ESC[nm` it writes. -/
def setTextColor (code : Nat) : List Nat :=
  let fore := if code &&& 0x08 ≠ 0 then 90 else 30
  let c1 := if code &&& 0x08 ≠ 0 then code ^^^ 0x08 else code
  let back := if c1 &&& 0x80 ≠ 0 then 100 else 40
  let c := if c1 &&& 0x80 ≠ 0 then c1 ^^^ 0x80 else c1
  (if c &&& 0x100 ≠ 0 then [49] else []) ++ (if c &&& 0x200 ≠ 0 then [39] else []) ++
    (if c &&& 0x200 ≠ 0 ∧ c &&& 0x100 ≠ 0 then []
     else (if c &&& 0x100 = 0 then [((c &&& 0xF0) >>> 4) + back] else []) ++ (if c &&& 0x200 = 0 then [(c &&& 7) + fore] else []))

/-- What a COLOR command does: the help, the sequences written (the screen is cleared after them) and the status. -/
inductive ColorOut where
  | help
  | refused
  | set (col : Nat) (codes : List Nat)
  deriving DecidableEq, Repr

/-- `PBAT_COLOR_DEFAULT`, libpbat/libpBat.h:321. -/
def colorDefault : Nat := 0x100 ||| 0x200

/-- The decision of `pBat_CmdColor`, pbat/command/pBat_Color.c:160-188; `arg` is the first parameter, if any, of which three characters
are kept. -/
def cmdColor (col : Nat) : Option (List Char) → ColorOut
  | none => .set colorDefault (setTextColor colorDefault)
  | some arg =>
    let a := arg.take 3
    if a = "/?".toList then .help
    else match getColorCode col a with
      | none => .refused
      | some code => if (0xF0 &&& code) >>> 4 = 0xF &&& code then .refused else .set code (setTextColor code)

/-- What a prompt is made of: `pBat_GetTimeBasedVar` for the date and the time, the variables USERNAME and USERDOMAIN, `lpCurrentDir`,
`dsDirStack.count` and `colColor`. -/
structure PromptCtx where
  date : List Char
  time : List Char
  user : Option (List Char)
  domain : Option (List Char)
  dir : List Char
  pushed : Nat
  col : Nat

/-- What is written: characters and changes of colour. -/
inductive Piece where
  | char (c : Char)
  | color (code : Nat)
  deriving DecidableEq, Repr

/-- The cases of the `switch` other than `x`, pbat/core/pBat_Prompt.c:43-125 and 150-163; `l` is the character made lower case.
`fputc(lpCurrentDir[0])` writes a null character in an empty directory name. -/
def promptCode (e : PromptCtx) (l : Char) : List Char :=
  if l = 'a' then ['&'] else if l = 'b' then ['|'] else if l = 'c' then ['(']
  else if l = 'd' then e.date
  else if l = 'e' then [Char.ofNat 27] else if l = 'f' then [')'] else if l = 'g' then ['>']
  else if l = 'h' then [Char.ofNat 8] else if l = 'l' then ['<'] else if l = 'm' then []
  else if l = 'n' then [e.dir.head?.getD (Char.ofNat 0)]
  else if l = 'p' then e.dir
  else if l = 'q' then ['='] else if l = 's' then [' ']
  else if l = 't' then e.time
  else if l = 'u' then e.user.getD []
  else if l = 'v' then []
  else if l = 'w' then e.domain.getD []
  else if l = '_' then ['\n'] else if l = '$' then ['$']
  else if l = '+' then List.replicate e.pushed '+'
  else []

/-- The case `x`, pbat/core/pBat_Prompt.c:128-148, and the step after the `switch`, lines 167-170: what is written and the text left, `s`
being the text after the `x`. -/
def promptColor (col : Nat) (s : List Char) : List Piece × List Char :=
  match s with
  | [] => ([], [])
  | [_] => ([], [])
  | a :: b :: t =>
    if b = ';' then (((getColorCode col [a]).map Piece.color).toList, t)
    else match t with
      | c :: t' => if c = ';' then (((getColorCode col [a, b]).map Piece.color).toList, t') else ([], b :: t)
      | [] => ([], b :: t)

theorem promptColor_length (col : Nat) (s : List Char) : (promptColor col s).2.length ≤ s.length := by
  unfold promptColor
  split
  · simp
  · simp
  · split
    · simp only [List.length_cons]; omega
    · split
      · split <;> simp only [List.length_cons] <;> omega
      · simp

/-- `pBat_OutputPromptString`, pbat/core/pBat_Prompt.c:29-176. -/
def promptOut (e : PromptCtx) (s : List Char) : List Piece :=
  match s with
  | [] => []
  | c :: t =>
    if c = '$' then
      match h : t with
      | [] => []
      | d :: r =>
        if d.toLower = 'x' then
          have := promptColor_length e.col r
          (promptColor e.col r).1 ++ promptOut e (promptColor e.col r).2
        else (promptCode e d.toLower).map Piece.char ++ promptOut e r
    else Piece.char c :: promptOut e t
termination_by s.length
decreasing_by all_goals simp only [List.length_cons] at *; omega

/-- `ispunct` of the C library for the characters of ASCII; false elsewhere (glibc). -/
def ispunct (c : Char) : Bool :=
  (33 ≤ c.toNat && c.toNat ≤ 47) || (58 ≤ c.toNat && c.toNat ≤ 64) || (91 ≤ c.toNat && c.toNat ≤ 96) ||
    (123 ≤ c.toNat && c.toNat ≤ 126)

/-- The test on the character after the name of the command, pbat/command/pBat_Echo.c:52-55, pbat/command/pBat_Pecho.c:49-52. -/
def glued : List Char → Bool
  | [] => false
  | c :: _ => c != ' ' && c != '\t' && !ispunct c

/-- What PECHO does. -/
inductive PechoOut where
  | help
  | glued
  | written (ps : List Piece)
  deriving DecidableEq, Repr

/-- `pBat_CmdPecho`, pbat/command/pBat_Pecho.c:42-78; `line` is the text after `PECHO`.  At the end of the text, `lpLine+1` points after
the terminator. -/
def cmdPecho (ex : List Char → Res (List Char)) (e : PromptCtx) (line : List Char) : Res PechoOut :=
  if glued line then .ok .glued
  else match line with
    | [] => .ub
    | c :: t => do
      let s ← ex t
      if ispunct c = false ∧ s = "/?".toList then .ok .help
      else .ok (.written (promptOut e s ++ [Piece.char '\n']))

/-- `pBat_CmdPrompt`, pbat/command/pBat_Pecho.c:80-96; `line` is the text after `PROMPT`; `none` for the help. -/
def cmdPrompt (L : LibC) (ex : List Char → Res (List Char)) (env : EnvBuf) (addr cpy : Int) (line : List Char) :
    Res (Option EnvBuf) := do
  let s ← ex (skipBlanks line)
  if s = "/?".toList then .ok none
  else do
    let e ← Res.ofOption (setEnvEx L env ⟨addr, "PROMPT".toList⟩ (if s = [] then "$P$G".toList else s) cpy false)
    .ok (some e)

/-- `pBat_OutputPrompt`, pbat/core/pBat_Prompt.c:179-189. -/
def outputPrompt (L : LibC) (env : EnvBuf) (addr : Int) (e : PromptCtx) : List Piece :=
  promptOut e ((getEnv L env ⟨addr, "PROMPT".toList⟩).getD [])

end PBat
