/-
Model of the string scanning helpers of `libpbat/cmdlib/pBat_String.c`.
A `char*` is the suffix of the text it points at; a returned pointer is an offset.
-/
namespace PBat

/-- `pBat_IsDelim`, libpbat/libpBat.h:492-493. -/
def isDelim (c : Char) : Bool :=
  c == ' ' || c == '\t' || c == ',' || c == ';' || c == '\n'

/-- `pBat_SkipBlanks`, libpbat/cmdlib/pBat_String.c:27-40. -/
def skipBlanks : List Char → List Char
  | [] => []
  | c :: cs => if isDelim c then skipBlanks cs else c :: cs

/-- `pBat_SkipAllBlanks`, libpbat/cmdlib/pBat_String.c:42-50. -/
def skipAllBlanks : List Char → List Char
  | [] => []
  | c :: cs => if isDelim c || c == '@' then skipAllBlanks cs else c :: cs

/-- The inner loop shared by all searches, e.g. libpbat/cmdlib/pBat_String.c:62-73: starting with
`ok = 1`, walk back from the candidate down to `lpCh`, flipping `ok` for each `^`.  The argument is the
text from `lpCh` to the candidate, reversed. -/
def scanBack (ok : Bool) : List Char → Bool
  | [] => ok
  | c :: cs => if c != '^' then ok else scanBack (!ok) cs

/-- `strpbrk` / `strchr` (with the set given as a predicate): the text before the first hit and the text
from the hit on (empty if there is none). -/
def strpbrk (p : Char → Bool) : List Char → List Char × List Char
  | [] => ([], [])
  | c :: cs => if p c then ([], c :: cs) else
      let r := strpbrk p cs
      (c :: r.1, r.2)

theorem strpbrk_append (p : Char → Bool) (s : List Char) :
    (strpbrk p s).1 ++ (strpbrk p s).2 = s := by
  induction s with
  | nil => rfl
  | cons c cs ih => simp only [strpbrk]; split <;> simp [ih]

theorem strpbrk_length (p : Char → Bool) (s : List Char) :
    (strpbrk p s).1.length + (strpbrk p s).2.length = s.length := by
  have := congrArg List.length (strpbrk_append p s)
  simpa using this

/-- `pBat_SearchChar` and `pBat_SearchToken`, libpbat/cmdlib/pBat_String.c:52-87 and 160-191 (the two
differ only in `strchr`/`strpbrk`).  Offset of the result from `lpCh`, `none` for `NULL`.
Simplification: the searched character is not NUL. -/
def searchTok (p : Char → Bool) (s : List Char) : Option Nat :=
  match h : strpbrk p s with
  | (_, []) => none
  | (seg, _ :: rest) =>
    if scanBack true seg.reverse then some seg.length
    else (searchTok p rest).map (· + (seg.length + 1))
termination_by s.length
decreasing_by
  have := strpbrk_length p s
  rw [h] at this
  simp at this
  omega

/-- `pBat_SearchLastChar` and `pBat_SearchLastToken`, libpbat/cmdlib/pBat_String.c:89-119 and 193-224.
`off` is `lpCh` relative to the start of the text, `last` is `lpLastMatch`. -/
def searchLastLoop (p : Char → Bool) (s : List Char) (off : Nat) (last : Option Nat) : Option Nat :=
  match h : strpbrk p s with
  | (_, []) => last
  | (seg, _ :: rest) =>
    searchLastLoop p rest (off + seg.length + 1)
      (if scanBack true seg.reverse then some (off + seg.length) else last)
termination_by s.length
decreasing_by
  have := strpbrk_length p s
  rw [h] at this
  simp at this
  omega

/-- Entry point of the backward searches. -/
def searchLastTok (p : Char → Bool) (s : List Char) : Option Nat := searchLastLoop p s 0 none

/-- `pBat_UnEscape`, libpbat/cmdlib/pBat_String.c:121-146.  The loop 130-145: `ch` is the text after a
`^`; its first character is kept whatever it is, the text up to the next `^` is moved down. -/
def unEscapeLoop (ch : List Char) : List Char :=
  match ch with
  | [] => []
  | c :: cs =>
    match h : strpbrk (· == '^') cs with
    | (_, []) => c :: cs
    | (seg, _ :: rest) => c :: seg ++ unEscapeLoop rest
termination_by ch.length
decreasing_by
  have := strpbrk_length (· == '^') cs
  rw [h] at this
  simp at this ⊢
  omega

/-- `pBat_UnEscape`, lines 125-128. -/
def unEscape (s : List Char) : List Char :=
  match strpbrk (· == '^') s with
  | (_, []) => s
  | (seg, _ :: rest) => seg ++ unEscapeLoop rest

/-- `pBat_GetNextNonEscaped`, libpbat/cmdlib/pBat_String.c:148-158 (number of characters skipped). -/
def nextNonEscaped : List Char → List Char
  | [] => []
  | c :: cs => if c == '^' then cs.drop 1 else cs

/-- `pBat_StripEndDelims`, libpbat/cmdlib/pBat_String.c:452-468: `kept` is what precedes the current
run of delimiters, `run` the current run (`last != NULL` iff it is non-empty); both reversed. -/
def stripEndLoop (kept run : List Char) : List Char → List Char
  | [] => kept.reverse
  | c :: cs =>
    if isDelim c then stripEndLoop kept (c :: run) cs
    else stripEndLoop (c :: (run ++ kept)) [] cs

/-- `pBat_StripEndDelims` entry point. -/
def stripEndDelims (s : List Char) : List Char := stripEndLoop [] [] s

/-- `pBat_SearchChar(s + k, ...)` as an absolute index. -/
def searchFrom (p : Char → Bool) (s : List Char) (k : Nat) : Option Nat :=
  (searchTok p (s.drop k)).map (· + k)

end PBat
