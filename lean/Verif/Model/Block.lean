import Verif.Model.Quotes
import Verif.Model.Mem
/-
Model of the block scanner, `pbat/core/pBat_ParseBlock.c`.  A `char*` is the suffix of the text it points at, `none`
is `NULL`.
-/
namespace PBat

/-- The loop of pbat/core/pBat_ParseBlock.c:59-60: blanks and `@`, but not line feeds. -/
def skipLineBlanks : List Char → List Char
  | [] => []
  | c :: cs => if (isDelim c || c == '@') && c != '\n' then skipLineBlanks cs else c :: cs

/-- `!strnicmp(pch, kw, n) && pBat_IsDelim(*(pch + n))`, `kw` in lower case; pbat/core/pBat_ParseBlock.c:74-76. -/
def wordIs : List Char → List Char → Bool
  | [], c :: _ => isDelim c
  | [], [] => false
  | k :: kw, c :: cs => c.toLower == k && wordIs kw cs
  | _ :: _, [] => false

/-- The negation of the condition of pbat/core/pBat_ParseBlock.c:74-76. -/
def blockWord (s : List Char) : Bool :=
  wordIs ['i', 'f'] s || wordIs ['f', 'o', 'r'] s || wordIs ['d', 'e', 'f'] s

/-- The set `par_end ? ")&|" : "&|"`, pbat/core/pBat_ParseBlock.c:88-89. -/
def lineStop (par : Bool) (c : Char) : Bool := c == '&' || c == '|' || (par && c == ')')

/-- The set `par_end ? "()&|" : "(&|"`, pbat/core/pBat_ParseBlock.c:121-122. -/
def clauseStop (par : Bool) (c : Char) : Bool := c == '(' || lineStop par c

/-- The pointer found, or the end of the text (pbat/core/pBat_ParseBlock.c:90-98). -/
def dropTo (s : List Char) : Option Nat → List Char
  | none => []
  | some i => s.drop i

/-- `pBat_SearchToken_Hybrid(pch, "\n", q)` as a pointer, the end of the text if there is none. -/
def hybridTo (q : Char → Bool) (s : List Char) : List Char := dropTo s (searchHybrid (· == '\n') q s)

theorem hybridTo_length (q : Char → Bool) (s : List Char) : (hybridTo q s).length ≤ s.length := by
  unfold hybridTo dropTo
  split <;> simp

theorem skipLineBlanks_length (s : List Char) : (skipLineBlanks s).length ≤ s.length := by
  induction s with
  | nil => simp [skipLineBlanks]
  | cons c s ih =>
    simp only [skipLineBlanks]
    split
    · simp; omega
    · simp

mutual
/-- `pBat_GetNextBlockEnd`, pbat/core/pBat_ParseBlock.c:168-197. -/
def blockEnd (s : List Char) : Res (Option (List Char)) :=
  match s with
  | [] => .ok none
  | c :: r => if c = '(' then blockLoop r else .ok none
termination_by 4 * s.length

/-- The loop of `pBat_GetBlockLineEndEx`, pbat/core/pBat_ParseBlock.c:104-158; the text has been found to begin with
a keyword.  The guards `length < length` in these three functions stand for the progress of the loops, which is
proved (`blockEnd_total`). -/
def clauseEnd (par : Bool) (s : List Char) : Res (Option (List Char)) :=
  match h : hybridTo (clauseStop par) s with
  | [] => .ok (some [])
  | c :: r =>
    if c = '(' then
      match blockEnd (c :: r) with
      | .ok (some (d :: r')) =>
        if d = ')' then
          if r' = [] then .ok (some [])
          else if r'.length < s.length then clauseEnd par r' else .hang
        else .ok none
      | .ok _ => .ok none
      | .ub => .ub
      | .hang => .hang
    else .ok (some (c :: r))
termination_by 4 * s.length + 1
decreasing_by
  · have := hybridTo_length (clauseStop par) s
    rw [h] at this
    omega
  · omega

/-- `pBat_GetBlockLineEndEx`, pbat/core/pBat_ParseBlock.c:50-161. -/
def lineEnd (par : Bool) (s : List Char) : Res (Option (List Char)) :=
  match h : skipLineBlanks s with
  | [] => .ok (some [])
  | c :: r =>
    if c = '(' then
      match blockEnd (c :: r) with
      | .ok (some t) => .ok (some (t.drop 1))
      | .ok none => .ok none
      | .ub => .ub
      | .hang => .hang
    else if blockWord (c :: r) then clauseEnd par (c :: r)
    else .ok (some (hybridTo (lineStop par) (c :: r)))
termination_by 4 * s.length + 2
decreasing_by
  all_goals
    have := skipLineBlanks_length s
    rw [h] at this
    omega

/-- The loop of `pBat_GetNextBlockEnd`, pbat/core/pBat_ParseBlock.c:179-194. -/
def blockLoop (s : List Char) : Res (Option (List Char)) :=
  match lineEnd true s with
  | .ok none => .ok none
  | .ok (some []) => .ok none
  | .ok (some (c :: r)) =>
    if c = ')' then .ok (some (c :: r))
    else
      match r with
      | [] => .ok none
      | d :: r' =>
        if d = ')' then .ok (some (d :: r'))
        else if (d :: r').length < s.length then blockLoop (d :: r') else .hang
  | .ub => .ub
  | .hang => .hang
termination_by 4 * s.length + 3
decreasing_by
  · omega
  · omega
end

theorem searchOutQuotes_lt {p : Char → Bool} {s : List Char} {i : Nat} (h : searchOutQuotes p s = some i) :
    i < s.length := by
  unfold searchOutQuotes at h
  revert h
  fun_induction outQuotesLoop p s 0 (searchFrom (· == '"') s 0) generalizing i <;> intro h <;>
    first
      | (simp at h; done)
      | (simp only [Option.some.injEq] at h; subst h; exact (strpbrkFrom_bounds (by assumption)).2)
      | (rename_i ih; exact ih h)

theorem searchHybrid_lt {p q : Char → Bool} {s : List Char} {i : Nat} (h : searchHybrid p q s = some i) :
    i < s.length := by
  unfold searchHybrid at h
  split at h
  · simp at h
  · next h1 => cases h; exact searchOutQuotes_lt h1
  · next h1 _ => cases h; exact searchTok_lt _ _ _ h1
  · next h1 h2 =>
    split at h
    · cases h; exact searchOutQuotes_lt h2
    · cases h; exact searchTok_lt _ _ _ h1

theorem skipAllBlanks_length (s : List Char) : (skipAllBlanks s).length ≤ s.length := by
  induction s with
  | nil => simp [skipAllBlanks]
  | cons c s ih =>
    simp only [skipAllBlanks]
    split
    · simp; omega
    · simp

/-- The text a command begins with decides which characters end it, pbat/core/pBat_ParseBlock.c:227-241. -/
def beginStop (s : List Char) : Char → Bool :=
  if blockWord s || s.head? == some '(' then clauseStop false else lineStop false

/-- The loop of `pBat_GetNextBlockBeginEx` with `bIsBlockCmd == 0`, pbat/core/pBat_ParseBlock.c:223-263. -/
def blockBegin (s : List Char) : Option (List Char) :=
  let p := skipAllBlanks s
  match h : searchHybrid (· == '\n') (beginStop p) p with
  | none => none
  | some i =>
    match h2 : p.drop i with
    | [] => none
    | c :: r =>
      if c = '(' then some (c :: r)
      else if c ≠ '\n' ∧ r.head? = some c then blockBegin (r.drop 1)
      else blockBegin r
termination_by s.length
decreasing_by
  all_goals
    have h3 : p.length ≤ s.length := skipAllBlanks_length s
    have h4 := congrArg List.length h2
    simp only [List.length_drop, List.length_cons] at h4
    try simp only [List.length_drop]
    omega

/-- `pBat_GetNextBlockBeginEx` with `bIsBlockCmd == 1`, pbat/core/pBat_ParseBlock.c:212-221. -/
def innerBegin (s : List Char) : Option (List Char) :=
  match searchOutQuotes (fun c => c == '(' || c == ')') s with
  | none => none
  | some i => if s[i]? = some '(' then some (s.drop i) else none

end PBat
