import Verif.Model.Estr
/-
Model of text replacement and line reading, `libpbat/estr/pBat_Estr.c`.

Simplifications: allocations inside the replacement succeed (the code ignores the failure codes); the
terminators temporarily stored in the source buffer (`*lpToken='\0'`) are represented by taking the piece
before them.
-/
namespace PBat

/-- `strstr(s, pat)` as an offset. C library. -/
def strstr (pat : List Char) : List Char → Option Nat
  | [] => if pat = [] then some 0 else none
  | c :: cs => if pat.isPrefixOf (c :: cs) then some 0 else (strstr pat cs).map (· + 1)

/-- The loop of `pBat_EsReplace`, libpbat/estr/pBat_Estr.c:420-431: the list of texts appended to the
result, in order.  An empty pattern is found at every iteration without progress. -/
def replacePieces (pat rep s : List Char) : Res (List (List Char)) :=
  if hp : pat = [] then .hang
  else
    match strstr pat s with
    | none => .ok [s]
    | some i =>
      if hs : s = [] then .ok [s] else do
        let r ← replacePieces pat rep (s.drop (i + pat.length))
        pure (s.take i :: rep :: r)
termination_by s.length
decreasing_by
  have : 0 < pat.length := by cases pat with | nil => exact absurd rfl hp | cons => simp
  have : 0 < s.length := by cases s with | nil => exact absurd rfl hs | cons => simp
  simp; omega

/-- Appending the pieces in turn. -/
def catAll (g : Nat → Char) : Estr → List (List Char) → Option Estr
  | e, [] => some e
  | e, p :: ps => do
    let r ← esCat (fun _ => true) g e p
    catAll g r.2 ps

/-- `pBat_EsReplace`, libpbat/estr/pBat_Estr.c:414-436. -/
def esReplace (g : Nat → Char) (e : Estr) (pat rep : List Char) : Res Estr := do
  let s ← Res.ofOption (cstr e.str)
  let ps ← replacePieces pat rep s
  let r ← Res.ofOption (catAll g (esInit g) ps)
  let e ← Res.ofOption (esCpyE (fun _ => true) g e r)
  pure e.2

/-- `while (*str && c != tolower(*str++));` of `stristr`, libpbat/estr/pBat_Estr.c:452: number of
characters passed, and the text then pointed to. -/
def skipTo (c : Char) : List Char → Nat × List Char
  | [] => (0, [])
  | d :: ds => if c = d.toLower then (1, ds) else
      let r := skipTo c ds
      (r.1 + 1, r.2)

/-- `strnicmp(s, p, strlen(p)) == 0`. -/
def prefixI : List Char → List Char → Bool
  | [], _ => true
  | _ :: _, [] => false
  | p :: ps, c :: cs => p.toLower == c.toLower && prefixI ps cs

theorem skipTo_length (c : Char) (s : List Char) : (skipTo c s).2.length + (skipTo c s).1 = s.length := by
  induction s with
  | nil => rfl
  | cons d ds ih =>
    simp only [skipTo]
    split
    · simp
    · simp; omega

/-- The `do … while` of `stristr`, libpbat/estr/pBat_Estr.c:450-457; `off` is the position of `s`. -/
def stristrLoop (c : Char) (ps s : List Char) (off : Nat) : Option Nat :=
  match h : skipTo c s with
  | (_, []) => none
  | (n, d :: ds) =>
    if prefixI ps (d :: ds) then some (off + n) else
      if n = 0 then none else stristrLoop c ps (d :: ds) (off + n)
termination_by s.length
decreasing_by
  have := skipTo_length c s
  rw [h] at this
  simp at this ⊢
  omega

/-- `stristr`, libpbat/estr/pBat_Estr.c:438-461. -/
def stristr (pat s : List Char) : Option Nat :=
  match pat with
  | [] => some 0
  | p :: ps => stristrLoop p.toLower ps s 0

/-- The loop of `pBat_EsReplaceI`, libpbat/estr/pBat_Estr.c:469-480.  `lpToken + iLength` past the
terminator is a read of bytes that are not part of the text: undefined. -/
def replaceIPieces (pat rep s : List Char) : Res (List (List Char)) :=
  if hp : pat = [] then .hang
  else
    match stristr pat s with
    | none => .ok [s]
    | some i =>
      if hi : s.length < i + pat.length then .ub else do
        let r ← replaceIPieces pat rep (s.drop (i + pat.length))
        pure (s.take i :: rep :: r)
termination_by s.length
decreasing_by
  have : 0 < pat.length := by cases pat with | nil => exact absurd rfl hp | cons => simp
  simp; omega

/-- `pBat_EsReplaceI`, libpbat/estr/pBat_Estr.c:463-485. -/
def esReplaceI (g : Nat → Char) (e : Estr) (pat rep : List Char) : Res Estr := do
  let s ← Res.ofOption (cstr e.str)
  let ps ← replaceIPieces pat rep s
  let r ← Res.ofOption (catAll g (esInit g) ps)
  let e ← Res.ofOption (esCpyE (fun _ => true) g e r)
  pure e.2

/-- `fgets` with room for `k` characters: the characters read (up to and including a newline) and the
rest of the stream; C library. -/
def fgetsTake : Nat → List Char → List Char × List Char
  | 0, s => ([], s)
  | _ + 1, [] => ([], [])
  | k + 1, c :: cs =>
    if c = '\n' then ([c], cs) else
      let r := fgetsTake k cs
      (c :: r.1, r.2)

theorem fgetsTake_append (k : Nat) (s : List Char) : (fgetsTake k s).1 ++ (fgetsTake k s).2 = s := by
  induction k generalizing s with
  | zero => rfl
  | succ k ih =>
    cases s with
    | nil => rfl
    | cons c cs =>
      simp only [fgetsTake]
      split
      · rfl
      · simp [ih]

/-- The reading loop of `pBat_EsGet`, libpbat/estr/pBat_Estr.c:213-260.  Returns the structure, the rest of
the stream and whether something was read.  `len*2` overflowing an `int` is undefined.  Simplifications:
allocations succeed; `iTotalBytesRead`, a sum of non-null pointers, is represented by a flag. -/
def esGetLoop (g : Nat → Char) (e : Estr) (cursor cur : Nat) (stream : List Char) (read : Bool) :
    Res (Estr × List Char × Bool) :=
  match h : fgetsTake cur stream with
  | ([], _) => .ok (e, stream, read)
  | (c :: cs, rest) =>
    match wr e.str cursor (c :: cs ++ [NUL]) with
    | none => .ub
    | some b =>
      match cstr b with
      | none => .ub
      | some t =>
        if '\n' ∈ t then .ok ({ e with str := b }, rest, true)
        else if 2 ^ 31 ≤ e.len * 2 then .ub
        else
          esGetLoop g { str := resize g b (toSize (e.len * 2)), len := e.len * 2 }
            ((e.len).toNat - 1) (e.len).toNat rest true
termination_by stream.length
decreasing_by
  have := congrArg List.length (fgetsTake_append cur stream)
  rw [h] at this
  simp at this
  omega

/-- `pBat_EsGet`, libpbat/estr/pBat_Estr.c:200-291, in the newline mode the program uses
(`PBAT_NEWLINE_UNIX`, set at pbat/init/pBat_Init.c:148). Returned code, string, rest of the stream. -/
def esGet (g : Nat → Char) (e : Estr) (stream : List Char) : Res (Int × Estr × List Char) := do
  let (e, rest, read) ← esGetLoop g e 0 ((e.len).toNat - 1) stream false
  let e ← esReplace g e ['\r', '\n'] ['\n']
  let e ← esReplace g e ['\r'] ['\n']
  pure (if read then 0 else 1, e, rest)

end PBat
