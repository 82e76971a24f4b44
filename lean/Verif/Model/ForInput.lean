import Verif.Model.ForOpts
import Verif.Model.Args
import Verif.Spec.Replace
/-
The inputs of FOR /F, pbat/command/pBat_For.c.
-/
namespace PBat

/-- The lines of a file as `pBat_EsGet` returns them, libpbat/cmdlib/pBat_Estr.c: see `C04_reads_lines` for the proof that reading
gives exactly these texts.  Simplification: no NUL byte, lines below 2^27 bytes, and a file is read as it is when it is opened. -/
def fileLines (s : List Char) : List (List Char) := (Spec.lines s).map Spec.normNL

/-- `INPUTINFO`, pbat/command/pBat_For.h:76-108: the rest of a text; the rest of the open file (or of the output of the command) and
the files not opened yet; `lost` when `pFile` is null. -/
inductive ForSrc
  | text (s : List Char)
  | stream (ls : List (List Char)) (fs : List (List Char))
  | lost

/-- `pBat_ForAdjustInput`, pbat/command/pBat_For.c:1317-1348, on a text that begins with a quote: what stands before the next such
quote. -/
def forAdjust : List Char → Option (List Char)
  | [] => none
  | q :: r => if q ∈ r then some (r.takeWhile (· != q)) else none

/-- `pBat_ForInputParseFileList`, pbat/command/pBat_For.c:1511-1544: `n` more files have room. -/
def forFiles (ex : List Char → Res (List Char)) (full : List Char → List Char) : Nat → List Char → Res (List (List Char))
  | 0, s => do
    let _ ← nextParam stdDelims ex s
    pure []
  | n + 1, s => do
    match ← nextParam stdDelims ex s with
    | none => pure []
    | some (p, r) => do
      let l ← forFiles ex full n r
      pure (full p :: l)

/-- Why an input is refused: the numbers are those of pbat/errors/pBat_Errors.h. -/
inductive InputError
  | backq
  | badInput
  | noFile
  | fileError
deriving DecidableEq

/-- `pBat_ForMakeInputInfo`, pbat/command/pBat_For.c:1183-1315.  `op` opens a file and gives its content, `out` is what a command
writes (`pBat_ForInputProcess`, 1370-1408: the command runs at the same time and is read through a pipe). -/
def forMakeInput (ex : List Char → Res (List Char)) (full : List Char → List Char) (op : List Char → Option (List Char))
    (out : List Char → List Char) (usebackq : Bool) (set : List Char) : Res (Except InputError ForSrc) :=
  let text := match forAdjust set with
    | none => .error .badInput
    | some t => .ok (.text t)
  let command := match forAdjust set with
    | none => .error .badInput
    | some t => .ok (.stream (fileLines (out t)) [])
  let files : Res (Except InputError ForSrc) := do
    match ← forFiles ex full 128 set with
    | [] => pure (.error .noFile)
    | f :: fs =>
      match op f with
      | none => pure (.error .fileError)
      | some s => pure (.ok (.stream (fileLines s) fs))
  match set.head? with
  | some '\'' => .ok (if usebackq then text else command)
  | some '`' => .ok (if usebackq then command else .error .backq)
  | some '"' => if usebackq then files else .ok text
  | _ => files

/-- Going on with the next file, pbat/command/pBat_For.c:1450-1474. -/
def nextFile (op : List Char → Option (List Char)) : List (List Char) → Option (List Char) × ForSrc
  | [] => (none, .stream [] [])
  | f :: fs =>
    match op f with
    | none => (none, .lost)
    | some s =>
      match fileLines s with
      | [] => nextFile op fs
      | l :: ls => (some l, .stream ls fs)

/-- One line as it is read, pbat/command/pBat_For.c:1442-1483; of a text by `pBat_ForGetStringInput`, 1410-1432.  After `lost` nothing
is read any more. -/
def rawLine (op : List Char → Option (List Char)) : ForSrc → Option (List Char) × ForSrc
  | .text [] => (none, .text [])
  | .text (c :: r) => (some ((c :: r).takeWhile (· != '\n')), .text ((c :: r).dropWhile (· != '\n')).tail)
  | .stream (l :: ls) fs => (some l, .stream ls fs)
  | .stream [] fs => nextFile op fs
  | .lost => (none, .lost)

/-- What remains to be read, to see that reading ends. -/
def ForSrc.size : ForSrc → Nat × Nat
  | .text s => (0, s.length)
  | .stream ls fs => (fs.length, ls.length)
  | .lost => (0, 0)

theorem nextFile_lt {op : List Char → Option (List Char)} {l : List Char} {s : ForSrc} : ∀ {fs : List (List Char)},
    nextFile op fs = (some l, s) → ∀ n, Prod.Lex (· < ·) (· < ·) s.size (fs.length, n) := by
  intro fs
  induction fs with
  | nil => intro h; simp [nextFile] at h
  | cons f fs ih =>
    intro h n
    rw [nextFile] at h
    split at h
    · simp at h
    · split at h
      · have := Prod.lex_def.1 (ih h 0)
        rw [Prod.lex_def]
        simp only [List.length_cons] at this ⊢
        omega
      · simp only [Prod.mk.injEq] at h
        rw [← h.2]
        exact .left _ _ (by simp)

theorem rawLine_lt {op : List Char → Option (List Char)} {l : List Char} {s s' : ForSrc} (h : rawLine op s = (some l, s')) :
    Prod.Lex (· < ·) (· < ·) s'.size s.size := by
  unfold rawLine at h
  split at h
  · simp at h
  · next c r =>
    simp only [Prod.mk.injEq] at h
    rw [← h.2]
    refine .right _ ?_
    have h1 : ((c :: r).dropWhile (· != '\n')).length ≤ (c :: r).length := (List.dropWhile_suffix _).length_le
    simp only [List.length_tail, List.length_cons] at h1 ⊢
    omega
  · simp only [Prod.mk.injEq] at h
    rw [← h.2]
    exact .right _ (by simp)
  · exact nextFile_lt h _
  · simp at h

/-- `pBat_ForGetInputLine`, pbat/command/pBat_For.c:1434-1509; `cc` is the option CMDLYCORRECT. -/
def forGetLine (op : List Char → Option (List Char)) (cc : Bool) (src : ForSrc) : Option (List Char) × ForSrc :=
  match h : rawLine op src with
  | (none, s) => (none, s)
  | (some l, s) => if cc && skipBlanks l == [] then forGetLine op cc s else (some (l.takeWhile (· != '\n')), s)
termination_by src.size
decreasing_by exact rawLine_lt h

theorem forGetLine_lt {op : List Char → Option (List Char)} {cc : Bool} {l : List Char} {s s' : ForSrc} :
    forGetLine op cc s = (some l, s') → Prod.Lex (· < ·) (· < ·) s'.size s.size := by
  intro h
  induction s using forGetLine.induct (op := op) (cc := cc) with
  | case1 s x hr => rw [forGetLine, hr] at h; simp at h
  | case2 s l x hr hb ih =>
    rw [forGetLine, hr] at h
    simp only [hb, if_true] at h
    have h1 := Prod.lex_def.1 (ih h)
    have h2 := Prod.lex_def.1 (rawLine_lt hr)
    rw [Prod.lex_def]
    omega
  | case3 s l x hr hb =>
    rw [forGetLine, hr] at h
    simp only [hb, Bool.false_eq_true, if_false] at h
    simp only [Prod.mk.injEq] at h
    rw [← h.2]
    exact rawLine_lt hr

/-- The loop of `pBat_CmdForF`, pbat/command/pBat_For.c:578-611, and the closing of the input, 613: `pBat_ForCloseInputInfo`, 1546-1577,
closes a null stream when a file could not be opened.  The body may change the files: `op` opens them as they are then. -/
def forFRead {σ : Type} (info : ForInfo) (cc : Bool) (op : σ → List Char → Option (List Char))
    (body : LocalBlock × σ → Res ((LocalBlock × σ) × Bool)) (skip : Int) (src : ForSrc) (st : LocalBlock × σ) : Res (LocalBlock × σ) :=
  match h : forGetLine (op st.2) cc src with
  | (none, .lost) => .ub
  | (none, _) => .ok st
  | (some l, s) =>
    if skip > 0 then forFRead info cc op body (skip - 1) s st
    else if eolLine info.eol l then forFRead info cc op body skip s st
    else
      match body (forSplitTokens info.delims l info.tokens info.var st.1, st.2) with
      | .ok (st', true) => .ok st'
      | .ok (st', false) => forFRead info cc op body skip s st'
      | .ub => .ub
      | .hang => .hang
termination_by src.size
decreasing_by all_goals exact forGetLine_lt h

/-- `pBat_CmdForF`, pbat/command/pBat_For.c:564-619, with `pBat_ForVarCheckAssignment`, 1155-1177; `none` if the variable is in use. -/
def forFCmd {σ : Type} (ex : List Char → Res (List Char)) (full : List Char → List Char) (out : List Char → List Char)
    (info : ForInfo) (usebackq cc : Bool) (op : σ → List Char → Option (List Char))
    (body : LocalBlock × σ → Res ((LocalBlock × σ) × Bool)) (set : List Char) (st : LocalBlock × σ) :
    Res (Option (Except InputError (LocalBlock × σ))) :=
  if info.tokens ≠ [] ∧ localName info.var ∧ (st.1 info.var).isSome then .ok none
  else do
    match ← forMakeInput ex full (op st.2) out usebackq set with
    | .error e => pure (some (.error e))
    | .ok src => do
      let st' ← forFRead info cc op body info.skip src st
      pure (some (.ok (forUnassign st'.1 info.var.toNat info.tokens.length, st'.2)))

/-- The command FOR /R and FOR /D take their input from, `pBat_CmdForDeprecatedWrapper`, pbat/command/pBat_For.c:1580-1614, called at
329-337 with the attributes `/A:-D` or `/A:D`; `canon` is `pBat_Canonicalize`. -/
def forWalkSet (canon : List Char → List Char) (files : Bool) (dir mask : List Char) : List Char :=
  ['\'', 'D', 'I', 'R', ' ', '/', 'b', ' ', '/', 's', ' '] ++ (if files then ['/', 'A', ':', '-', 'D'] else ['/', 'A', ':', 'D']) ++
    ' ' :: (canon dir ++ '/' :: (mask ++ ['\'']))

/-- `pBat_CmdForDeprecatedWrapper`, pbat/command/pBat_For.c:1580-1627: FOR /F over the command with one token, from the first field to
the end of the line, the space as delimiter and no end-of-line character. -/
def forWalk {σ : Type} (ex : List Char → Res (List Char)) (full : List Char → List Char) (out : List Char → List Char)
    (canon : List Char → List Char) (cc : Bool) (op : σ → List Char → Option (List Char))
    (body : LocalBlock × σ → Res ((LocalBlock × σ) × Bool)) (v : Char) (files : Bool) (dir mask : List Char) (st : LocalBlock × σ) :
    Res (Option (Except InputError (LocalBlock × σ))) :=
  forFCmd ex full out { delims := [' '], eol := [], skip := 0, var := v, tokens := [1 * 2 ^ 16 + 65535] } false cc op body
    (forWalkSet canon files dir mask) st

end PBat
