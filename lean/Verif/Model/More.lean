import Verif.Model.Args
/-
Model of MORE, `pbat/command/pBat_More.c` (not Windows, where bytes are written through a wrapper).  Bytes are numbers below 256.
Simplifications: numbers fit in an `int`; the files named exist and are no directories.
-/
namespace PBat

/-- `flags` as far as they matter, and `tabsize`. -/
structure MoreOpts where
  squeeze : Bool := false
  ansi : Bool := true
  u8 : Bool := true
  clear : Bool := false
  tab : Int := 8
  deriving DecidableEq, Repr

/-- The variables that live between two calls: `blank` and `cr`, pbat/command/pBat_More.c:369-371. -/
structure MoreState where
  blank : Bool := false
  cr : Bool := false
  deriving DecidableEq, Repr

/-- A call of `pBat_MoreWriteLine`: the value returned, what it writes, what is left of the file. -/
structure MoreRow where
  more : Bool
  out : List Nat
  st : MoreState
  rest : List Nat
  deriving DecidableEq, Repr

/-- The bytes of an escape sequence after `[`, pbat/command/pBat_More.c:423-426: what is written, and the rest.  At the end of the file
`fputc(EOF)` writes the byte 255. -/
def moreCsi : List Nat → List Nat × List Nat
  | [] => ([255], [])
  | c :: s =>
    if 64 ≤ c ∧ c ≤ 126 then ([c], s)
    else let r := moreCsi s; (c :: r.1, r.2)

theorem moreCsi_length (s : List Nat) : (moreCsi s).2.length ≤ s.length := by
  induction s with
  | nil => simp [moreCsi]
  | cons c s ih =>
    rw [moreCsi]
    split
    · simp
    · simp only [List.length_cons]; omega

/-- After ESC, pbat/command/pBat_More.c:413-437. -/
def moreEsc : List Nat → List Nat × List Nat
  | [] => ([], [])
  | c :: s => if c = 91 then let r := moreCsi s; (c :: r.1, r.2) else ([c], s)

theorem moreEsc_length (s : List Nat) : (moreEsc s).2.length ≤ s.length := by
  cases s with
  | nil => simp [moreEsc]
  | cons c s =>
    rw [moreEsc]
    split
    · have := moreCsi_length s
      simp only [List.length_cons]; omega
    · simp

/-- Puts bytes before what is written. -/
def MoreRow.put (b : List Nat) (r : MoreRow) : MoreRow := { r with out := b ++ r.out }

/-- The loop of `pBat_MoreWriteLine`, pbat/command/pBat_More.c:391-497, the bytes written being collected.  A tabulation divides by `tabsize`;
if that is negative the loop that writes the blanks counts down from a negative number and overflows. -/
def moreLoop (o : MoreOpts) (col : Nat) (t : MoreState) (s : List Nat) : Res MoreRow :=
  if col < 79 then
    match s with
    | [] => .ok ⟨false, [], t, []⟩
    | c :: s =>
      if c = 9 then
        if o.tab ≤ 0 then .ub
        else
          let n := o.tab.toNat - col % o.tab.toNat
          if col + n < 80 then do
            let r ← moreLoop o (col + n) ⟨false, false⟩ s
            .ok (r.put (List.replicate n 32))
          else .ok ⟨true, [10], { t with blank := false }, s⟩
      else if o.ansi = true ∧ c = 27 then do
        let r ← moreLoop o col { t with cr := false } (moreEsc s).2
        .ok (r.put (27 :: (moreEsc s).1))
      else if o.u8 = true ∧ 128 ≤ c ∧ c < 192 then do
        let r ← moreLoop o col { t with cr := false } s
        .ok (r.put [c])
      else if c = 10 then
        if col = 0 then
          if (t.blank && o.squeeze) = true then moreLoop o col t s
          else if t.cr = true then moreLoop o col t s
          else .ok ⟨true, [10], { t with blank := true }, s⟩
        else .ok ⟨true, [10], { t with blank := false }, s⟩
      else do
        let r ← moreLoop o (col + 1) ⟨false, false⟩ s
        .ok (r.put [c])
  else .ok ⟨true, [10], { t with cr := true }, s⟩
termination_by s.length
decreasing_by all_goals (have := moreEsc_length s; simp only [List.length_cons]; omega)

/-- `pBat_MoreFile` when the output is not a terminal, pbat/command/pBat_More.c:253-277: what is written.  `begin` is the number of rows still
to be skipped: they are written nowhere (lines 380-385). -/
def moreFile (o : MoreOpts) (begin : Nat) (t : MoreState) (s : List Nat) : Res (List Nat × MoreState) := do
  let r ← moreLoop o 0 t s
  let out := if begin = 0 then r.out else []
  if r.more then
    if r.rest.length < s.length then do
      let q ← moreFile o (begin - 1) r.st r.rest
      .ok (out ++ q.1, q.2)
    else .hang
  else .ok (out, r.st)
termination_by s.length

/-- The files one after the other, pbat/command/pBat_More.c:224-231. -/
def moreFiles (o : MoreOpts) (begin : Nat) (t : MoreState) : List (List Nat) → Res (List Nat × MoreState)
  | [] => .ok ([], t)
  | f :: fs => do
    let r ← moreFile o begin t f
    let q ← moreFiles o begin r.2 fs
    .ok (r.1 ++ q.1, q.2)

/-- `pBat_GetMoreNb`, pbat/command/pBat_More.c:499-510: the number and the keys left; the key after the number is lost. -/
def moreNumber (n : Nat) : List Nat → Option (Nat × List Nat)
  | [] => none
  | c :: ks => if 48 ≤ c ∧ c ≤ 57 then moreNumber (n * 10 + (c - 48)) ks else some (n, ks)

/-- What the user wants: to leave the file, or so many rows, after so many others. -/
inductive MoreWish where
  | leave
  | last
  | rows (n : Nat) (skip : Option Nat)
  deriving DecidableEq, Repr

/-- `pBat_MorePrompt`, pbat/command/pBat_More.c:513-566: `none` when it waits for a key. -/
def morePrompt : List Nat → Option (MoreWish × List Nat)
  | [] => none
  | c :: ks =>
    if c = 113 ∨ c = 81 then some (.leave, ks)
    else if c = 102 ∨ c = 70 then some (.last, ks)
    else if c = 115 ∨ c = 83 then (moreNumber 0 ks).map fun r => (.rows 23 (some r.1), r.2)
    else if c = 112 ∨ c = 80 then (moreNumber 0 ks).map fun r => (.rows r.1 none, r.2)
    else if c = 13 ∨ c = 10 then some (.rows 23 none, ks)
    else if c = 32 then some (.rows 1 none, ks)
    else if c = 63 then
      match ks with
      | [] => none
      | _ :: ks => morePrompt ks
    else morePrompt ks

theorem moreNumber_length {n m : Nat} {ks l : List Nat} (h : moreNumber n ks = some (m, l)) : l.length < ks.length := by
  induction ks generalizing n with
  | nil => simp [moreNumber] at h
  | cons c ks ih =>
    rw [moreNumber] at h
    split at h
    · have := ih h; simp; omega
    · cases h; simp

theorem morePrompt_length {ks l : List Nat} {a : MoreWish} (h : morePrompt ks = some (a, l)) : l.length < ks.length := by
  fun_induction morePrompt ks <;> try (cases h; simp; done)
  case case4 => cases hn : moreNumber 0 _ with
    | none => rw [hn] at h; cases h
    | some r => rw [hn] at h; cases h; have := moreNumber_length hn; simp; omega
  case case5 => cases hn : moreNumber 0 _ with
    | none => rw [hn] at h; cases h
    | some r => rw [hn] at h; cases h; have := moreNumber_length hn; simp; omega
  all_goals first
    | (cases h; done)
    | (rename_i ih; have := ih h; simp; omega)

/-- What is left after some rows: what has been written, `ok`, `begin`, the variables, the rest of the file. -/
structure MorePage where
  out : List Nat
  ok : Bool
  begin : Nat
  st : MoreState
  rest : List Nat
  deriving DecidableEq, Repr

/-- `while (toprint -- && ok)`, pbat/command/pBat_More.c:299-300. -/
def morePage (o : MoreOpts) (begin : Nat) (t : MoreState) (s : List Nat) : Nat → Res MorePage
  | 0 => .ok ⟨[], true, begin, t, s⟩
  | n + 1 => do
    let r ← moreLoop o 0 t s
    let out := if begin = 0 then r.out else []
    if r.more then do
      let q ← morePage o (begin - 1) r.st r.rest n
      .ok { q with out := out ++ q.out }
    else .ok ⟨out, false, begin - 1, r.st, r.rest⟩

/-- The rows skipped at the beginning, pbat/command/pBat_More.c:282-283: whether `toprint` has been set, the variables and the rest. -/
def moreSkip (o : MoreOpts) (t : MoreState) (s : List Nat) : Nat → Res (Bool × Nat × MoreState × List Nat)
  | 0 => .ok (false, 0, t, s)
  | n + 1 => do
    let r ← moreLoop o 0 t s
    if r.more then do
      let q ← moreSkip o r.st r.rest n
      .ok (true, q.2)
    else .ok (false, n, r.st, r.rest)

/-- The loop on a terminal, pbat/command/pBat_More.c:286-306: the pages written one after the other, without the prompt.  `left` is `toprint`,
`none` as long as it has no value. -/
def moreScreen (o : MoreOpts) (left : Option Nat) (begin : Nat) (t : MoreState) (keys s : List Nat) : Res (List (List Nat)) :=
  match (if o.clear then some 23 else left) with
  | none => .ub
  | some n => do
    let p ← morePage o begin t s n
    match h : morePrompt keys with
    | none => .ok [p.out]
    | some (.leave, _) => .ok [p.out]
    | some (.last, _) => .ok [p.out]
    | some (.rows m sk, ks) =>
      if p.ok then do
        let q ← moreScreen o (some m) (sk.getD p.begin) p.st ks p.rest
        .ok (p.out :: q)
      else .ok [p.out]
termination_by keys.length
decreasing_by exact morePrompt_length h

/-- `pBat_MoreFile` on a terminal, pbat/command/pBat_More.c:279-306. -/
def moreTty (o : MoreOpts) (begin : Nat) (t : MoreState) (keys s : List Nat) : Res (List (List Nat)) := do
  let r ← moreSkip o t s begin
  moreScreen o (if r.1 then some 23 else none) r.2.1 r.2.2.1 keys r.2.2.2

end PBat
