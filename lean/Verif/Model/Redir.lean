import Verif.Model.Parse
import Verif.Model.Args
/-
Model of the redirections of a command, `pBat_ParseOutput` in `pbat/core/pBat_Parse.c`.
-/
namespace PBat

/-- `cRedir`, pbat/core/pBat_Parse.h: 0, PARSED_STREAM_STDERR2STDOUT or PARSED_STREAM_STDOUT2STDERR. -/
inductive Merge where
  | none | errToOut | outToErr
  deriving DecidableEq, Repr

/-- PARSED_STREAM, pbat/core/pBat_Parse.h; the modes are whether PARSED_STREAM_MODE_TRUNCATE is set. -/
structure Streams where
  merge : Merge
  outTrunc : Bool
  errTrunc : Bool
  input : Option (List Char)
  output : Option (List Char)
  error : Option (List Char)
  deriving DecidableEq, Repr

/-- `pBat_AllocParsedStream`, pbat/core/pBat_Parse.c:440-459. -/
def Streams.empty : Streams := ⟨.none, false, false, none, none, none⟩

/-- The set `"12<>"`, pbat/core/pBat_Parse.c:83. -/
def isRedir (c : Char) : Bool := c == '1' || c == '2' || c == '<' || c == '>'

/-- The set `PBAT_DELIMITERS "&|><)"`, pbat/core/pBat_Parse.c:205-206. -/
def redirDelims (c : Char) : Bool := stdDelims c || c == '&' || c == '|' || c == '>' || c == '<' || c == ')'

/-- The token found from `lpSearchBegin`, as the text from it on; pbat/core/pBat_Parse.c:83. -/
def redirToken (search : List Char) : Option (List Char) := (searchOutQuotes isRedir search).map (search.drop ·)

theorem redirToken_length {s t : List Char} (h : redirToken s = some t) : t.length ≤ s.length := by
  unfold redirToken at h
  cases hs : searchOutQuotes isRedir s with
  | none => rw [hs] at h; simp at h
  | some i => rw [hs] at h; simp only [Option.map_some, Option.some.injEq] at h; subst h; simp

/-- The order of block pointers: the later the smaller, NULL is least. -/
def blockRank : Option (List Char) → Nat
  | none => 0
  | some b => b.length + 1

theorem square_step {a b e s : Nat} (h : a < b ∧ e < b) : a * a + e < b * b + s := by
  obtain ⟨n, rfl⟩ : ∃ n, b = n + 1 := ⟨b - 1, by omega⟩
  have h1 : a * a ≤ n * n := Nat.mul_le_mul (by omega) (by omega)
  have h2 : (n + 1) * (n + 1) = n * n + n + n + 1 := by rw [Nat.add_mul, Nat.mul_add]; omega
  omega

/-- The text copied to the command by line 110, pbat/core/pBat_Parse.c: from `lpCh` to the token, over which NUL is written. -/
def upTo (ch tok : List Char) : List Char := if tok.length ≤ ch.length then ch.take (ch.length - tok.length) else ch

/-- The loop of `pBat_ParseOutput`, pbat/core/pBat_Parse.c:83-273: `final` is `lpesFinal`, `ch` the text from `lpCh` on, `search` the
text from `lpSearchBegin` on, `block` is `lpNextBlock`; `ex` is `pBat_DelayedExpand`, `full` is `pBat_FullPathDup`.  The result `none` is
the error return.  The guards stand for the progress of the loop, which is proved (`C53_total`).  Simplifications: allocation does not
fail; the NULs written over tokens lie before `lpSearchBegin` and `lpNextBlock` and are not seen again. -/
def parseOut (ex : List Char → Res (List Char)) (full : List Char → List Char) (r : Streams) (final ch search : List Char)
    (block : Option (List Char)) : Res (Option (Streams × List Char)) :=
  match h : redirToken search with
  | none => .ok (some (r, final ++ ch))
  | some [] => .ok (some (r, final ++ ch))
  | some (c :: t) =>
    if pastBlock (c :: t) block then
      match blockEnd (block.getD []) with
      | .ok none => .ok none
      | .ok (some e) =>
        if blockRank (innerBegin (e.drop 1)) < blockRank block ∧ e.length < blockRank block then parseOut ex full r final ch e (innerBegin (e.drop 1))
        else .hang
      | .ub => .ub
      | .hang => .hang
    else if c = '2' ∧ t.take 3 = ['>', '&', '1'] then
      if r.merge ≠ .none then .ok none
      else parseOut ex full { r with merge := .errToOut } (final ++ upTo ch (c :: t)) (t.drop 3) (t.drop 3) block
    else if (c = '1' ∨ c = '2') ∧ t.take 3 = ['>', '&', '2'] then
      if r.merge ≠ .none then .ok none
      else parseOut ex full { r with merge := .outToErr } (final ++ upTo ch (c :: t)) (t.drop 3) (t.drop 3) block
    else if (c = '1' ∨ c = '2') ∧ t.head? ≠ some '>' then
      parseOut ex full r (final ++ upTo ch (c :: t) ++ [c]) t t block
    else if c = '<' then
      if r.input.isSome then .ok none
      else
        match nextParam redirDelims ex t with
        | .ok none => .ok none
        | .ok (some (p, rest)) =>
          if rest.length < (c :: t).length then
            parseOut ex full { r with input := some (full p) } (final ++ upTo ch (c :: t)) rest rest block
          else .hang
        | .ub => .ub
        | .hang => .hang
    else
      let t1 := if c = '>' then t else t.drop 1
      if c = '2' then
        if r.error.isSome then .ok none
        else
          match nextParam redirDelims ex (if t1.head? = some '>' then t1.drop 1 else t1) with
          | .ok none => .ok none
          | .ok (some (p, rest)) =>
            if rest.length < (c :: t).length then
              parseOut ex full { r with error := some (full p), errTrunc := decide (t1.head? ≠ some '>') } (final ++ upTo ch (c :: t))
                rest rest block
            else .hang
          | .ub => .ub
          | .hang => .hang
      else
        if r.output.isSome then .ok none
        else
          match nextParam redirDelims ex (if t1.head? = some '>' then t1.drop 1 else t1) with
          | .ok none => .ok none
          | .ok (some (p, rest)) =>
            if rest.length < (c :: t).length then
              parseOut ex full { r with output := some (full p), outTrunc := decide (t1.head? ≠ some '>') } (final ++ upTo ch (c :: t))
                rest rest block
            else .hang
          | .ub => .ub
          | .hang => .hang
termination_by blockRank block * blockRank block + search.length
decreasing_by
  all_goals first
    | exact square_step ‹_ ∧ _›
    | (have := redirToken_length h
       simp only [List.length_drop, List.length_cons] at *
       omega)

/-- `pBat_ParseOutput`, pbat/core/pBat_Parse.c:55-292: the redirections and the command without them. -/
def parseOutput (ex : List Char → Res (List Char)) (full : List Char → List Char) (s : List Char) : Res (Option (Streams × List Char)) :=
  parseOut ex full .empty [] s s (blockBegin s)

/-- The loop of `pBat_ParseLine`, pbat/core/pBat_Parse.c:38-49. -/
def outputs (ex : List Char → Res (List Char)) (full : List Char → List Char) :
    List (NodeType × List Char) → Res (Option (List (NodeType × Streams × List Char)))
  | [] => .ok (some [])
  | (n, s) :: is => do
    match ← parseOutput ex full s with
    | none => .ok none
    | some (r, t) =>
      match ← outputs ex full is with
      | none => .ok none
      | some l => .ok (some ((n, r, t) :: l))

/-- `pBat_ParseLine`, pbat/core/pBat_Parse.c:29-53. -/
def parseLine (ex : List Char → Res (List Char)) (full : List Char → List Char) (s : List Char) :
    Res (Option (List (NodeType × Streams × List Char))) := do
  match ← parseOps s with
  | none => .ok none
  | some items => outputs ex full items

end PBat
