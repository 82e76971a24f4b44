import Verif.Model.Mem
/-
Model of the program TEA, `tea/src`, with its output as text (`tea/src/out/tea_text_out.c`).  The text is valid UTF-8 and a `Char` is one of its characters,
which is what `pBat_GetNextChar` steps over, libpbat/enc/pBat_Enc.c:42-73; everything the program looks for is of one byte.  Simplifications: allocation does not
fail; messages are left out, `none` stands for `exit(-1)`.
-/
namespace PBat

/-- The lines put together, tea/src/Tea_Load.c:47-64: those that begin with `#` are comments; in UTF-8 the mark at the beginning is left out. -/
def teaSource (lines : List (List Char)) : List Char :=
  let mark := Char.ofNat 0xFEFF
  let rec go (first : Bool) : List (List Char) → List Char
    | [] => []
    | l :: ls =>
      if l.head? = some mark ∧ first then (if (l.drop 1).head? = some '#' then [] else l.drop 1) ++ go false ls
      else if l.head? = some '#' then go first ls
      else l ++ go first ls
  go true lines

/-- `TEA_BLOCK_HEADING`, `TEA_BLOCK_CODE` and `TEA_BLOCK_PARAGRAPH`, tea/src/Tea.h:29-31. -/
inductive TeaKind where
  | heading
  | code
  | par
  deriving Repr, DecidableEq

/-- `Tea_SeekNextDelimiter` with `lpTeaOpenDelimiters`, tea/src/Tea_Load.c:28 and 213-235: the first of the first places of `{{` and `${`, which cannot be the same.
What is before, whether it is `${`, and what is after. -/
def teaOpen : List Char → Option (List Char × Bool × List Char)
  | [] => none
  | c :: s =>
    if c = '{' ∧ s.head? = some '{' then some ([], false, s.drop 1)
    else if c = '$' ∧ s.head? = some '{' then some ([], true, s.drop 1)
    else (teaOpen s).map fun r => (c :: r.1, r.2)

/-- The same with `lpTeaCloseDelimiters`, tea/src/Tea_Load.c:29. -/
def teaClose : List Char → Option (List Char × List Char)
  | [] => none
  | c :: s => if c = '}' ∧ s.head? = some '}' then some ([], s.drop 1) else (teaClose s).map fun r => (c :: r.1, r.2)

/-- `Tea_SeekNextClosingBrace`, tea/src/Tea_Load.c:237-271. -/
def teaBrace (lvl : Nat) : List Char → Option (List Char × List Char)
  | [] => none
  | '\\' :: s =>
    match s with
    | [] => none
    | d :: s => (teaBrace lvl s).map fun r => ('\\' :: d :: r.1, r.2)
  | c :: s =>
    if c = '{' then (teaBrace (lvl + 1) s).map fun r => (c :: r.1, r.2)
    else if c = '}' then
      match lvl with
      | 0 => some ([], s)
      | l + 1 => (teaBrace l s).map fun r => (c :: r.1, r.2)
    else (teaBrace lvl s).map fun r => (c :: r.1, r.2)

theorem teaOpen_length {s : List Char} {p : List Char × Bool × List Char} (h : teaOpen s = some p) : p.2.2.length < s.length := by
  induction s generalizing p with
  | nil => cases h
  | cons c s ih =>
    rw [teaOpen] at h
    split at h
    · cases h; simp; omega
    · split at h
      · cases h; simp; omega
      · obtain ⟨q, hq, rfl⟩ := Option.map_eq_some_iff.1 h
        have := ih hq
        simp; omega

theorem teaClose_length {s : List Char} {p : List Char × List Char} (h : teaClose s = some p) : p.2.length < s.length := by
  induction s generalizing p with
  | nil => cases h
  | cons c s ih =>
    rw [teaClose] at h
    split at h
    · cases h; simp; omega
    · obtain ⟨q, hq, rfl⟩ := Option.map_eq_some_iff.1 h
      have := ih hq
      simp; omega

theorem teaBrace_length {lvl : Nat} {s : List Char} {p : List Char × List Char} (h : teaBrace lvl s = some p) : p.2.length < s.length := by
  fun_induction teaBrace lvl s generalizing p with
  | case1 => cases h
  | case2 => cases h
  | case3 lvl d s ih =>
    obtain ⟨q, hq, rfl⟩ := Option.map_eq_some_iff.1 h
    have := ih hq
    simp; omega
  | _ =>
    first
    | (cases h; simp; done)
    | (rename_i ih
       obtain ⟨q, hq, rfl⟩ := Option.map_eq_some_iff.1 h
       have := ih hq
       simp; omega)

/-- `Tea_ParseStringBlock`, tea/src/Tea_Load.c:87-169. -/
def teaBlocks (s : List Char) : Option (List (TeaKind × List Char)) :=
  match h : teaOpen s with
  | none => some [(.par, s)]
  | some (pre, false, rest) =>
    match h2 : teaClose rest with
    | none => none
    | some (b, rest') => (teaBlocks rest').map fun bs => (.par, pre) :: (.heading, b) :: bs
  | some (pre, true, rest) =>
    match h2 : teaBrace 0 rest with
    | none => none
    | some (b, rest') => (teaBlocks rest').map fun bs => (.par, pre) :: (.code, b) :: bs
termination_by s.length
decreasing_by
  · have h1 := teaOpen_length h
    have h3 := teaClose_length h2
    simp only at h1 h3
    omega
  · have h1 := teaOpen_length h
    have h3 := teaBrace_length h2
    simp only at h1 h3
    omega

/-- A blank or a tabulation. -/
def teaBlank (c : Char) : Bool := c == ' ' || c == '\t'

/-- One turn of the loop of `Tea_BreakParagraph`, tea/src/Tea_Load.c:329-363: the first end of a line followed by an empty line; the paragraph before and what is
after, from the second character after that end on. -/
def teaGap : List Char → Option (List Char × List Char)
  | [] => none
  | c :: s => if c = '\n' ∧ (s.dropWhile teaBlank).head? = some '\n' then some ([], s.drop 1) else (teaGap s).map fun r => (c :: r.1, r.2)

theorem teaGap_length {s : List Char} {p : List Char × List Char} (h : teaGap s = some p) : p.2.length < s.length := by
  induction s generalizing p with
  | nil => cases h
  | cons c s ih =>
    rw [teaGap] at h
    split at h
    · cases h; simp; omega
    · obtain ⟨q, hq, rfl⟩ := Option.map_eq_some_iff.1 h
      have := ih hq
      simp; omega

/-- `Tea_BreakParagraph`, tea/src/Tea_Load.c:316-365. -/
def teaBreak (s : List Char) : List (List Char) :=
  match h : teaGap s with
  | none => [s]
  | some (p, rest) => p :: teaBreak rest
termination_by s.length
decreasing_by have := teaGap_length h; simpa using this

/-- The loop of `Tea_SweepSpace`, tea/src/Tea_Load.c:443-489, and of `Tea_SweepSpaceNode`, tea/src/Tea_Node.c:197-242, of which only the second (`node`) says after an
escaped character that it was not a blank.  What is written, whether a blank was the last, and whether the loop ended by the `return 0` of a last `\`. -/
def teaSweepLoop (node : Bool) (group : Bool) : List Char → List Char × Bool × Bool
  | [] => ([], group, false)
  | '\\' :: s =>
    match s with
    | [] => ([], group, true)
    | d :: s =>
      let r := teaSweepLoop node (if node then false else group) s
      (d :: r.1, r.2)
  | c :: s =>
    if c = '\n' ∨ c = '\t' ∨ c = ' ' then
      if group then teaSweepLoop node true s
      else
        let r := teaSweepLoop node true s
        (' ' :: r.1, r.2)
    else
      let r := teaSweepLoop node false s
      (c :: r.1, r.2)

/-- The buffer after the ends of lines and tabulations read have been made blanks. -/
def teaBlanked : List Char → List Char
  | [] => []
  | '\\' :: s =>
    match s with
    | [] => ['\\']
    | d :: s => '\\' :: d :: teaBlanked s
  | c :: s => (if c = '\n' ∨ c = '\t' then ' ' else c) :: teaBlanked s

/-- The buffer after the loop: after the `return 0` what was there before follows what was written, and the variable that tells whether a blank was the last is left. -/
def teaSweep (node : Bool) (group : Bool) (s : List Char) : List Char × Bool :=
  let r := teaSweepLoop node group s
  if r.2.2 then (r.1 ++ (teaBlanked s).drop r.1.length, group) else (r.1, r.2.1)

/-- `Tea_PurifyPage`, tea/src/Tea_Load.c:273-297, with `Tea_SweepCodeTabs`, tea/src/Tea_Load.c:491-500. -/
def teaPurify (bs : List (TeaKind × List Char)) : List (TeaKind × List Char) :=
  (bs.map fun b => match b.1 with
    | .par => (teaBreak b.2).map fun p => (TeaKind.par, p)
    | .heading => [(.heading, (teaSweep false true b.2).1)]
    | .code => [(.code, b.2.map fun c => if c = '\t' then ' ' else c)]).flatten

/-- `TEAPAGE`, tea/src/Tea.h:46-53: a block with its level and `TEA_LIST_NO_MARK`. -/
structure TeaBlock where
  kind : TeaKind
  level : Nat
  noMark : Bool
  content : List Char
  deriving Repr, DecidableEq

/-- A character between words. -/
def teaSpace (c : Char) : Bool := c == ' ' || c == '\t' || c == '\n'

/-- One paragraph in `Tea_MakeLevels`, tea/src/Tea_Load.c:518-566; `esc` is `iEscapeFound`, which is never set back. -/
def teaLevel (esc : Bool) (s : List Char) : Bool × TeaBlock :=
  match s.dropWhile teaSpace with
  | [] => (esc, ⟨.par, 0, false, s⟩)
  | c :: t =>
    let noMark := c == '@'
    let t := if noMark then t else c :: t
    let n := (t.takeWhile (· == '-')).length
    let rest := t.drop n
    let text := if noMark then rest else if 0 < n then '-' :: rest else rest
    let esc := esc || noMark || decide (0 < n)
    (esc, ⟨.par, n, noMark, if esc then text else s⟩)

/-- `Tea_MakeLevels`, tea/src/Tea_Load.c:502-585; `last` is `iLastLevel`. -/
def teaLevels (esc : Bool) (last : Nat) : List (TeaKind × List Char) → List TeaBlock
  | [] => []
  | (.par, s) :: bs =>
    let r := teaLevel esc s
    r.2 :: teaLevels r.1 (if s.dropWhile teaSpace = [] then last else r.2.level) bs
  | (.code, s) :: bs => ⟨.code, last, false, s⟩ :: teaLevels esc last bs
  | (.heading, s) :: bs => ⟨.heading, 0, false, s⟩ :: teaLevels esc 0 bs

/-- `Tea_RemoveVoidBlocks`, tea/src/Tea_Load.c:367-441. -/
def teaNonVoid (bs : List TeaBlock) : List TeaBlock := bs.filter fun b => !(b.content.dropWhile teaSpace).isEmpty

/-- `TEA_NODE_PLAIN_TEXT`, `TEA_NODE_LINK` and `TEA_NODE_EMPHASIS`, tea/src/Tea.h:26-28. -/
inductive TeaInline where
  | plain
  | link
  | emph
  deriving Repr, DecidableEq

/-- `TEANODE`, tea/src/Tea.h:39-44. -/
structure TeaNode where
  kind : TeaInline
  content : List Char
  target : List Char
  deriving Repr, DecidableEq

/-- `Tea_SeekNodeDelim`, tea/src/Tea_Node.c:57-81: what is before the first delimiter that is not escaped, and what is after. -/
def teaSeek (d : Char) : List Char → Option (List Char × List Char)
  | [] => none
  | '\\' :: s =>
    match s with
    | [] => none
    | e :: s => (teaSeek d s).map fun r => ('\\' :: e :: r.1, r.2)
  | c :: s => if c = d then some ([], s) else (teaSeek d s).map fun r => (c :: r.1, r.2)

theorem teaSeek_length {d : Char} {s : List Char} {p : List Char × List Char} (h : teaSeek d s = some p) : p.2.length < s.length := by
  fun_induction teaSeek d s generalizing p with
  | case1 => cases h
  | case2 => cases h
  | case3 e s ih =>
    obtain ⟨q, hq, rfl⟩ := Option.map_eq_some_iff.1 h
    have := ih hq
    simp; omega
  | case4 => cases h; simp
  | case5 c s _ _ ih =>
    obtain ⟨q, hq, rfl⟩ := Option.map_eq_some_iff.1 h
    have := ih hq
    simp; omega

/-- The node in braces, tea/src/Tea_Node.c:126-163. -/
def teaInline (s : List Char) : TeaNode :=
  match teaSeek '|' s with
  | none => ⟨.emph, s, []⟩
  | some (target, text) => ⟨.link, text, target⟩

/-- `Tea_ParseStringNode`, tea/src/Tea_Node.c:83-186, with what the handler makes of each node. -/
def teaNodes (handler : TeaNode → TeaNode) (s : List Char) : Option (List TeaNode) :=
  match h : teaSeek '{' s with
  | none => some [handler ⟨.plain, s, []⟩]
  | some (pre, rest) =>
    match h2 : teaSeek '}' rest with
    | none => none
    | some (b, rest') => (teaNodes handler rest').map fun ns => handler ⟨.plain, pre, []⟩ :: handler (teaInline b) :: ns
termination_by s.length
decreasing_by
  have h1 := teaSeek_length h
  have h3 := teaSeek_length h2
  simp only at h1 h3
  omega

/-- `Tea_TextParseHandler`, tea/src/out/tea_text_out.c:212-263. -/
def teaTextNode (n : TeaNode) : TeaNode :=
  match n.kind with
  | .plain => n
  | .emph => { n with content := '_' :: n.content ++ ['_'] }
  | .link => { n with content := n.content ++ " (<".toList ++ n.target ++ ">)".toList }

/-- `Tea_PurifyNode`, tea/src/Tea_Node.c:188-197. -/
def teaPurifyNodes (group : Bool) : List TeaNode → List TeaNode
  | [] => []
  | n :: ns =>
    let r := teaSweep true group n.content
    { n with content := r.1 } :: teaPurifyNodes r.2 ns

/-- `Tea_ParseParagraphs`, tea/src/Tea_Load.c:299-320, on a paragraph, with `Tea_RemoveVoidNode`, tea/src/Tea_Node.c:244-281. -/
def teaParagraph (handler : TeaNode → TeaNode) (s : List Char) : Option (List TeaNode) :=
  (teaNodes handler s).map fun ns => (teaPurifyNodes true ns).filter fun n => !n.content.isEmpty

/-- What `Tea_PageLoad` gives, tea/src/Tea_Load.c:69-84: the blocks, with the nodes of the paragraphs. -/
def teaPage (handler : TeaNode → TeaNode) (src : List Char) : Option (List (TeaBlock × List TeaNode)) := do
  let bs ← teaBlocks src
  (teaNonVoid (teaLevels false 0 (teaPurify bs))).mapM fun b => if b.kind = .par then (teaParagraph handler b.content).map fun ns => (b, ns) else some (b, [])

/-! ### Lines -/

/-- A character of a word. -/
def teaWordChar (c : Char) : Bool := c != ' ' && c != '\n'

/-- `Tea_GetWordLengthT`, tea/src/Tea_Output.c:27-66; `rest` are the contents of the nodes after. -/
def teaWordLenT (s : List Char) : List (List Char) → Nat
  | [] => (s.takeWhile teaWordChar).length
  | r :: rs =>
    if (s.takeWhile teaWordChar).length = s.length then
      if r = [] then teaWordLenT s rs else s.length + 1 + teaWordLenT r rs
    else (s.takeWhile teaWordChar).length

/-- `Tea_OutputWord`, tea/src/Tea_Output.c:99-128: what is written, what is left of the text and of the line. -/
def teaWord : List Char → Nat → List Char × List Char × Nat
  | [], left => ([], [], left)
  | c :: s, 0 => ([], c :: s, 0)
  | c :: s, left + 1 =>
    if teaWordChar c then
      let r := teaWord s left
      (c :: r.1, r.2)
    else ([], c :: s, left + 1)

theorem teaWord_length (s : List Char) (left : Nat) : (teaWord s left).2.1.length ≤ s.length := by
  fun_induction teaWord s left with
  | case1 => simp
  | case2 => simp
  | case3 c s left h r ih => simp only [r] at ih ⊢; simp; omega
  | case4 => simp

/-- `Tea_OutputLineT`, tea/src/Tea_Output.c:130-170, and, without nodes after, `Tea_OutputLine`, tea/src/Tea_Output.c:172-212 with `Tea_GetWordLength`,
tea/src/Tea_Output.c:68-83: what is written, what is left of the text (`none` for `NULL`) and of the line. -/
def teaLine (rest : List (List Char)) (s : List Char) (left : Nat) : List Char × Option (List Char) × Nat :=
  match s with
  | [] => ([], none, left)
  | c :: s =>
    if left ≤ teaWordLenT (c :: s) rest then ([], some (c :: s), left)
    else
      match h : teaWord (c :: s) left with
      | (w, [], left') => (w, none, left')
      | (w, d :: t, left') =>
        if d = '\n' then (w, some (d :: t), left')
        else if 1 ≤ left' then
          let r := teaLine rest t (left' - 1)
          (w ++ ' ' :: r.1, r.2)
        else
          let r := teaLine rest t left'
          (w ++ r.1, r.2)
termination_by s.length
decreasing_by
  all_goals
    have := teaWord_length (c :: s) left
    rw [h] at this
    simp at this ⊢
    omega

/-- `Tea_TextOutputStaticBlock`, tea/src/out/tea_text_out.c:77-128, `first` is `bFirstLine`; the check of the margins is in `teaStatic`.  If nothing is taken from the
text in a line that is not the first, the next turn begins as this one did, and so do all after it. -/
def teaStaticLoop (margin nl width : Nat) (first : Bool) (s : List Char) : Res (List Char) :=
  let s1 := if s.head? = some '\n' then s.drop 1 else s
  let m := if first ∨ s.head? = some '\n' then margin else nl
  let before := (if first then [] else ['\n']) ++ List.replicate m ' '
  let r := teaLine [] s1 (width - m)
  match r.2.1 with
  | none => .ok (before ++ r.1)
  | some s2 =>
    if _h : s2.length < s.length ∨ (s2.length = s.length ∧ first = true) then do
      let o ← teaStaticLoop margin nl width false s2
      .ok (before ++ r.1 ++ o)
    else .hang
termination_by (s.length, if first then 1 else 0)
decreasing_by
  rcases _h with h | ⟨h, h'⟩
  · exact Prod.Lex.left _ _ h
  · rw [h, h']; exact Prod.Lex.right _ (by simp)

/-- The same with the check of the margins; `none` is `exit(-1)`. -/
def teaStatic (margin nl width : Nat) (s : List Char) : Res (Option (List Char)) :=
  if width ≤ margin ∨ width ≤ nl then .ok none
  else do
    let o ← teaStaticLoop margin nl width true s
    .ok (some o)

/-- The variables of `Tea_TextOutputParagraph`, tea/src/out/tea_text_out.c:132-137. -/
structure TeaState where
  first : Bool
  noMargin : Bool
  left : Nat
  leftNl : Nat
  deriving Repr, DecidableEq

/-- The beginning of a line, tea/src/out/tea_text_out.c:152-177: what is written, the text and the variables. -/
def teaStart (margin firstLine width : Nat) (st : TeaState) (s : List Char) : List Char × List Char × TeaState :=
  if st.noMargin then ([], s, { st with noMargin := false })
  else
    let m := if st.first then firstLine else margin
    ((if st.first then [] else ['\n']) ++ List.replicate m ' ', if s.head? = some '\n' then s.drop 1 else s, ⟨false, false, width - m, width - m⟩)

theorem teaLine_length (rest : List (List Char)) (s : List Char) (left : Nat) : ∀ t, (teaLine rest s left).2.1 = some t → t.length ≤ s.length := by
  fun_induction teaLine rest s left with
  | case1 => intro t h; cases h
  | case2 left c s h => intro t h; cases h; simp
  | case3 => intro t h; cases h
  | case4 left c s h w t left' hw =>
    intro u hu
    cases hu
    have := teaWord_length (c :: s) left
    rw [hw] at this
    simpa using this
  | case5 left c s h w d t left' hw hd h1 r ih =>
    intro u hu
    have := teaWord_length (c :: s) left
    rw [hw] at this
    have := ih u hu
    simp at *
    omega
  | case6 left c s h w d t left' hw hd h1 r ih =>
    intro u hu
    have := teaWord_length (c :: s) left
    rw [hw] at this
    have := ih u hu
    simp at *
    omega

/-- The loop on a node, tea/src/out/tea_text_out.c:148-205, and the nodes after it.  If nothing was written the rest of the line is filled with what comes, and a text
that is shorter than that, or `NULL`, is read beyond its end. -/
def teaNodeLoop (margin firstLine width : Nat) (st : TeaState) (s : List Char) (rest : List (List Char)) : Res (List Char × TeaState) :=
  let b := teaStart margin firstLine width st s
  let r := teaLine rest b.2.1 b.2.2.left
  if b.2.2.leftNl = r.2.2 then
    match r.2.1 with
    | none => .ub
    | some t =>
      if t.length < r.2.2 then .ub
      else if _h : (t.drop r.2.2).length < s.length then do
        let o ← teaNodeLoop margin firstLine width { b.2.2 with left := 0 } ((t.drop r.2.2).dropWhile (· == ' ')) rest
        .ok (b.1 ++ r.1 ++ t.take r.2.2 ++ o.1, o.2)
      else .hang
  else
    match h : r.2.1 with
    | none => .ok (b.1 ++ r.1, { b.2.2 with left := r.2.2 })
    | some t =>
      if _h : t.length < s.length ∨ (t.length = s.length ∧ st.noMargin = true) then do
        let o ← teaNodeLoop margin firstLine width { b.2.2 with left := r.2.2 } t rest
        .ok (b.1 ++ r.1 ++ o.1, o.2)
      else .hang
termination_by (s.length, if st.noMargin then 1 else 0)
decreasing_by
  · refine Prod.Lex.left _ _ (Nat.lt_of_le_of_lt ?_ _h)
    exact List.IsSuffix.length_le (List.dropWhile_suffix _)
  · rcases _h with h | ⟨h, h'⟩
    · exact Prod.Lex.left _ _ h
    · rw [h, h']
      refine Prod.Lex.right _ ?_
      have : (teaStart margin firstLine width st s).2.2.noMargin = false := by
        unfold teaStart
        split <;> rfl
      simp [this]

/-- The loop on the nodes of `Tea_TextOutputParagraph`, tea/src/out/tea_text_out.c:146-208. -/
def teaParLoop (margin firstLine width : Nat) (st : TeaState) : List (List Char) → Res (List Char)
  | [] => .ok []
  | s :: rest => do
    let o ← teaNodeLoop margin firstLine width st s rest
    let r ← teaParLoop margin firstLine width { o.2 with noMargin := true } rest
    .ok (o.1 ++ r)

/-- `Tea_TextOutputParagraph`, tea/src/out/tea_text_out.c:130-210; `none` is `exit(-1)`. -/
def teaPar (margin firstLine width : Nat) (nodes : List (List Char)) : Res (Option (List Char)) :=
  if width ≤ margin ∨ width ≤ firstLine then .ok none
  else do
    let o ← teaParLoop margin firstLine width ⟨true, false, 0, 0⟩ nodes
    .ok (some o)

/-- A block in `Tea_TextOutputHandler`, tea/src/out/tea_text_out.c:34-70, with the widths of tea/src/out/tea_out.h:31-35; `strupr`, tea/src/tea_strupr.c:28-42,
changes the letters of ASCII. -/
def teaBlockText (b : TeaBlock × List TeaNode) : Res (Option (List Char)) :=
  match b.1.kind with
  | .code => teaStatic (8 + 4 * b.1.level) (6 + 4 * b.1.level) 79 b.1.content
  | .heading => teaStatic 0 0 79 (b.1.content.map Char.toUpper)
  | .par => teaPar (4 * (b.1.level + 1)) (4 * (b.1.level + 1) - (if b.1.level ≠ 0 ∧ b.1.noMark = false then 2 else 0)) 79 (b.2.map TeaNode.content)

/-- `Tea_TextOutputHandler`, tea/src/out/tea_text_out.c:29-75. -/
def teaText : List (TeaBlock × List TeaNode) → Res (Option (List Char))
  | [] => .ok (some [])
  | b :: bs => do
    let o ← teaBlockText b
    match o with
    | none => .ok none
    | some o => do
      let r ← teaText bs
      .ok (r.map fun r => o ++ "\n\n".toList ++ r)

/-- The program with `/O:TEXT` on the text of a page, tea/src/tea.c:140-170; `none` is an exit with an error. -/
def teaRun (src : List Char) : Res (Option (List Char)) :=
  match teaPage teaTextNode src with
  | none => .ok none
  | some p => teaText p

end PBat
