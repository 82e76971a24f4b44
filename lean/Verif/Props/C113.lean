import Verif.Lemmas.TextRun
import Verif.Props.C111
/-
C113: lines and scripts with blocks run as they are written.
-/
namespace PBat.Prog
open PBat PBat.Spec PBat.Spec.Prog PBat.Spec.Txt

variable {ν W τ : Type}

/-- For all commands, states, streams, files and line texts given by the grammar, with blocks nested in it to any depth: the line runs as
it is written.  The lines of a block run in order with the streams of the block, each analysed when it runs; what leaves the line, the
block or the script leaves just that; after the line the streams are what they were.
Where IF stands, the block its condition chooses stands in its place, with the redirections and pipes written behind, and the rest of the
line belongs to it.  Where FOR stands, the block it governs stands in its place for each of the values, the variable being set.
CALL runs the script it enters from there, with the streams it has, and comes back, however that script is left.
Partial: no IF or FOR in the rest of the line of FOR (see `C113_for_if`); they are not later members of a pipeline; no redirection of one
output to the other on a block or on CALL (C45); a line is not left just before a pipeline of several commands; the lines of blocks are those
of `C112_lines_partial`. -/
theorem C113_line_partial (h : Host ν W τ) {t : List Char} {s : τ × τ × τ} {x x' : W × Script} {e e' : Int} {a : Abort}
    (hd : Does nameSpecial h (.line t) s x e x' e' a) {io : Io τ} (ho : io.outOwn = true) (he : io.errOut = false) (hs : io.streams = s) :
    ∃ N, ∀ n, N ≤ n → h.lineText n t ⟨x, e, .no, io⟩ = some ⟨x', e', a, io⟩ := by
  obtain ⟨N, hN⟩ := does_claim h hd
  exact ⟨N, fun n hn => hN n hn io ho he hs t rfl⟩

/-- The same for scripts, from their text: the lines are read from where the script is, joined until their blocks are closed, expanded with
the variables of that moment, and run, until the script ends or is left.  Partial: as above. -/
theorem C113_script_partial (h : Host ν W τ) {s : τ × τ × τ} {x x' : W × Script} {e e' : Int} {a : Abort}
    (hr : Does nameSpecial h .script s x e x' e' a) {io : Io τ} (ho : io.outOwn = true) (he : io.errOut = false) (hs : io.streams = s) :
    ∃ N, ∀ n, N ≤ n → h.runText n ⟨x, e, .no, io⟩ = some ⟨x', e', a, io⟩ := by
  obtain ⟨N, hN⟩ := does_claim h hr
  exact ⟨N, fun n hn => hN n hn io ho he hs⟩

/-- The claim fails for the redirections of IF with ELSE.  If the condition holds, the commands it governs run with the streams of the line:
whatever redirections are written in the line have no effect, and no file is opened. -/
theorem C113_else_redirection (h : Host ν W τ) {t : List Char} {l : SrcLine} {items : List Char → List RedirItem} {y u yes no : List Char}
    {strict : Bool} {s : τ × τ × τ} {x x' : W × Script} {e e' : Int} {a : Abort} (ht : unindent t = l.text) (hl : ∀ r, unindent t ≠ ':' :: r)
    (hw : WellFormed l.first.1 l.tail) (hi : ∀ c ∈ l.cmds, RedirCommand nameSpecial c (items c) ∧ Once (items c))
    (hif : IsIf h (textOf (items l.first.1)) y) (hc : h.cond y x e = (.yes, u)) (hu : IfCode strict u yes (some no))
    (hd : Does nameSpecial h (.command ('(' :: (yes ++ [')']))) s x e x' e' a) {io : Io τ} (ho : io.outOwn = true) (he : io.errOut = false)
    (hs : io.streams = s) : ∃ N, ∀ n, N ≤ n → h.lineText n t ⟨x, e, .no, io⟩ = some ⟨x', 0, a, io⟩ :=
  C113_line_partial h (.line ht hl hw hi (.alone rfl hif hc hu hd)) ho he hs

/-- The rest of the line belongs to IF: if the operator before IF does not allow it, or its condition does not hold and there is no ELSE,
nothing that follows in the line runs, whatever the operators are. -/
theorem C113_if_rest (h : Host ν W τ) {t : List Char} {l : SrcLine} {items : List Char → List RedirItem} {y u yes : List Char}
    {strict : Bool} {s : τ × τ × τ} {x x' : W × Script} {e e' : Int} {o : Link} {p : Pipeline} {more : List (Link × Pipeline)}
    (ht : unindent t = l.text) (hl : ∀ r, unindent t ≠ ':' :: r)
    (hw : WellFormed l.first.1 l.tail) (hi : ∀ c ∈ l.cmds, RedirCommand nameSpecial c (items c) ∧ Once (items c))
    (hm : l.more = (o, p) :: more) (hp : l.first.2 = []) (hr : Regular h ((redirs (h.full x.1) (items l.first.1), textOf (items l.first.1)), []))
    (hd : Does nameSpecial h (.command (before h ((redirs (h.full x.1) (items l.first.1), textOf (items l.first.1)), []) s x).1)
      (before h ((redirs (h.full x.1) (items l.first.1), textOf (items l.first.1)), []) s x).2.1
      (before h ((redirs (h.full x.1) (items l.first.1), textOf (items l.first.1)), []) s x).2.2 e x' e' .no)
    (hif : IsIf h (textOf (items p.1)) y) (hno : o.allows e' = true → h.cond y x' e' = (.no, u) ∧ IfCode strict u yes none)
    {io : Io τ} (ho : io.outOwn = true) (he : io.errOut = false) (hs : io.streams = s) :
    ∃ N, ∀ n, N ≤ n → h.lineText n t ⟨x, e, .no, io⟩ = some ⟨x', if o.allows e' then 0 else e', .no, io⟩ := by
  refine C113_line_partial h (.line ht hl hw hi ?_) ho he hs
  obtain ⟨⟨c, ds⟩, ms⟩ := l
  simp only at hm hp hr hd
  subst hm hp
  simp only [pieces, List.map_cons, List.map_nil]
  cases ha : o.allows e' with
  | true =>
    obtain ⟨h1, h2⟩ := hno ha
    exact .go rfl hr hd (.nothing ha hif h1 h2)
  | false => exact .go rfl hr hd (.unasked ha (.inl hif))

/-- What the texts mean is unambiguous: however a line is read by the grammar, its outcome is the same. -/
theorem C113_unique (h : Host ν W τ) {t : List Char} {s : τ × τ × τ} {x x1 x2 : W × Script} {e e1 e2 : Int} {a1 a2 : Abort}
    (h1 : Does nameSpecial h (.line t) s x e x1 e1 a1) (h2 : Does nameSpecial h (.line t) s x e x2 e2 a2) : x1 = x2 ∧ e1 = e2 ∧ a1 = a2 := by
  obtain ⟨N, hN⟩ := C113_line_partial h h1 (io := ⟨s.1, s.2.1, s.2.2, true, false, []⟩) rfl rfl rfl
  obtain ⟨M, hM⟩ := C113_line_partial h h2 (io := ⟨s.1, s.2.1, s.2.2, true, false, []⟩) rfl rfl rfl
  have := (hN (max N M) (by omega)).symm.trans (hM (max N M) (by omega))
  simp only [Option.some.injEq, St.mk.injEq] at this
  exact ⟨this.1, this.2.1, this.2.2.1⟩

/-! ### A line with a block -/

theorem demo_usual (c : List Char) : Usual demo c := fun _ _ _ _ _ => .inr (.inl rfl)

theorem demo_regular {c : Piece} (h : c.1.errToOut = false ∧ c.1.outToErr = false) : Regular demo (c, []) := by
  intro d hd
  obtain rfl := List.mem_singleton.1 hd
  exact ⟨demo_usual _, .inl h⟩

def blockText : List Char := "(\n one\n\n two >f || three\n)".toList

def blockItems (c : List Char) : List RedirItem :=
  if c = blockText ++ " >g ".toList then [.text blockText, .text [' '], .out false false ['g'], .text [' ']] else
  if c = "two >f ".toList then [.text "two ".toList, .out false false ['f'], .text [' ']] else [.text c]

theorem demo_one (s : List Char × List Char × List Char) (x : List (List Char × List Char × List Char × List Char) × Script) (e : Int)
    {t c : List Char} {w : List Char} (ht : unindent t = c) (hcol : ∀ r, c ≠ ':' :: r) (hp : Plain c) (hi : blockItems c = [.text c])
    (hr : RedirCommand nameSpecial c [.text c]) {r : List Char} (hc : c = w ++ r) (hw : Lead w) (hb : Bare r) (ho : r.head? ≠ some '(') :
    Does nameSpecial demo (.line t) s x e ((r, s.1, s.2.1, s.2.2) :: x.1, x.2) (if r = " two ".toList then 1 else 0) .no := by
  subst hc
  refine .line (l := ⟨(w ++ r, []), []⟩) (items := blockItems) (by rw [ht]; simp [SrcLine.text, written, SrcLine.tail, pipes])
    (fun r' => by rw [ht]; exact hcol r') (.plain hp) ?_ ?_
  · intro d hd
    simp only [SrcLine.cmds, SrcLine.tail, pipes, List.map_nil, List.flatMap_nil, List.append_nil, List.mem_singleton] at hd
    subst hd
    rw [hi]
    exact ⟨hr, by simp [Once, outsOf, insOf, mergesOf]⟩
  · refine .go rfl (by intro c hc; obtain rfl := List.mem_singleton.1 hc; exact ⟨demo_usual _, .inl (by simp [hi, redirs, mergesOf])⟩) ?_ .stop
    have : before demo ((redirs (demo.full x.1) (blockItems (w ++ r)), textOf (blockItems (w ++ r))), []) s x = (w ++ r, s, x) := by
      simp [before, feed, enter, hi, redirs, textOf, outsOf, insOf, mergesOf, tryOpen]
    simp only [List.map_nil]
    rw [this]
    exact .simple hw hb ho rfl rfl

theorem demo_body : Rows false true [[], " one".toList, [], " two >f || three".toList, []] "\n one\n\n two >f || three\n".toList := by
  have none : ∀ b, Row false b [] := fun b => .one (.plain (w := []) (t := []) (by simp) (by decide) (by decide) (by decide))
  refine .cons (r := []) (none _) (.cons (r := " one".toList) ?_ (.cons (r := []) (none _) (.cons (r := " two >f || three".toList) ?_
    (.last (none _)))))
  · exact .one (.plain (w := [' ']) (t := "one".toList) (by decide) (by decide) (by decide) (by decide))
  · refine .op (l := " two >f ".toList) (c := '|') (b := "| three".toList)
      (.plain (w := [' ']) (t := "two >f ".toList) (by decide) (by decide) (by decide) (by decide)) (by simp) (by decide) ?_
    exact .op (l := []) (c := '|') (b := " three".toList) (.plain (w := []) (t := []) (by simp) (by decide) (by decide) (by decide)) (by simp)
      (by decide) (.one (.plain (w := [' ']) (t := "three".toList) (by decide) (by decide) (by decide) (by decide)))

/-- All hypotheses are met.  The block is redirected to `g`, a command in it to `f`. -/
theorem demo_block (sc : Script) : Does nameSpecial demo (.line (" (\n one\n\n two >f || three\n) >g && four".toList)) ("in".toList, "out".toList, "err".toList)
    ([], sc) 5
    ([("four".toList, "in".toList, "out".toList, "err".toList), ("two  ".toList, "in".toList, "f".toList, "err".toList),
      ("one".toList, "in".toList, "g".toList, "err".toList)], sc) 0 .no := by
  have noParens : ∀ i, ¬ (Hit (fun c => c == '(' || c == ')') " >g ".toList i ∧ OutQuotes " >g ".toList i) := by
    rintro i ⟨h, -⟩
    match i, h with
    | 0, h => revert h; decide
    | 1, h => revert h; decide
    | 2, h => revert h; decide
    | 3, h => revert h; decide
    | i + 4, h => exact absurd h.1 (by simp)
  refine .line (l := ⟨(blockText ++ " >g ".toList, []), [(.and, (" four".toList, []))]⟩) (items := blockItems) (by decide)
    (by intro r h; have := congrArg List.head? h; revert this; rw [List.head?_cons]; decide) ?_ ?_ ?_
  · exact ⟨.group (w := []) (b := "\n one\n\n two >f || three\n".toList) (c := " >g ".toList) (by simp) (rows_body demo_body) (.text (by decide)),
      by unfold Precedes; decide, by decide, .plain (by decide)⟩
  · intro c hc
    simp only [SrcLine.cmds, SrcLine.tail, pipes, List.map_nil, List.nil_append, List.flatMap_cons, List.flatMap_nil, List.append_nil,
      List.map_cons, List.mem_cons, List.not_mem_nil, or_false] at hc
    rcases hc with rfl | rfl
    · refine ⟨.group (w := []) (b := "\n one\n\n two >f || three\n".toList) (c := " >g ".toList) (by simp) (rows_body demo_body) (.line ?_ noParens),
        by decide⟩
      exact .file (t := [' ']) (s := ['>']) (w := []) (x := ['g']) (rest := [' ']) (by decide) (.out (app := false))
        (fun _ => NoNumber_last (by decide) (by decide)) (by simp) (.word (by decide) (by decide) (by decide) (by decide))
        (by rintro c h; cases h; exact .inl (.inl rfl)) (.last (NoSign.none (t := [' ']) (by decide)))
    · exact ⟨.plain (.last (NoSign.none (t := " four".toList) (by decide))) (.inl (by decide)), by decide⟩
  · refine .go (x' := ([("two  ".toList, "in".toList, "f".toList, "err".toList), ("one".toList, "in".toList, "g".toList, "err".toList)],
      sc)) (e' := 0) rfl (demo_regular ⟨rfl, rfl⟩) ?_ (.go rfl (demo_regular ⟨rfl, rfl⟩) ?_ .stop)
    · refine .block (w := []) (b := "\n one\n\n two >f || three\n".toList) (v := "  ".toList) (by simp [Txt.Lead]) demo_body (by decide) (by decide) ?_
      refine .next (l := " one".toList) (ls := [" two >f || three".toList])
        (x' := ([("one".toList, "in".toList, "g".toList, "err".toList)], sc)) (e' := 0) ?_ (.inl rfl) (.next (a := .no) ?_ (.inl rfl) .end)
      · exact demo_one _ _ _ (c := "one".toList) (w := []) (r := "one".toList) (by decide) (by simp) (by decide) (by decide)
          (.plain (.last (NoSign.none (t := "one".toList) (by decide))) (.inl (by decide))) rfl (by simp [Txt.Lead]) (by unfold Bare; simp; decide) (by decide)
      · refine .line (l := ⟨("two >f ".toList, []), [(.or, (" three".toList, []))]⟩) (items := blockItems) (by decide)
          (by intro r h; have := congrArg List.head? h; revert this; rw [List.head?_cons]; decide) ⟨.plain (by decide), by unfold Precedes; decide, by decide, .plain (by decide)⟩ ?_ ?_
        · intro c hc
          simp only [SrcLine.cmds, SrcLine.tail, pipes, List.map_nil, List.nil_append, List.flatMap_cons, List.flatMap_nil, List.append_nil,
            List.map_cons, List.mem_cons, List.not_mem_nil, or_false] at hc
          rcases hc with rfl | rfl
          · refine ⟨.plain ?_ (.inl (by decide)), by decide⟩
            exact .file (t := "two ".toList) (s := ['>']) (w := []) (x := ['f']) (rest := [' ']) (by decide) (.out (app := false))
              (fun _ => NoNumber_last (by decide) (by decide)) (by simp) (.word (by decide) (by decide) (by decide) (by decide))
              (by rintro c h; cases h; exact .inl (.inl rfl)) (.last (NoSign.none (t := [' ']) (by decide)))
          · exact ⟨.plain (.last (NoSign.none (t := " three".toList) (by decide))) (.inl (by decide)), by decide⟩
        · refine .go rfl (demo_regular ⟨rfl, rfl⟩) ?_ (.skip rfl (fun c _ => demo_usual _) .stop)
          exact .simple (w := []) (r := "two  ".toList) (by simp [Txt.Lead]) (by unfold Bare; simp; decide) (by decide) rfl rfl
    · exact .simple (w := [' ']) (r := "four".toList) (by simp [Txt.Lead, Blank]) (by unfold Bare; simp; decide) (by decide) rfl rfl

def blockTexts : List (List Char) := [" (\n".toList, " one\n".toList, "\n".toList, " two >f || three\n".toList, ") >g && four\n".toList]

/-- The script with this line in five lines of text meets the hypotheses of `C113_script_partial`. -/
example : Does nameSpecial demo .script ("in".toList, "out".toList, "err".toList) ([], ⟨blockTexts, [], 0, 40⟩) 5
    ([("four".toList, "in".toList, "out".toList, "err".toList), ("two  ".toList, "in".toList, "f".toList, "err".toList),
      ("one".toList, "in".toList, "g".toList, "err".toList)], ⟨blockTexts, [], 5, 40⟩) 0 .no := by
  have means : ∀ t ∈ blockTexts, Means demo [] t t := fun t ht =>
    .done fun i ⟨⟨c, hc, hp⟩, _⟩ => by
      have hm := List.mem_of_getElem? hc
      have : ∀ t ∈ blockTexts, '%' ∉ t := by decide
      rw [eq_of_beq hp] at hm
      exact this t ht hm
  refine .onward (u := " (\n one\n\n two >f || three\n) >g && four".toList) (a := .no) ⟨blockTexts, [], blockTexts, false, rfl, ?_, by decide, ?_, rfl⟩
    (demo_block _) (by decide) (.done rfl)
  · exact ⟨means _ (by decide), by decide, means _ (by decide), by decide, means _ (by decide), by decide, means _ (by decide), by decide,
      means _ (by decide), by decide, trivial⟩
  · refine .cons (l := " (\n one\n\n two >f || three\n)".toList) (c := ' ') (b := ">g && four".toList)
      (.group (w := [' ']) (b := "\n one\n\n two >f || three\n".toList) (by decide) (rows_body demo_body)) (.inr (.inr ⟨rfl, by decide⟩)) ?_
    refine .cons (l := ">g ".toList) (c := '&') (b := "& four".toList) (.plain (w := []) (by simp) (by decide) (by decide) (by decide)) (.inl rfl) ?_
    refine .cons (l := []) (c := '&') (b := " four".toList) (.plain (w := []) (t := []) (by simp) (by decide) (by decide) (by decide)) (.inl rfl) ?_
    exact .last (.plain (w := [' ']) (t := "four".toList) (by decide) (by decide) (by decide) (by decide))

/-- The same text in a script, after loading, on the model itself. -/
example : (demo.runText 9 ⟨([], loadScript ["(\n".toList, " one\n".toList, "\n".toList, " two >f || three\n".toList, ") >g && four\n".toList] 40), 5, .no,
      ⟨"in".toList, "out".toList, "err".toList, true, false, []⟩⟩).map (fun s => (s.world.1.map fun r => (r.1, r.2.2.1), s.err)) =
    some ([("four".toList, "out".toList), ("two  ".toList, "f".toList), ("one".toList, "g".toList)], 0) := by decide +kernel

/-! ### A line with IF -/

/-- IF with conditions `x`, which holds, and others; `two ` fails. -/
def demoIf : Host Unit (List (List Char × List Char × List Char × List Char)) (List Char) :=
  { demo with
    base := { demo.base with exec := fun c x _ s => (((c, s.1, s.2.1, s.2.2) :: x.1, x.2), if c = "two ".toList then 1 else 0, .no) }
    cls := fun r => if r.take 3 = "if ".toList then .iff (r.drop 2) [] none else .simple r
    cond := fun t _ _ => (if (skipBlanks t).head? = some 'x' then .yes else .no, (skipBlanks t).drop 1) }

def ifItems (c : List Char) : List RedirItem :=
  if c = " if x one >g ".toList then [.text " if x one ".toList, .out false false ['g'], .text [' ']] else [.text c]

theorem usual_plain {h : Host ν W τ} {c : List Char} (hc : h.cls (bare c) = .simple (bare c)) : Usual h c := by
  intro w r e hw hr
  have h1 : skipAllBlanks c = r := by rw [e]; exact skipAllBlanks_lead hw hr
  rw [skipAllBlanks_dropped] at h1
  rw [← h1]
  exact .inr (.inl hc)

theorem demo_if_regular {c : Piece} (hc : demoIf.cls (bare c.2) = .simple (bare c.2) ∨ c.2.head? = some '(')
    (h : c.1.errToOut = false ∧ c.1.outToErr = false) : Regular demoIf (c, []) := by
  intro d hd
  obtain rfl := List.mem_singleton.1 hd
  refine ⟨?_, .inl h⟩
  rcases hc with hc | hc
  · exact usual_plain hc
  · obtain ⟨r, t⟩ := d
    cases t with
    | nil => cases hc
    | cons k t =>
      cases hc
      intro w r e hw _
      cases w with
      | nil => rw [List.nil_append] at e; rw [← e]; exact .inl rfl
      | cons k w =>
        cases e
        rcases hw '(' (by simp) with h | h
        · exact absurd h (by unfold Blank; decide)
        · cases h

/-- The command governed by IF is redirected to `g`; the others are not. -/
theorem demo_if (sc : Script) : Does nameSpecial demoIf (.line "zero & if x one >g && four".toList) ("in".toList, "out".toList, "err".toList)
    ([], sc) 5 ([("four".toList, "in".toList, "out".toList, "err".toList), ("one  ".toList, "in".toList, "g".toList, "err".toList),
      ("zero ".toList, "in".toList, "out".toList, "err".toList)], sc) 0 .no := by
  refine .line (l := ⟨("zero ".toList, []), [(.seq, (" if x one >g ".toList, [])), (.and, (" four".toList, []))]⟩) (items := ifItems) (by decide)
    (by intro r h; have := congrArg List.head? h; revert this; rw [List.head?_cons]; decide)
    ⟨.plain (by decide), by unfold Precedes; decide, by decide, .plain (by decide), by unfold Precedes; decide, by decide, .plain (by decide)⟩ ?_ ?_
  · intro c hc
    simp only [SrcLine.cmds, SrcLine.tail, pipes, List.map_nil, List.nil_append, List.flatMap_cons, List.flatMap_nil, List.append_nil,
      List.map_cons, List.mem_cons, List.not_mem_nil, or_false, List.cons_append] at hc
    rcases hc with rfl | rfl | rfl
    · exact ⟨.plain (.last (NoSign.none (t := "zero ".toList) (by decide))) (.inl (by decide)), by decide⟩
    · refine ⟨.plain ?_ (.inl (by decide)), by decide⟩
      exact .file (t := " if x one ".toList) (s := ['>']) (w := []) (x := ['g']) (rest := [' ']) (by decide) (.out (app := false))
        (fun _ => NoNumber_last (by decide) (by decide)) (by simp) (.word (by decide) (by decide) (by decide) (by decide))
        (by rintro c h; cases h; exact .inl (.inl rfl)) (.last (NoSign.none (t := [' ']) (by decide)))
    · exact ⟨.plain (.last (NoSign.none (t := " four".toList) (by decide))) (.inl (by decide)), by decide⟩
  · refine .go (x' := ([("zero ".toList, "in".toList, "out".toList, "err".toList)], sc)) (e' := 0) rfl (demo_if_regular (.inl rfl) ⟨rfl, rfl⟩) ?_ ?_
    · exact .simple (w := []) (r := "zero ".toList) (by simp [Txt.Lead]) (by unfold Bare; simp; decide) (by decide) rfl rfl
    refine .test (y := " x one  ".toList) (u := " one  ".toList) (yes := "one  ".toList) (no := none) (code := "one  ".toList) (strict := true)
      (b := true) (e' := 0) rfl ?_ rfl ?_ ⟨rfl, rfl⟩ ?_
    · exact ⟨[' '], "if x one  ".toList, [], none, rfl, by simp [Txt.Lead, Blank], by unfold Bare; simp; decide, by decide, rfl⟩
    · exact .one (.command (w := [' ']) (l := "one  ".toList) (by decide)
        (.plain (w := []) (t := "one  ".toList) (by simp) (by decide) (by decide) (by decide)) (by decide))
    · refine .go (x' := ([("one  ".toList, "in".toList, "g".toList, "err".toList), ("zero ".toList, "in".toList, "out".toList, "err".toList)], sc)) (e' := 0)
        rfl (demo_if_regular (.inr rfl) ⟨rfl, rfl⟩) ?_ (.go rfl (demo_if_regular (.inl rfl) ⟨rfl, rfl⟩) ?_ .stop)
      · refine .block (w := []) (b := "one  ".toList) (v := []) (rs := ["one  ".toList]) (strict := true) (by simp [Txt.Lead])
          (.last (.one (.plain (w := []) (t := "one  ".toList) (by simp) (by decide) (by decide) (by decide)))) (by decide) (by decide) ?_
        refine .next (l := "one  ".toList) (ls := []) (a := .no) ?_ (.inl rfl) .end
        refine .line (l := ⟨("one  ".toList, []), []⟩) (items := ifItems) (by decide)
          (by intro r h; have := congrArg List.head? h; revert this; rw [List.head?_cons]; decide) (.plain (by decide)) ?_ ?_
        · intro c hc
          simp only [SrcLine.cmds, SrcLine.tail, pipes, List.map_nil, List.flatMap_nil, List.append_nil, List.mem_cons, List.not_mem_nil, or_false] at hc
          subst hc
          exact ⟨.plain (.last (NoSign.none (t := "one  ".toList) (by decide))) (.inl (by decide)), by decide⟩
        · refine .go rfl (demo_if_regular (.inl rfl) ⟨rfl, rfl⟩) ?_ .stop
          exact .simple (w := []) (r := "one  ".toList) (by simp [Txt.Lead]) (by unfold Bare; simp; decide) (by decide) rfl rfl
      · exact .simple (w := [' ']) (r := "four".toList) (by simp [Txt.Lead, Blank]) (by unfold Bare; simp; decide) (by decide) rfl rfl

/-- On the model: both outcomes, with ELSE and a redirection, which has an effect only if the condition does not hold. -/
example : (demoIf.lineText 9 "if x (\n one\n) else (two\n\nthree) >g & four".toList
      ⟨([], ⟨[], [], 0, 0⟩), 5, .no, ⟨"in".toList, "out".toList, "err".toList, true, false, []⟩⟩).map
        (fun s => (s.world.1.map fun r => (r.1, r.2.2.1), s.err)) = some ([("one".toList, "out".toList)], 0) ∧
    (demoIf.lineText 9 "if y (\n one\n) else (two\n\nthree) >g & four".toList
      ⟨([], ⟨[], [], 0, 0⟩), 5, .no, ⟨"in".toList, "out".toList, "err".toList, true, false, []⟩⟩).map
        (fun s => (s.world.1.map fun r => (r.1, r.2.2.1), s.err)) =
      some ([("four".toList, "out".toList), ("three".toList, "g".toList), ("two".toList, "g".toList)], 0) := by
  constructor <;> decide +kernel

/-- A redirection in front of the condition is for the command only without ELSE. -/
example : ["if >g x (one)".toList, "if >g x (one) else (three)".toList, "if >g y (one) else (three)".toList].map (fun l => (demoIf.lineText 9 l
      ⟨([], ⟨[], [], 0, 0⟩), 5, .no, ⟨"in".toList, "out".toList, "err".toList, true, false, []⟩⟩).map
        (fun s => (s.world.1.map fun r => (r.1, r.2.2.1), s.err))) =
    [some ([("one".toList, "g".toList)], 0), some ([("one".toList, "out".toList)], 0), some ([("three".toList, "g".toList)], 0)] := by decide +kernel

/-- `two` fails, so that IF is not allowed: what is behind `&` does not run either.  Without IF it does. -/
example : (demoIf.lineText 9 " two && if x one & four".toList
      ⟨([], ⟨[], [], 0, 0⟩), 5, .no, ⟨"in".toList, "out".toList, "err".toList, true, false, []⟩⟩).map (fun s => (s.world.1.map (·.1), s.err)) =
      some (["two ".toList], 1) ∧
    (demoIf.lineText 9 " two && one & four".toList
      ⟨([], ⟨[], [], 0, 0⟩), 5, .no, ⟨"in".toList, "out".toList, "err".toList, true, false, []⟩⟩).map (fun s => (s.world.1.map (·.1), s.err)) =
      some (["four".toList, "two ".toList], 0) := by
  constructor <;> decide +kernel

/-! ### A line with FOR -/

/-- The loop `for %i in (1 2) do`, and IF as above, but it holds only for the first of the values; assignments are recorded. -/
def demoFor : Host (List Char) (List (List Char × List Char)) (List Char) where
  base := {
    exec := fun c x _ s => (((c, s.2.1) :: x.1, x.2), 0, .no)
    test := fun _ _ _ => .no
    setVar := fun v x => (("set".toList, v.getD []) :: x.1, x.2)
    openFile := fun f _ x => (x, some f)
    pipe := fun x => (x, "pipe".toList)
    spawn := fun _ c _ t _ x => match c with
      | .simple c => ((c, t) :: x.1, x.2)
      | _ => x
    fetch := fun _ => none
    enter := fun _ x => .ok x
    leave := fun x _ => x }
  args := fun _ _ => none
  loops := fun _ _ => none
  mods := fun _ _ _ _ => []
  vars := fun _ _ => none
  delayed := fun _ => false
  full := fun _ f => f
  echo := fun _ w => w
  cls := fun r => if r.take 4 = "for ".toList then .loop [] [[(.none, {}, .simple (r.drop 4))]]
    else if r.take 3 = "if ".toList then .iff (r.drop 2) [] none else .simple r
  cond := fun t x _ => (if ("set".toList, "2".toList) ∈ x.1 then .no else .yes, t.drop 2)
  forBehind := fun t _ => if t.take 14 = "%i in (1 2) do".toList then .ok (t.drop 14) else .error 3
  forValues := fun _ x => (x, .ok ["1".toList, "2".toList])

def forItems (c : List Char) : List RedirItem :=
  if c = "for %i in (1 2) do one >g ".toList then [.text "for %i in (1 2)".toList, .text " do one ".toList, .out false false ['g'], .text [' ']] else [.text c]

theorem demo_for_regular {c : Piece} (hc : demoFor.cls (bare c.2) = .simple (bare c.2)) (h : c.1.errToOut = false ∧ c.1.outToErr = false) :
    Regular demoFor (c, []) := by
  intro d hd
  obtain rfl := List.mem_singleton.1 hd
  exact ⟨usual_plain hc, .inl h⟩

theorem demo_for_block {x : List (List Char × List Char) × Script} {e : Int} {s : List Char × List Char × List Char} :
    Does nameSpecial demoFor (.command "(one  )".toList) s x e (("one  ".toList, s.2.1) :: x.1, x.2) 0 .no := by
  refine .block (w := []) (b := "one  ".toList) (v := []) (rs := ["one  ".toList]) (strict := true) (by simp [Txt.Lead])
    (.last (.one (.plain (w := []) (t := "one  ".toList) (by simp) (by decide) (by decide) (by decide)))) (by decide) (by decide) ?_
  refine .next (l := "one  ".toList) (ls := []) (a := .no) ?_ (.inl rfl) .end
  refine .line (l := ⟨("one  ".toList, []), []⟩) (items := forItems) (by decide)
    (by intro r h; have := congrArg List.head? h; revert this; rw [List.head?_cons]; decide) (.plain (by decide)) ?_ ?_
  · intro c hc
    simp only [SrcLine.cmds, SrcLine.tail, pipes, List.map_nil, List.flatMap_nil, List.append_nil, List.mem_cons, List.not_mem_nil, or_false] at hc
    subst hc
    exact ⟨.plain (.last (NoSign.none (t := "one  ".toList) (by decide))) (.inl (by decide)), by decide⟩
  · refine .go rfl (demo_for_regular rfl ⟨rfl, rfl⟩) ?_ .stop
    exact .simple (w := []) (r := "one  ".toList) (by simp [Txt.Lead]) (by unfold Bare; simp; decide) (by decide) rfl rfl

/-- Both commands run for both values, the first one redirected to `g`. -/
theorem demo_for (sc : Script) : Does nameSpecial demoFor (.line "for %i in (1 2) do one >g & four".toList) ("in".toList, "out".toList, "err".toList)
    ([], sc) 5 ([("set".toList, []), ("four".toList, "out".toList), ("one  ".toList, "g".toList), ("set".toList, "2".toList),
      ("four".toList, "out".toList), ("one  ".toList, "g".toList), ("set".toList, "1".toList)], sc) 0 .no := by
  have word : BlockWord "for %i in ".toList := ⟨"for".toList, ' ', "%i in ".toList, rfl, by unfold Blank; decide, by decide⟩
  have body : Body false "1 2".toList := .last (.plain (w := []) (t := "1 2".toList) (by simp) (by decide) (by decide) (by decide))
  have noParens : ∀ i, ¬ (Hit (fun c => c == '(' || c == ')') " do one >g ".toList i ∧ OutQuotes " do one >g ".toList i) := by
    rintro i ⟨⟨⟨c, hc, hp⟩, -⟩, -⟩
    have : ∀ c ∈ " do one >g ".toList, (c == '(' || c == ')') = false := by decide
    exact absurd (hp.symm.trans (this c (List.mem_of_getElem? hc))) (by decide)
  refine .line (l := ⟨("for %i in (1 2) do one >g ".toList, []), [(.seq, (" four".toList, []))]⟩) (items := forItems) (by decide)
    (by intro r h; have := congrArg List.head? h; revert this; rw [List.head?_cons]; decide) ⟨?_, by unfold Precedes; decide, by decide, .plain (by decide)⟩ ?_ ?_
  · exact .clause (w := []) (t := "for %i in ".toList) (b := "1 2".toList) (c := " do one >g ".toList) (by simp) word (by decide) body (.text (by decide))
  · intro c hc
    simp only [SrcLine.cmds, SrcLine.tail, pipes, List.map_nil, List.nil_append, List.flatMap_cons, List.flatMap_nil, List.append_nil,
      List.map_cons, List.mem_cons, List.not_mem_nil, or_false] at hc
    rcases hc with rfl | rfl
    · refine ⟨.clause (w := []) (t := "for %i in ".toList) (b := "1 2".toList) (c := " do one >g ".toList) (by simp) word (by decide)
        (by decide) body (.line ?_ noParens), by decide⟩
      exact .file (t := " do one ".toList) (s := ['>']) (w := []) (x := ['g']) (rest := [' ']) (by decide) (.out (app := false))
        (fun _ => NoNumber_last (by decide) (by decide)) (by simp) (.word (by decide) (by decide) (by decide) (by decide))
        (by rintro c h; cases h; exact .inl (.inl rfl)) (.last (NoSign.none (t := [' ']) (by decide)))
    · exact ⟨.plain (.last (NoSign.none (t := " four".toList) (by decide))) (.inl (by decide)), by decide⟩
  · refine .loop (y := "%i in (1 2) do one  ".toList) (u := " one  ".toList) (code := "one  ".toList) (strict := true)
      (vs := ["1".toList, "2".toList]) (x0 := ([], sc)) (e' := 0)
      (x' := ([("four".toList, "out".toList), ("one  ".toList, "g".toList), ("set".toList, "2".toList),
        ("four".toList, "out".toList), ("one  ".toList, "g".toList), ("set".toList, "1".toList)], sc)) rfl ?_ rfl ?_ rfl (by simp) ?_ ?_
    · exact ⟨[], "for %i in (1 2) do one  ".toList, [], .none, {}, rfl, by simp [Txt.Lead], by unfold Bare; simp; decide, by decide, rfl⟩
    · exact .command (w := [' ']) (l := "one  ".toList) (by decide)
        (.plain (w := []) (t := "one  ".toList) (by simp) (by decide) (by decide) (by decide)) (by decide)
    · intro z hz c hc
      simp only [List.map_cons, List.map_nil, List.mem_singleton] at hz
      subst hz
      obtain rfl := List.mem_singleton.1 hc
      exact usual_plain rfl
    · have wrapped : ∀ r : Redir (List Char), r.errToOut = false ∧ r.outToErr = false → Regular demoFor ((r, "(one  )".toList), []) := by
        intro r hr d hd
        obtain rfl := List.mem_singleton.1 hd
        exact ⟨usual_wrap demoFor "one  ".toList, .inl hr⟩
      have four : ∀ (s : List Char × List Char × List Char) (x : List (List Char × List Char) × Script) (e : Int),
          Does nameSpecial demoFor (.command " four".toList) s x e (("four".toList, s.2.1) :: x.1, x.2) 0 .no := fun s x e =>
        .simple (w := [' ']) (r := "four".toList) (by simp [Txt.Lead, Blank]) (by unfold Bare; simp; decide) (by decide) rfl rfl
      refine .round (.go rfl (wrapped _ ⟨rfl, rfl⟩) demo_for_block (.go rfl (demo_for_regular rfl ⟨rfl, rfl⟩) (four _ _ _) .stop))
        (.round (.go rfl (wrapped _ ⟨rfl, rfl⟩) demo_for_block (.go rfl (demo_for_regular rfl ⟨rfl, rfl⟩) (four _ _ _) .stop)) .over)

/-- The claim fails for IF in the rest of the line of FOR: the condition is looked at only until it holds for one of the values; from then on the
commands run for all of them.  Here it holds for the first value only; in a block the same commands do what they say. -/
theorem C113_for_if : ["for %i in (1 2) do one & if x two".toList, "for %i in (1 2) do (one & if x two)".toList].map (fun l => (demoFor.lineText 9 l
      ⟨([], ⟨[], [], 0, 0⟩), 5, .no, ⟨"in".toList, "out".toList, "err".toList, true, false, []⟩⟩).map (fun s => s.world.1.reverse.map (·.1))) =
    [some ["set".toList, "one ".toList, "two".toList, "set".toList, "one ".toList, "two".toList, "set".toList],
     some ["set".toList, "one ".toList, "two".toList, "set".toList, "one ".toList, "set".toList]] := by decide +kernel

/-! ### A script with CALL -/

/-- `call` goes to line 3 of the script and comes back; `exit` leaves the script.  All others record where they write to. -/
def demoCall : Host Unit (List (List Char × List Char)) (List Char) where
  base := {
    exec := fun c x _ s => if c = "exit".toList then (x, 7, .level) else (((c, s.2.1) :: x.1, x.2), 0, .no)
    test := fun _ _ _ => .no
    setVar := fun _ x => x
    openFile := fun f _ x => (x, some f)
    pipe := fun x => (x, "pipe".toList)
    spawn := fun _ _ _ _ _ x => x
    fetch := fun _ => none
    enter := fun _ x => .ok (x.1, { x.2 with curr := 3 })
    leave := fun x x' => (x'.1, x.2) }
  args := fun _ _ => none
  loops := fun _ _ => none
  mods := fun _ _ _ _ => []
  vars := fun _ _ => none
  delayed := fun _ => false
  full := fun _ f => f
  echo := fun _ w => w
  cls := fun r => if r.take 4 = "call".toList then .call (r.drop 4) else .simple r

def callTexts : List (List Char) := ["call >f\n".toList, "one\n".toList, "exit\n".toList, "two\n".toList, "exit\n".toList]

def callItems (c : List Char) : List RedirItem :=
  if c = "call >f".toList then [.text "call ".toList, .out false false ['f'], .text []] else [.text c]

theorem demo_call_next {w : List (List Char × List Char)} {n : Nat} {t : List Char} {ls : List (List Char)} (hd : callTexts.drop n = (t ++ ['\n']) :: ls)
    (hw : Whole true t) : Next demoCall (w, ⟨callTexts, [], n, 40⟩) t (w, ⟨callTexts, [], n + 1, 40⟩) := by
  refine ⟨[t ++ ['\n']], ls, [t ++ ['\n']], true, hd, ⟨.done fun i ⟨⟨c, hc, hp⟩, _⟩ => ?_, by simp, trivial⟩, by simp, hw, rfl⟩
  have hm := List.mem_of_getElem? hc
  have : ∀ t ∈ callTexts, '%' ∉ t := by decide
  rw [eq_of_beq hp] at hm
  exact this _ (List.mem_of_mem_drop (by rw [hd]; simp)) hm

theorem demo_call_line {t : List Char} {s : List Char × List Char × List Char} {x x' : List (List Char × List Char) × Script} {e e' : Int} {a : Abort}
    (ht : unindent t = t) (hcol : t.head? ≠ some ':') (hp : Plain t) (hr : RedirCommand nameSpecial t (callItems t)) (ho : Once (callItems t))
    (hd : Does nameSpecial demoCall (.parts [(.seq, (redirs id (callItems t), textOf (callItems t)), [])]) s x e x' e' a) :
    Does nameSpecial demoCall (.line t) s x e x' e' a := by
  refine .line (l := ⟨(t, []), []⟩) (items := callItems) (by rw [ht]; simp [SrcLine.text, written, SrcLine.tail, pipes])
    (fun r h => hcol (by rw [← ht, h]; rfl)) (.plain hp) ?_ hd
  intro d hd
  simp only [SrcLine.cmds, SrcLine.tail, pipes, List.map_nil, List.flatMap_nil, List.append_nil, List.mem_singleton] at hd
  subst hd
  exact ⟨hr, ho⟩

theorem demo_call_regular {c : Piece} (hc : demoCall.cls (bare c.2) = .simple (bare c.2) ∨ ∃ i, demoCall.cls (bare c.2) = .call i)
    (h : c.1.errToOut = false ∧ c.1.outToErr = false) : Regular demoCall (c, []) := by
  intro d hd
  obtain rfl := List.mem_singleton.1 hd
  refine ⟨?_, .inl h⟩
  intro w r e hw hr
  have h1 : skipAllBlanks d.2 = r := by rw [e]; exact skipAllBlanks_lead hw hr
  rw [skipAllBlanks_dropped] at h1
  rw [← h1]
  exact .inr hc

/-- `call >f` runs `two`, writing to `f`, until EXIT; then `one` runs, and EXIT leaves the script. -/
theorem demo_call : Does nameSpecial demoCall .script ("in".toList, "out".toList, "err".toList) ([], ⟨callTexts, [], 0, 40⟩) 5
    ([("one".toList, "out".toList), ("two".toList, "f".toList)], ⟨callTexts, [], 3, 40⟩) 7 .level := by
  have plain : ∀ t ∈ ["one".toList, "exit".toList, "two".toList], Whole true t ∧
      ∀ {s x e x' e' a}, demoCall.base.exec t x e s = (x', e', a) → a = .no ∨ a = .level →
        Does nameSpecial demoCall (.line t) s x e x' e' a := by
    intro t ht
    simp only [List.mem_cons, List.not_mem_nil, or_false] at ht
    rcases ht with rfl | rfl | rfl
    all_goals
      refine ⟨.last (.plain (w := []) (by simp) (by decide) (by decide) (by decide)), ?_⟩
      intro s x e x' e' a hx ha
      refine demo_call_line (by decide) (by decide) (by decide) (.plain (.last (NoSign.none (by decide))) (.inl (by decide))) (by decide) ?_
      rcases ha with rfl | rfl
      · refine .go rfl (demo_call_regular (.inl rfl) ⟨rfl, rfl⟩) ?_ .stop
        exact .simple (w := []) (by simp [Txt.Lead]) (by unfold Bare; simp; decide) (by decide) rfl hx
      · refine .leave rfl (demo_call_regular (.inl rfl) ⟨rfl, rfl⟩) ?_ (by decide) (by simp)
        exact .simple (w := []) (by simp [Txt.Lead]) (by unfold Bare; simp; decide) (by decide) rfl hx
  obtain ⟨w1, d1⟩ := plain "one".toList (by decide)
  obtain ⟨w2, d2⟩ := plain "exit".toList (by decide)
  obtain ⟨w3, d3⟩ := plain "two".toList (by decide)
  refine .onward (demo_call_next (t := "call >f".toList) rfl
    (.last (.plain (w := []) (by simp) (by decide) (by decide) (by decide)))) (a := .no) (x' := ([("two".toList, "f".toList)], ⟨callTexts, [], 1, 40⟩)) (e' := 7) ?_ (by decide) ?_
  · refine demo_call_line (by decide) (by decide) (by decide) (.plain ?_ (.inl (by decide))) (by decide) ?_
    · exact .file (t := "call ".toList) (s := ['>']) (w := []) (x := ['f']) (rest := []) (by decide) (.out (app := false))
        (fun _ => NoNumber_last (by decide) (by decide)) (by simp) (.word (by decide) (by decide) (by decide) (by decide))
        (by rintro c h; cases h) (.last (NoSign.none (t := []) (by decide)))
    · refine .go rfl (demo_call_regular (.inr ⟨[' '], rfl⟩) ⟨rfl, rfl⟩) ?_ .stop
      refine .call (w := []) (r := "call ".toList) (i := [' ']) (a := .level) (x' := ([("two".toList, "f".toList)], ⟨callTexts, [], 5, 40⟩)) (by simp [Txt.Lead])
        (by unfold Bare; simp; decide) (by decide) rfl rfl ?_
      exact .onward (demo_call_next rfl w3) (d3 rfl (.inl rfl)) (by decide) (.quit (demo_call_next rfl w2) (d2 rfl (.inr rfl)))
  · exact .onward (demo_call_next rfl w1) (d1 rfl (.inl rfl)) (by decide) (.quit (demo_call_next rfl w2) (d2 rfl (.inr rfl)))

/-- The same on the model. -/
example : (demoCall.runText 9 ⟨([], ⟨callTexts, [], 0, 40⟩), 5, .no, ⟨"in".toList, "out".toList, "err".toList, true, false, []⟩⟩).map
      (fun s => (s.world.1, s.err, s.world.2.curr)) = some ([("one".toList, "out".toList), ("two".toList, "f".toList)], 7, 3) := by decide +kernel

end PBat.Prog
