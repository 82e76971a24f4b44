import Verif.Spec.Help
import Verif.Spec.SetCmd
import Verif.Lemmas.Params
import Verif.Model.Mkdir
/-
C107: a command asked for help with /? prints its own help and does nothing else.
-/
namespace PBat.Help
open PBat PBat.Spec PBat.Spec.Help

/-- The texts are written with the ends of lines of the system, and nothing is lost. -/
theorem written_shown (nl t : List Char) : written nl t = shown nl t := by
  induction hn : t.length using Nat.strongRecOn generalizing t with
  | ind n ih =>
    have key : ∀ t : List Char, ∃ a, (strpbrk (· == '\n') t).1 = a ∧ shown nl a = a ∧
        ((strpbrk (· == '\n') t).2 = [] ∧ t = a ∨ ∃ r, (strpbrk (· == '\n') t).2 = '\n' :: r ∧ t = a ++ '\n' :: r) := by
      intro t
      induction t with
      | nil => exact ⟨[], rfl, rfl, .inl ⟨rfl, rfl⟩⟩
      | cons c t ih2 =>
        obtain ⟨a, h1, h2, h3⟩ := ih2
        by_cases hc : c = '\n'
        · subst hc
          exact ⟨[], by simp [strpbrk], rfl, .inr ⟨t, by simp [strpbrk], rfl⟩⟩
        · have hb : (c == '\n') = false := by simp [hc]
          refine ⟨c :: a, by simp [strpbrk, hb, h1], ?_, ?_⟩
          · unfold shown at h2 ⊢
            rw [List.flatMap_cons, if_neg hc, h2]; rfl
          · rcases h3 with ⟨h3, h4⟩ | ⟨r, h3, h4⟩
            · exact .inl ⟨by simp [strpbrk, hb, h3], by rw [h4]⟩
            · exact .inr ⟨r, by simp [strpbrk, hb, h3], by rw [h4]; rfl⟩
    subst hn
    obtain ⟨a, h1, h2, h3⟩ := key t
    rw [written.eq_def]
    split
    · rename_i x hx
      rcases h3 with ⟨_, h4⟩ | ⟨r, h3, _⟩
      · rw [hx] at h1; dsimp only at h1; rw [h1, h4]; exact h2.symm
      · rw [hx] at h3; cases h3
    · rename_i x y r hx
      rcases h3 with ⟨h3, _⟩ | ⟨r', h3, h4⟩
      · rw [hx] at h3; cases h3
      · rw [hx] at h1 h3
        dsimp only at h1 h3
        cases h3
        rw [ih r.length (by rw [h4]; simp; omega) r rfl, h4, h1]
        unfold shown at h2 ⊢
        rw [List.flatMap_append, h2, List.flatMap_cons, if_pos rfl]

/-- **C107 (own text).**  Whatever the language and the system: the text a command shows is one about that command, complete, and no command that shows
one does something undefined.  Missing: MOVE (`C107_move`), and the commands that never show one (`C107_lost`). -/
theorem C107_own_partial (nl : List Char) (tr : Topic → List Char) {r : Row} (hr : r ∈ rows) (hs : ∀ n ∈ silent, r.name ≠ n.toList) :
    r.look ≠ .never ∧ ∃ t, (∃ n ∈ about t, n.toList = r.name) ∧ showHelp nl tr r.id = .ok (shown nl (tr t)) := by
  have hall : ∀ r ∈ rows, (∀ n ∈ silent, r.name ≠ n.toList) →
      r.look ≠ .never ∧ r.id < 41 ∧ ((array[r.id]?.bind id).any fun t => (about t).any fun n => n.toList == r.name) = true := by
    decide +kernel
  obtain ⟨h1, h2, h3⟩ := hall r hr hs
  refine ⟨h1, ?_⟩
  cases ha : array[r.id]? with
  | none => rw [ha] at h3; cases h3
  | some o =>
    cases o with
    | none => rw [ha] at h3; cases h3
    | some t =>
      rw [ha] at h3
      simp only [Option.bind_some, id, Option.any_some, List.any_eq_true, beq_iff_eq] at h3
      refine ⟨t, h3, ?_⟩
      unfold showHelp
      rw [if_pos h2, ha]
      dsimp only
      rw [written_shown]

/-- The first parameter of a line that consists of `/?`. -/
theorem next_question {ex : List Char → Res (List Char)} (hk : Keeps ex) {w w' : List Char} (hw : ∀ c ∈ w, Blank c) (hw' : ∀ c ∈ w', Blank c)
    (x : List Char) (hx : ∀ c ∈ x, ¬ Blank c ∧ c ∉ ['"', '^', '%', '!']) :
    nextParam stdDelims ex (w ++ (question ++ x ++ w')) = .ok (some (question ++ x, w')) := by
  have hplain : ∀ c ∈ question ++ x, ¬ Blank c ∧ c ∉ ['"', '^', '%', '!'] := by
    intro c hc
    rw [List.mem_append] at hc
    rcases hc with hc | hc
    · simp only [question, List.mem_cons, List.not_mem_nil, or_false] at hc
      rcases hc with rfl | rfl <;> decide
    · exact hx c hc
  have hwr : Written (fun c => c == '"' || c == '^') (question ++ x) (question ++ x) := by
    refine .word (by simp [question]) (fun c hc => (hplain c hc).1) (fun hc => (hplain _ hc).2 (by decide)) ?_
    intro c hc
    have := (hplain c hc).2
    simp only [List.mem_cons, List.not_mem_nil, or_false, not_or] at this
    simp [this]
  have ht : Stops w' := by
    cases w' with
    | nil => exact .inl rfl
    | cons b r => exact .inr ⟨b, r, rfl, hw' b (by simp)⟩
  have h := nextParam_written (q := fun c => c == '"' || c == '^') rfl rfl ex hw hwr ht
  have hesc : escape (fun c => c == '"' || c == '^') (question ++ x) = question ++ x := by
    apply escape_none
    intro c hc
    have := (hplain c hc).2
    simp only [List.mem_cons, List.not_mem_nil, or_false, not_or] at this
    simp [this]
  rw [h, hesc, hk.plain _ (by
    intro c hc
    have := (hplain c hc).2
    simp only [List.mem_cons, List.not_mem_nil, or_false, not_or] at this ⊢
    exact ⟨this.2.1, this.2.2.1, this.2.2.2⟩)]
  rfl

theorem next_blank {ex : List Char → Res (List Char)} {w : List Char} (hw : ∀ c ∈ w, Blank c) : nextParam stdDelims ex w = .ok none := by
  apply nextParam_nil
  have := skipBlanks_append hw (s := [])
  rw [List.append_nil] at this
  rw [this]; rfl

/-- **C107 (asking).**  A command that can show help shows it when its line is `/?` behind one blank; and, but for ECHO, PAUSE, PECHO, PROMPT and
XARGS, whatever blanks are written before and behind. -/
theorem C107_asked_partial {ex : List Char → Res (List Char)} (hk : Keeps ex) (junk : Nat → Char) {r : Row} (hr : r ∈ rows)
    (hn : r.look ≠ .never) :
    asks ex junk r.name [' ', '/', '?'] r.look = .ok true ∧
    ((∀ n ∈ ["ECHO", "PAUSE", "PECHO", "PROMPT", "XARGS"], r.name ≠ n.toList) → ∀ w w' : List Char, (∀ c ∈ w, Blank c) → (∀ c ∈ w', Blank c) →
      asks ex junk r.name (w ++ (question ++ w')) r.look = .ok true) := by
  have hq : ∀ w w' : List Char, (∀ c ∈ w, Blank c) → (∀ c ∈ w', Blank c) →
      nextParam stdDelims ex (w ++ (question ++ w')) = .ok (some (question, w')) := by
    intro w w' hw hw'
    have := next_question hk hw hw' [] (by simp)
    rwa [List.append_nil] at this
  have h1 := hq [' '] [] (by simp [Blank]) (by simp)
  rw [List.append_nil] at h1
  have hex : ex question = .ok question := hk.plain _ (by decide)
  have hskip : ∀ w w' : List Char, (∀ c ∈ w, Blank c) → skipBlanks (w ++ (question ++ w')) = question ++ w' := by
    intro w w' hw
    rw [skipBlanks_append hw]
    rfl
  have hsmall : ∀ r ∈ rows, r.look = .seventh → r.name.length = 5 ∧ "PAUSE".toList = r.name := by decide +kernel
  have hshort : ∀ r ∈ rows, ∀ n, r.look = .short n → 3 ≤ n := by
    intro r hr n h
    have : ∀ r ∈ rows, (match r.look with | .short n => decide (3 ≤ n) | _ => true) = true := by decide +kernel
    have := this r hr
    rw [h] at this
    simpa using this
  have hspecial : ∀ r ∈ rows, (r.look = .alone → "ECHO".toList = r.name) ∧ (r.look = .behindOne → "PECHO".toList = r.name) ∧
      (r.look = .expanded → "PROMPT".toList = r.name) ∧ (r.look = .line → "XARGS".toList = r.name) := by decide +kernel
  have htake : ∀ n, 3 ≤ n → question.take (n - 1) = question := by
    intro n hn
    exact List.take_of_length_le (by simp [question]; omega)
  obtain ⟨s1, s2, s3, s4⟩ := hspecial r hr
  cases hl : r.look with
  | never => exact absurd hl hn
  | word =>
    refine ⟨?_, fun _ w w' hw hw' => ?_⟩
    · simp only [asks]; rw [show [' ', '/', '?'] = [' '] ++ question from rfl, h1]; rfl
    · simp only [asks]; rw [hq w w' hw hw']; rfl
  | short n =>
    have := htake n (hshort r hr n hl)
    refine ⟨?_, fun _ w w' hw hw' => ?_⟩
    · simp only [asks]; rw [show [' ', '/', '?'] = [' '] ++ question from rfl, h1]
      simp [Res.ok_bind, this]
    · simp only [asks]; rw [hq w w' hw hw']
      simp [Res.ok_bind, this]
  | begins =>
    refine ⟨?_, fun _ w w' hw hw' => ?_⟩
    · simp only [asks]; rw [show [' ', '/', '?'] = [' '] ++ question from rfl, h1]; rfl
    · simp only [asks]; rw [hq w w' hw hw']; rfl
  | lineBegins =>
    refine ⟨rfl, fun _ w w' hw hw' => ?_⟩
    simp only [asks]; rw [hskip w w' hw]; rfl
  | line => exact ⟨rfl, fun h => absurd (s4 hl).symm (h _ (by simp))⟩
  | expanded =>
    refine ⟨?_, fun h => absurd (s3 hl).symm (h _ (by simp))⟩
    simp only [asks]
    rw [show skipBlanks [' ', '/', '?'] = question from rfl, hex]; rfl
  | behindOne =>
    refine ⟨?_, fun h => absurd (s2 hl).symm (h _ (by simp))⟩
    simp only [asks]
    rw [show ['/', '?'] = question from rfl, hex]; rfl
  | alone =>
    refine ⟨?_, fun h => absurd (s1 hl).symm (h _ (by simp))⟩
    simp only [asks]
    rw [show [' ', '/', '?'] = [' '] ++ question from rfl, h1]
    rw [if_neg (by decide)]
    simp only [Res.ok_bind]
    rw [next_blank (by simp)]
    rfl
  | seventh =>
    obtain ⟨hlen, hname⟩ := hsmall r hr hl
    refine ⟨?_, fun h => absurd hname.symm (h _ (by simp))⟩
    simp only [asks]
    rw [← hname]
    rfl

/-- **C107 (not unasked).**  Where it looks at a whole parameter (a buffer of four bytes is enough), a command shows help only if its first parameter is
`/?`.  Missing: `C107_longer`, `C107_junk`. -/
theorem C107_unasked_partial {ex : List Char → Res (List Char)} {junk : Nat → Char} {name args : List Char} {look : Look}
    (hl : look = .word ∨ look = .alone ∨ ∃ n, look = .short n ∧ 4 ≤ n) (h : asks ex junk name args look = .ok true) :
    ∃ rest, nextParam stdDelims ex args = .ok (some (question, rest)) := by
  rcases hl with rfl | rfl | ⟨n, rfl, hn⟩
  · simp only [asks] at h
    obtain ⟨o, ho, h⟩ := res_bind_eq_ok.1 h
    cases o with
    | none => cases h
    | some p =>
      obtain ⟨t, rest⟩ := p
      simp only [Res.pure_eq, Res.ok.injEq, beq_iff_eq] at h
      subst h
      exact ⟨rest, ho⟩
  · unfold asks at h
    cases args with
    | nil => cases h
    | cons c r =>
      dsimp only at h
      split at h
      · cases h
      · obtain ⟨o, ho, h⟩ := res_bind_eq_ok.1 h
        cases o with
        | none => cases h
        | some p =>
          obtain ⟨t, rest⟩ := p
          dsimp only at h
          obtain ⟨o2, ho2, h⟩ := res_bind_eq_ok.1 h
          cases o2 with
          | some _ => cases h
          | none =>
            simp only [Res.pure_eq, Res.ok.injEq, beq_iff_eq] at h
            subst h
            exact ⟨rest, ho⟩
  · simp only [asks] at h
    obtain ⟨o, ho, h⟩ := res_bind_eq_ok.1 h
    cases o with
    | none => cases h
    | some p =>
      obtain ⟨t, rest⟩ := p
      simp only [Res.pure_eq, Res.ok.injEq, beq_iff_eq] at h
      have hlen := congrArg List.length h
      rw [List.length_take] at hlen
      have : t.take (n - 1) = t := List.take_of_length_le (by simp [question] at hlen; omega)
      rw [this] at h
      subst h
      exact ⟨rest, ho⟩

/-- The small commands do what they are for: with a line of blanks CLS clears the screen, VER prints the version, TITLE, BREAK, REM and CHCP do
nothing; and neither BREAK nor REM nor CHCP ever do anything else than show help.  PAUSE: `C107_junk`. -/
theorem C107_small {nl : List Char} {tr : Topic → List Char} {ex : List Char → Res (List Char)} {junk : Nat → Char} {w : List Char}
    (hw : ∀ c ∈ w, Blank c) :
    Small.run nl tr ex junk .cls w = .ok .clear ∧ Small.run nl tr ex junk .ver w = .ok .version ∧ Small.run nl tr ex junk .title w = .ok .nothing ∧
    Small.run nl tr ex junk .break_ w = .ok .nothing ∧ ∀ s args d, s = .break_ ∨ s = .rem ∨ s = .chcp → Small.run nl tr ex junk s args = .ok d →
      d = .nothing ∨ ∃ out, d = .help out := by
  have h := next_blank (ex := ex) hw
  refine ⟨?_, ?_, ?_, ?_, ?_⟩
  · simp [Small.run, Small.row, asks, h, Small.work, Res.ok_bind]
  · simp [Small.run, Small.row, asks, h, Small.work, Res.ok_bind]
  · simp [Small.run, Small.row, asks, h, Small.work, Res.ok_bind]
  · simp [Small.run, Small.row, asks, h, Small.work, Res.ok_bind]
  · intro s args d hs hd
    unfold Small.run at hd
    obtain ⟨b, hb, hd⟩ := res_bind_eq_ok.1 hd
    cases b with
    | true =>
      rw [if_pos rfl] at hd
      obtain ⟨o, ho, hd⟩ := res_bind_eq_ok.1 hd
      cases hd
      exact .inr ⟨o, rfl⟩
    | false =>
      rw [if_neg (by decide)] at hd
      rcases hs with rfl | rfl | rfl <;> (cases hd; exact .inl rfl)

/-- TITLE sets the title to its line, as it is written behind the name, with what is to be expanded expanded.  Missing: `C107_blank_title`,
`C107_longer`. -/
theorem C107_title_partial {nl : List Char} {tr : Topic → List Char} {ex : List Char → Res (List Char)} {junk : Nat → Char} {args t rest u : List Char}
    (h : nextParam stdDelims ex args = .ok (some (t, rest))) (ht : t.take 2 ≠ question) (hu : ex args = .ok u) :
    Small.run nl tr ex junk .title args = .ok (.title u) := by
  have : (t.take 2 == question) = false := by simpa using ht
  simp [Small.run, Small.row, asks, h, Small.work, Res.ok_bind, this, hu]

/-- CLS with anything else is refused, and clears nothing. -/
theorem C107_cls {nl : List Char} {tr : Topic → List Char} {ex : List Char → Res (List Char)} {junk : Nat → Char} {args t rest : List Char}
    (h : nextParam stdDelims ex args = .ok (some (t, rest))) (ht : t ≠ question) :
    Small.run nl tr ex junk .cls args = .ok (.error 4 (t.take 3)) := by
  have : (t.take 3 == question) = false := by
    cases hb : (t.take 3 == question) with
    | false => rfl
    | true =>
      exfalso
      rw [beq_iff_eq] at hb
      have hlen := congrArg List.length hb
      rw [List.length_take] at hlen
      rw [List.take_of_length_le (by simp [question] at hlen; omega)] at hb
      exact ht hb
  simp [Small.run, Small.row, asks, h, Small.work, Res.ok_bind, this]

/-! ### Violations -/

/-- `MOVE /?` goes through a null pointer, in every language. -/
theorem C107_move (nl : List Char) (tr : Topic → List Char) {ex : List Char → Res (List Char)} (hk : Keeps ex) (junk : Nat → Char) :
    ∃ r ∈ rows, r.name = "MOVE".toList ∧ asks ex junk r.name [' ', '/', '?'] r.look = .ok true ∧ showHelp nl tr r.id = .ub :=
  ⟨⟨"MOVE".toList, .word, 9⟩, by simp [rows], rfl,
    (C107_asked_partial hk junk (r := ⟨"MOVE".toList, .word, 9⟩) (by simp [rows]) (by simp)).1, rfl⟩

/-- The text about REN is not shown by anything, since that about REM takes its place; no command shows either, nor the one about CHCP. -/
theorem C107_lost : (∀ i : Nat, array[i]? ≠ some (some Topic.ren)) ∧ array[18]? = some (some Topic.rem) ∧
    ∀ r ∈ rows, r.look ≠ .never → r.id ≠ 18 ∧ r.id ≠ 28 := by
  refine ⟨?_, by decide +kernel, by decide +kernel⟩
  intro i
  by_cases h : i < 41
  · have : ∀ i < 41, array[i]? ≠ some (some Topic.ren) := by decide +kernel
    exact this i h
  · have : array.length = 41 := by decide +kernel
    rw [List.getElem?_eq_none (by omega)]
    simp

/-- TITLE and VER show help for whatever begins with `/?`; no title that begins so can be set. -/
theorem C107_longer {nl : List Char} {tr : Topic → List Char} {ex : List Char → Res (List Char)} (hk : Keeps ex) {junk : Nat → Char}
    {w w' x : List Char} (hw : ∀ c ∈ w, Blank c) (hw' : ∀ c ∈ w', Blank c) (hx : ∀ c ∈ x, ¬ Blank c ∧ c ∉ ['"', '^', '%', '!']) :
    Small.run nl tr ex junk .title (w ++ (question ++ x ++ w')) = .ok (.help (shown nl (tr .title))) ∧
    Small.run nl tr ex junk .ver (w ++ (question ++ x ++ w')) = .ok (.help (shown nl (tr .ver))) := by
  have h := next_question hk hw hw' x hx
  have ht : ((question ++ x).take 2 == question) = true := by simp [question]
  rw [List.append_assoc] at h
  have h1 : showHelp nl tr 17 = .ok (shown nl (tr .title)) := by rw [← written_shown]; rfl
  have h2 : showHelp nl tr 38 = .ok (shown nl (tr .ver)) := by rw [← written_shown]; rfl
  constructor
  · simp [Small.run, Small.row, asks, h, Res.ok_bind, ht, h1]
  · simp [Small.run, Small.row, asks, h, Res.ok_bind, ht, h2]

/-- The blank behind TITLE becomes part of the title. -/
theorem C107_blank_title {nl : List Char} {tr : Topic → List Char} {ex : List Char → Res (List Char)} (hk : Keeps ex) {junk : Nat → Char}
    {t : List Char} (ht : t ≠ []) (hp : ∀ c ∈ t, ¬ Blank c ∧ c ∉ ['/', '"', '^', '%', '!']) :
    Small.run nl tr ex junk .title (' ' :: t) = .ok (.title (' ' :: t)) := by
  have hwr : Written (fun c => c == '"' || c == '^') t t := by
    refine .word ht (fun c hc => (hp c hc).1) (fun hc => (hp _ hc).2 (by decide)) ?_
    intro c hc
    have := (hp c hc).2
    simp only [List.mem_cons, List.not_mem_nil, or_false, not_or] at this
    simp [this]
  have h := nextParam_written (q := fun c => c == '"' || c == '^') rfl rfl ex (w := [' ']) (by simp [Blank]) hwr (.inl rfl)
  have hesc : escape (fun c => c == '"' || c == '^') t = t := by
    apply escape_none
    intro c hc
    have := (hp c hc).2
    simp only [List.mem_cons, List.not_mem_nil, or_false, not_or] at this
    simp [this]
  have hpl : ∀ c ∈ t, c ∉ ['^', '%', '!'] := by
    intro c hc
    have := (hp c hc).2
    simp only [List.mem_cons, List.not_mem_nil, or_false, not_or] at this ⊢
    exact ⟨this.2.2.1, this.2.2.2.1, this.2.2.2.2⟩
  rw [hesc, hk.plain t hpl, Res.ok_bind, List.append_nil] at h
  refine C107_title_partial (t := t) (rest := []) h ?_ ?_
  · intro hh
    cases t with
    | nil => exact ht rfl
    | cons c r =>
      simp only [List.take_succ_cons, question, List.cons.injEq] at hh
      exact (hp c (by simp)).2 (by rw [hh.1]; decide)
  · apply hk.plain
    intro c hc
    rw [List.mem_cons] at hc
    rcases hc with rfl | hc
    · decide
    · exact hpl c hc

/-- PAUSE looks one byte too far: behind the end of its line, where memory that was never written may hold `/?` from an earlier line; then it does not
wait. -/
theorem C107_junk (nl : List Char) (tr : Topic → List Char) (ex : List Char → Res (List Char)) (junk : Nat → Char) :
    Small.run nl tr ex junk .pause [] = if junk 6 = '/' ∧ junk 7 = '?' then .ok (.help (shown nl (tr .pause))) else .ok .wait := by
  have h2 : showHelp nl tr 20 = .ok (shown nl (tr .pause)) := by rw [← written_shown]; rfl
  have h6 : byteAt junk ("PAUSE".toList ++ []) 6 = junk 6 := rfl
  have h7 : byteAt junk ("PAUSE".toList ++ []) 7 = junk 7 := rfl
  unfold Small.run
  simp only [Small.row, asks, h6, h7]
  by_cases h : junk 6 = '/' ∧ junk 7 = '?'
  · rw [if_pos h]
    simp [h.1, h.2, Res.ok_bind, h2]
  · rw [if_neg h]
    have : (junk 6 == '/' && junk 7 == '?') = false := by
      cases hb : (junk 6 == '/' && junk 7 == '?') with
      | false => rfl
      | true => simp at hb; exact absurd hb h
    simp [this, Res.ok_bind, Small.work]

/-- With more than one blank before `/?` PAUSE waits. -/
theorem C107_pause_blanks (nl : List Char) (tr : Topic → List Char) (ex : List Char → Res (List Char)) (junk : Nat → Char) {w : List Char}
    (hw : ∀ c ∈ w, Blank c) : Small.run nl tr ex junk .pause (' ' :: ' ' :: (w ++ question)) = .ok .wait := by
  have h6 : byteAt junk ("PAUSE".toList ++ (' ' :: ' ' :: (w ++ question))) 6 = ' ' := rfl
  unfold Small.run
  simp only [Small.row, asks, h6]
  rfl

/-- MD makes the directories named before `/?`, and only then shows help: the same is left as without `/?`. -/
theorem C107_md {W : Type} (sys : MkSys W) (full : List Char → List Char) (w : W) (name : List Char) (ts more : List (List Char))
    (hok : (cmdMd sys full (name :: ts) w).2 = 0) (hts : question ∉ ts) :
    cmdMd sys full (name :: (ts ++ question :: more)) w = cmdMd sys full (name :: ts) w := by
  show mdLoop sys full (ts ++ question :: more) w = mdLoop sys full ts w
  replace hok : (mdLoop sys full ts w).2 = 0 := hok
  induction ts generalizing w with
  | nil => rfl
  | cons t ts ih =>
    have hne : ¬ t = "/?".toList := fun h => hts (by rw [h]; exact List.mem_cons_self)
    rw [List.cons_append]
    simp only [mdLoop] at hok ⊢
    rw [if_neg hne] at hok ⊢
    rw [if_neg hne]
    split
    · next h =>
      rw [if_pos h] at hok
      exact ih _ (fun h => hts (List.mem_cons_of_mem _ h)) hok
    · rfl

/-! ### Examples -/

section
/-- An expansion without anything to expand. -/
private def same : List Char → Res (List Char) := fun t => .ok t

private theorem same_keeps : Keeps same := ⟨fun c t _ => ⟨t, rfl⟩, fun _ _ => rfl⟩

example : Small.run "\r\n".toList (fun _ => "a\nb\n".toList) same (fun _ => 'x') .cls " /?".toList = .ok (.help "a\r\nb\r\n".toList) := by
  decide +kernel

example : Small.run "\n".toList (fun _ => []) same (fun _ => 'x') .title " abc d".toList = .ok (.title " abc d".toList) := by decide +kernel

example := C107_longer (nl := []) (tr := fun _ => []) same_keeps (junk := fun _ => 'x') (w := [' ']) (w' := []) (x := ['a'])
  (by simp [Blank]) (by simp) (by simp [Blank])

/-- A row that meets the hypotheses of `C107_own_partial`. -/
example : ∃ r ∈ rows, (∀ n ∈ silent, r.name ≠ n.toList) ∧ r.name = "ERASE".toList :=
  ⟨⟨"ERASE".toList, .word, 7⟩, by simp [rows], by decide +kernel, rfl⟩
end

end PBat.Help
