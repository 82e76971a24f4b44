import Verif.Lemmas.Echo
/-
C66: ECHO writes the text it is given and switches the echo.
-/
namespace PBat
open Spec

/-! ### Helper lemmas -/

theorem echo_line {ex : List Char → Res (List Char)} {m : EchoMsgs} {on : Bool} {b : Char} (hb : b = ' ' ∨ b = '\t') (r : List Char) :
    cmdEcho ex m on (b :: r) = (nextParam stdDelims ex (b :: r) >>= fun p => match p with
        | none => .ok ⟨on, (if on then m.isOn else m.isOff) ++ ['\n'], 0⟩
        | some (t, tail) => nextParam stdDelims ex tail >>= fun p2 => echoWord ex m on t p2.isNone r) := by
  have h1 : glued (b :: r) = false := by rcases hb with rfl | rfl <;> rfl
  have h2 : ispunct b = false := by rcases hb with rfl | rfl <;> rfl
  unfold cmdEcho
  simp only [h1, h2, Bool.false_eq_true, if_false]
  rfl

theorem sep_blank {b : Char} (hb : b = ' ' ∨ b = '\t') : Blank b := by rcases hb with rfl | rfl <;> decide

theorem kept_sep {b : Char} (hb : Blank b) {t : List Char} {as : List (List Char)} (h : Kept t as) : Kept (b :: t) as := by
  cases h with
  | nil hw => exact .nil (by intro d hd; rcases List.mem_cons.1 hd with rfl | hd; exact hb; exact hw d hd)
  | cons hw hx hs ht =>
    rw [← List.cons_append]
    exact .cons (by intro d hd; rcases List.mem_cons.1 hd with rfl | hd; exact hb; exact hw d hd) hx hs ht

/-- Two characters fold to the same. -/
theorem fold_head {c : Char} {u : List Char} {d : Char} {v : List Char} (h : fold (c :: u) = d :: v) : c.toLower = d := by
  unfold fold at h
  simp only [List.map_cons, List.cons.injEq] at h
  exact h.1

/-! ### The property -/

/-- `ECHO.` writes any text, empty or not, and a new line: it is enough to escape what is special to the interpreter.  Any mark of
punctuation does. -/
theorem C66_dot (c : Ctx) (q : Char → Bool) (hqc : q '^' = true) (hqp : q '%' = true) (hqe : q '!' = true) (m : EchoMsgs) (on : Bool)
    (p : Char) (hp : ispunct p = true) (t : List Char) :
    cmdEcho c.ex m on (p :: escape q t) = .ok ⟨on, t ++ ['\n'], 0⟩ := by
  unfold cmdEcho
  rw [if_neg (by simp [glued, hp])]
  simp only [hp, if_true, Ctx.ex, delayedExpand_escape c.delayed c.loops c.mods c.getv hqc hqp hqe, Res.ok_bind]

/-- `ECHO text` writes the text, all the blanks after the first included, for any text that begins, blanks apart, with an ordinary
character other than `o`.  Partial: see `C66_words_partial` for the texts that begin with `o`, a quote or a slash. -/
theorem C66_text_partial (c : Ctx) (hv : ∀ n, ∃ v, c.getv n = .ok v) (q : Char → Bool) (hqc : q '^' = true) (hqp : q '%' = true)
    (hqe : q '!' = true) (m : EchoMsgs) (on : Bool) (b : Char) (hb : b = ' ' ∨ b = '\t') (w r : List Char) (d : Char)
    (hw : ∀ x ∈ w, Blank x ∧ q x = false) (hd : Ordinary d) (ho : d.toLower ≠ 'o') (hq : q d = false) :
    cmdEcho c.ex m on (b :: escape q (w ++ d :: r)) = .ok ⟨on, w ++ d :: r ++ ['\n'], 0⟩ := by
  have hk := delayedExpand_keeps c.delayed c.loops c.mods c.getv hv
  have he : escape q (w ++ d :: r) = w ++ d :: escape q r := by
    clear hd ho
    induction w with
    | nil => simp [escape, hq]
    | cons x w ih =>
      have h1 := (hw x (by simp)).2
      simp [escape, h1, ih (fun y hy => hw y (by simp [hy]))]
  obtain ⟨u, rest, hn⟩ := first_char (w := b :: w) (r := escape q r) hk (by
    intro x hx
    rcases List.mem_cons.1 hx with rfl | hx
    · exact sep_blank hb
    · exact (hw x hx).1) hd
  obtain ⟨p2, hp2⟩ := nextParam_total (delayedExpand_total c.delayed c.loops c.mods c.getv hv) rest
  rw [List.cons_append, ← he] at hn
  rw [echo_line hb]
  simp only [Ctx.ex] at *
  rw [hn]
  simp only [Res.ok_bind]
  rw [hp2]
  simp only [Res.ok_bind]
  rw [echoWord_said (.inr ⟨?_, ?_, ?_⟩) (delayedExpand_escape c.delayed c.loops c.mods c.getv hqc hqp hqe _)]
  · intro h; exact ho (fold_head h)
  · intro h; exact ho (fold_head h)
  · intro h
    rw [show "/?".toList = ['/', '?'] from rfl, List.cons.injEq] at h
    have := hd.2
    rw [h.1] at this
    simp at this

/-- `ECHO text` writes the text, its special characters resolved, when it is made of words and quoted words that are not just one of ON,
OFF and the sign for help.  Partial: other texts are covered by `C66_text_partial` and `C66_dot` only. -/
theorem C66_words_partial (c : Ctx) (q : Char → Bool) (hqq : q '"' = true) (hqc : q '^' = true) (hqp : q '%' = true)
    (hqe : q '!' = true) (m : EchoMsgs) (on : Bool) (b : Char) (hb : b = ' ' ∨ b = '\t') (line s : List Char) (as : List (List Char))
    (hl : ParamLine q line as) (hne : as ≠ [])
    (hs : ∀ a, as = [a] → fold a ≠ "on".toList ∧ fold a ≠ "off".toList ∧ a ≠ "/?".toList) (hex : c.ex line = .ok s) :
    cmdEcho c.ex m on (b :: line) = .ok ⟨on, s ++ ['\n'], 0⟩ := by
  have hkept := kept_sep (sep_blank hb) (kept_line hqq hqc hqp hqe hl)
  rcases kept_next c hkept with ⟨e, -⟩ | ⟨a, as', t, e, hn, hk, -⟩
  · exact absurd e hne
  · rw [echo_line hb, hn]
    simp only [Res.ok_bind]
    rcases kept_next c hk with ⟨e', hn'⟩ | ⟨a', as'', t', e', hn', -, -⟩
    · rw [hn']
      simp only [Res.ok_bind]
      obtain ⟨h1, h2, h3⟩ := hs a (by rw [e, e'])
      exact echoWord_said (.inr ⟨h2, h1, h3⟩) hex
    · rw [hn']
      simp only [Res.ok_bind]
      exact echoWord_said (.inl rfl) hex

/-- `ECHO OFF` and `ECHO ON`, in any case and among any blanks, switch the echo and write nothing. -/
theorem C66_switch (c : Ctx) (q : Char → Bool) (hqq : q '"' = true) (hqc : q '^' = true) (hqp : q '%' = true)
    (hqe : q '!' = true) (m : EchoMsgs) (on : Bool) (b : Char) (hb : b = ' ' ∨ b = '\t') (line a : List Char) (hl : ParamLine q line [a]) :
    (fold a = "off".toList → cmdEcho c.ex m on (b :: line) = .ok ⟨false, [], 0⟩) ∧
    (fold a = "on".toList → cmdEcho c.ex m on (b :: line) = .ok ⟨true, [], 0⟩) := by
  have hkept := kept_sep (sep_blank hb) (kept_line hqq hqc hqp hqe hl)
  rcases kept_next c hkept with ⟨e, -⟩ | ⟨a', as', t, e, hn, hk, -⟩
  · simp at e
  · simp only [List.cons.injEq] at e
    obtain ⟨rfl, rfl⟩ := e
    rcases kept_next c hk with ⟨-, hn'⟩ | ⟨a'', as'', t', e', -, -, -⟩
    · rw [echo_line hb, hn]
      simp only [Res.ok_bind]
      rw [hn']
      simp only [Res.ok_bind]
      refine ⟨fun h => ?_, fun h => ?_⟩
      · unfold echoWord
        rw [if_pos ⟨stricmp_zero.2 h, rfl⟩]
      · unfold echoWord
        rw [if_neg (fun h' => ?_), if_pos ⟨stricmp_zero.2 h, rfl⟩]
        have := stricmp_zero.1 h'.1
        rw [h] at this
        revert this
        decide
    · simp at e'

/-- ECHO without text tells whether the echo is on, and leaves it so. -/
theorem C66_state (ex : List Char → Res (List Char)) (m : EchoMsgs) (on : Bool) (w : List Char) (hw : ∀ c ∈ w, c = ' ' ∨ c = '\t') :
    cmdEcho ex m on w = .ok ⟨on, (if on then m.isOn else m.isOff) ++ ['\n'], 0⟩ := by
  cases w with
  | nil => rfl
  | cons b w =>
    rw [echo_line (hw b (by simp)), nextParam_nil]
    · rfl
    · have := skipBlanks_append (w := b :: w) (s := []) (fun c hc => sep_blank (hw c hc))
      rw [List.append_nil] at this
      rw [this]; rfl

/-- Anything glued to the name, marks of punctuation apart, is not this command: nothing is written and the status is that of unknown
commands. -/
theorem C66_glued (ex : List Char → Res (List Char)) (m : EchoMsgs) (on : Bool) (c : Char) (s : List Char) (h1 : c ≠ ' ') (h2 : c ≠ '\t')
    (h3 : ispunct c = false) : cmdEcho ex m on (c :: s) = .ok ⟨on, [], 3⟩ := by
  unfold cmdEcho
  rw [if_pos (by simp [glued, h1, h2, h3])]

/-! ### Violations -/

/-- A text in quotes is not written if what the quotes enclose is `on` or `off`: the echo is switched. -/
theorem C66_quoted (c : Ctx) (m : EchoMsgs) (on : Bool) (w a : List Char) (hw : ∀ x ∈ w, Blank x) (h : fold a = "off".toList) :
    cmdEcho c.ex m on (' ' :: (w ++ '"' :: (a ++ ['"']))) = .ok ⟨false, [], 0⟩ := by
  let q : Char → Bool := fun c => c == '"' || c == '^' || c == '%' || c == '!'
  have he : escape q a = a := by
    apply escape_none
    intro x hx
    have hm : x.toLower ∈ fold a := List.mem_map_of_mem hx
    rw [h] at hm
    cases hq : q x with
    | false => rfl
    | true =>
      exfalso
      simp only [q, Bool.or_eq_true, beq_iff_eq] at hq
      rcases hq with ((rfl | rfl) | rfl) | rfl <;> revert hm <;> decide
  have hl : ParamLine q (w ++ '"' :: (escape q a ++ ['"'])) [a] := .last hw .quoted
  rw [he] at hl
  exact (C66_switch c q (by decide) (by decide) (by decide) (by decide) m on ' ' (.inl rfl) _ a hl).1 h

/-- Commas and semicolons are not written when there is nothing else. -/
theorem C66_comma (ex : List Char → Res (List Char)) (m : EchoMsgs) (on : Bool) (w : List Char) (hw : ∀ c ∈ w, Blank c) :
    cmdEcho ex m on (' ' :: w) = .ok ⟨on, (if on then m.isOn else m.isOff) ++ ['\n'], 0⟩ := by
  rw [echo_line (.inl rfl), nextParam_nil]
  · rfl
  · have := skipBlanks_append (w := ' ' :: w) (s := []) (fun c hc => by
      rcases List.mem_cons.1 hc with rfl | hc
      · decide
      · exact hw c hc)
    rw [List.append_nil] at this
    rw [this]; rfl

/-! ### Examples -/

def echoQuote : Char → Bool := fun c => ['"', '^', '%', '!', '&', '|', '<', '>'].contains c
def echoCtx : Ctx := ⟨true, fun _ => none, fun _ _ _ => [], fun _ => .ok (some "v".toList)⟩
def echoTexts : EchoMsgs := ⟨"help".toList, "ON.".toList, "OFF.".toList⟩

example : cmdEcho echoCtx.ex echoTexts true (' ' :: escape echoQuote "  50% & more! ".toList) = .ok ⟨true, "  50% & more! \n".toList, 0⟩ := by
  exact C66_text_partial echoCtx (fun _ => ⟨_, rfl⟩) echoQuote (by decide) (by decide) (by decide) echoTexts true ' ' (.inl rfl) "  ".toList
    "0% & more! ".toList '5' (by decide) (by decide) (by decide) (by decide)

example : ParamLine echoQuote "on and off".toList ["on".toList, "and".toList, "off".toList] :=
  .cons (w := []) (x := "on".toList) (b := ' ') (rest := "and off".toList) (by decide)
    (.word (by decide) (by decide) (by decide) (by decide)) (by decide)
    (.cons (w := []) (x := "and".toList) (b := ' ') (rest := "off".toList) (by decide)
      (.word (by decide) (by decide) (by decide) (by decide)) (by decide)
      (.last (w := []) (by decide) (.word (by decide) (by decide) (by decide) (by decide))))

example : ParamLine echoQuote " Off ".toList ["Off".toList] :=
  .cons (w := " ".toList) (x := "Off".toList) (b := ' ') (rest := []) (by decide)
    (.word (by decide) (by decide) (by decide) (by decide)) (by decide) (.none (by decide))

end PBat
