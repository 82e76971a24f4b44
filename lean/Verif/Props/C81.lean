import Verif.Lemmas.Startup
import Verif.Props.C28
/-
C81: the command line of the interpreter.
-/
namespace PBat
open Spec

/-- What modes written before anything else come to; `q` is the quiet mode.  Delayed expansion is on if it is asked for, and if it is not
(`C81_delayed`). -/
def StartedWith (s : Startup) (lss : List (List Char)) : Prop :=
  s.delayed = true ∧ s.echo = !decide (ModeAsked 'e' lss) ∧ s.cmdly = decide (ModeAsked 'c' lss) ∧
    (∀ ls, lss = [ls] → s.quiet = decide (ModeAsked 'q' lss)) ∧ (lss = [] → s.quiet = false)

theorem startedWith_modes (lss : List (List Char)) : StartedWith (modesOf {} lss) lss ∧
    (modesOf {} lss).command = none ∧ (modesOf {} lss).exits = true ∧ (modesOf {} lss).file = none := by
  obtain ⟨b, h1, h2, h3⟩ := modesOf_eq lss {}
  rw [h2]
  refine ⟨⟨by simp, by simp, by simp, ?_, ?_⟩, rfl, rfl, rfl⟩
  · rintro ls rfl
    exact h1 ls rfl
  · exact fun h => h3 h

/-- A script and its arguments, after any modes: the script is run with exactly these arguments, whatever they are (also if they look like
switches), in the modes asked for, and no command is run; `//` allows any name.  Partial: an absolute path without `//` (`C81_absolute`,
`C81_absolute_modes`), the quiet mode with several `/A` (`C81_quiet`). -/
theorem C81_script_partial (var : Option (List Char)) (exe file : List Char) (ws lss as : List (List Char)) (h : ModesWords ws lss)
    (hne : file ≠ []) (stop : List (List Char)) (hs : stop = [] ∧ file.head? ≠ some '/' ∨ stop = [['/', '/']]) :
    ∃ s, startup var (exe :: (ws ++ stop ++ file :: as)) = .run s ∧ s.file = some (file, as) ∧ s.command = none ∧ s.exits = true ∧
      StartedWith s lss := by
  obtain ⟨h1, h2, h3, h4⟩ := startedWith_modes lss
  refine ⟨{ modesOf {} lss with file := some (file, as) }, ?_, rfl, h2, h3, h1⟩
  rw [startup, List.append_assoc, getParameters_modes var h]
  rcases hs with ⟨rfl, hf⟩ | rfl
  · exact getParameters_file var true _ file as hne fun _ => hf
  · show getParameters var true _ (['/', '/'] :: file :: as) = _
    rw [getParameters_end]
    exact getParameters_file var false _ file as hne (by simp)

/-- What the script then finds: `%0` is its path, `%1`, …, `%9` the arguments.  Partial: the arguments after the ninth as in C28. -/
theorem C81_arguments_partial (find : List Char → Option (List Char)) {file p : List Char} (as : List (List Char)) (hf : find file = some p)
    (hpass : ∀ a ∈ as.drop 9, Passable a) : ∃ b, startupArgs find file as = some (.ok b) ∧ ArgsAre b (p :: as) := by
  obtain ⟨b, b', h1, -, h2, -⟩ := C28_start_partial (q := fun c => c == '"' || c == '^' || c == '%' || c == '!') (by decide) (by decide) (by decide)
    (by decide) p as hpass [] [] .nil (by simp)
  exact ⟨b, by simp [startupArgs, hf, h1], h2⟩

/-- `/C` or `/K` (in any case, after any modes) with the words of a command: the text run is a command line with exactly these words, whatever
has to be escaped (`q`), and the interpreter ends after `/C` and goes on after `/K`.  Partial: words that are not plain (`C81_empty`,
`C81_comma`), a whole command given as one word (`C81_whole`). -/
theorem C81_command_partial (var : Option (List Char)) (exe : List Char) (ws lss : List (List Char)) (h : ModesWords ws lss)
    {q : Char → Bool} {k : Char} (hk : k.toLower = 'k' ∨ k.toLower = 'c') {name : List Char} {as : List (List Char)} (hn : name ≠ ['@'])
    (ha : name.head? ≠ some '@') (hp : ∀ a ∈ name :: as, PlainWord q a) :
    ∃ s text tail, startup var (exe :: (ws ++ ['/', k] :: name :: as)) = .run s ∧ s.command = some text ∧ CommandLine q text name tail as ∧
      s.exits = decide (k.toLower = 'c') ∧ s.file = none ∧ StartedWith s lss := by
  obtain ⟨h1, h2, h3, h4⟩ := startedWith_modes lss
  have hku : k.toUpper = 'K' ↔ k.toLower = 'k' := upper_lower k 'k'
  have hcu : k.toUpper = 'C' ↔ k.toLower = 'c' := upper_lower k 'c'
  refine ⟨{ modesOf {} lss with exits := if k.toUpper = 'K' then false else (modesOf {} lss).exits, command := some (joinCommand (name :: as)) },
    joinCommand (name :: as), ' ' :: joinCommand as, ?_, rfl, ?_, ?_, h4, h1⟩
  · rw [startup, getParameters_modes var h]
    exact getParameters_command var _ k [] name as (by rw [hku, hcu]; exact hk) h2 hn
  · have hline := joinCommand_line (q := q) (ws := as) (fun a ha => .inr (hp a (by simp [ha]))) (w := [' ']) (by simp [Blank])
    have hf : as.filter (· ≠ []) = as := by
      rw [List.filter_eq_self]
      intro a ha
      simpa using (hp a (by simp [ha])).1
    rw [hf] at hline
    have hw := putWord_written (hp name (by simp))
    have := CommandLine.intro (q := q) (lead := []) (by simp) hw (by
      unfold putWord
      split
      · simp
      · exact ha) (.inr ⟨' ', joinCommand as, rfl, .inl rfl⟩) hline
    exact this
  · show (if k.toUpper = 'K' then false else (modesOf {} lss).exits) = _
    rw [h3]
    rcases hk with hk | hk
    · rw [if_pos (hku.2 hk), hk]; rfl
    · rw [if_neg (by rw [hku, hk]; decide), hk]; rfl

/-- The command of the variable `__PBAT_COMMAND__`: it is run as it is, and what follows is the script. -/
theorem C81_variable (v exe file : List Char) (as : List (List Char)) (hne : file ≠ []) (hf : file.head? ≠ some '/') :
    startup (some v) (exe :: ['/', 'k'] :: ['@'] :: file :: as) =
      .run { command := some v, exits := false, file := some (file, as) } := by
  show getParameters (some v) true {} (['/', 'k'] :: ['@'] :: file :: as) = _
  rw [getParameters.eq_2, if_pos ⟨rfl, rfl⟩]
  simp only [List.drop_succ_cons, List.drop_zero]
  rw [if_neg (by decide), if_pos (by decide), if_pos trivial]
  show getParameters (some v) true _ (file :: as) = _
  rw [getParameters_file _ _ _ _ _ hne fun _ => hf]
  rfl

/-- Violation: a script given by an absolute path is refused, unless it begins with one of the letters of a switch. -/
theorem C81_absolute (var : Option (List Char)) (exe : List Char) (c : Char) (t : List Char) (as : List (List Char))
    (hc : c.toLower ≠ 'a' ∧ c.toLower ≠ 'k' ∧ c.toLower ≠ 'c' ∧ c ≠ '?' ∧ c ≠ '/') : startup var (exe :: ('/' :: c :: t) :: as) = .bad := by
  obtain ⟨h1, h2, h3, h4, h5⟩ := hc
  have ha : c.toUpper ≠ 'A' := fun h => h1 ((upper_lower c 'a').1 h)
  have hk : c.toUpper ≠ 'K' := fun h => h2 ((upper_lower c 'k').1 h)
  have hcc : c.toUpper ≠ 'C' := fun h => h3 ((upper_lower c 'c').1 h)
  rw [startup, getParameters.eq_2, if_pos ⟨rfl, rfl⟩]
  simp only [List.drop_succ_cons, List.drop_zero]
  rw [if_neg ha, if_neg (by rintro (h | h); exact hk h; exact hcc h), if_neg h4, if_neg h5]

/-- Violation: a script given by an absolute path that begins with `a` is not run: it is taken for modes, and its arguments for a script. -/
theorem C81_absolute_modes (var : Option (List Char)) (exe : List Char) (c : Char) (t file : List Char) (as : List (List Char)) (hc : c.toLower = 'a')
    (hne : file ≠ []) (hf : file.head? ≠ some '/') :
    ∃ s, startup var (exe :: ('/' :: c :: t) :: file :: as) = .run s ∧ s.file = some (file, as) := by
  have ha : c.toUpper = 'A' := (upper_lower c 'a').2 hc
  refine ⟨{ initModes {} t with file := some (file, as) }, ?_, rfl⟩
  rw [startup, getParameters.eq_2, if_pos ⟨rfl, rfl⟩]
  simp only [List.drop_succ_cons, List.drop_zero]
  rw [if_pos ha, getParameters_file _ _ _ _ _ hne fun _ => hf]

/-- Violation: the documented switches for redirections are refused. -/
theorem C81_redirections (var : Option (List Char)) (exe : List Char) (as : List (List Char)) :
    startup var (exe :: ['/', 'i'] :: as) = .bad ∧ startup var (exe :: ['/', 'o'] :: as) = .bad :=
  ⟨C81_absolute var exe 'i' [] as (by decide), C81_absolute var exe 'o' [] as (by decide)⟩

/-- Violation: the quiet mode is lost if other modes follow. -/
theorem C81_quiet (var : Option (List Char)) (exe : List Char) (as : List (List Char)) (s : Startup)
    (h : startup var (exe :: ['/', 'a', ':', 'q'] :: ['/', 'a', ':', 'e'] :: ['x'] :: as) = .run s) : s.quiet = false := by
  have hw : ModesWords [['/', 'a', ':', 'q'], ['/', 'a', ':', 'e']] [['q'], ['e']] := .cons (.colon (.inl rfl)) (.cons (.colon (.inl rfl)) .nil)
  have e : exe :: ['/', 'a', ':', 'q'] :: ['/', 'a', ':', 'e'] :: ['x'] :: as = exe :: ([['/', 'a', ':', 'q'], ['/', 'a', ':', 'e']] ++ ['x'] :: as) := rfl
  rw [e, startup, getParameters_modes var hw, getParameters_file var true _ _ _ (by decide) (by decide)] at h
  cases h
  rfl

/-- Violation: empty words are lost. -/
theorem C81_empty (c : Ctx) {q : Char → Bool} (hq : q '"' = true) (hc : q '^' = true) (hp : q '%' = true) (he : q '!' = true)
    (ws : List (List Char)) (h : ∀ a ∈ ws, a = [] ∨ PlainWord q a) :
    allParams stdDelims c.ex (joinCommand ws) = .ok (ws.filter (· ≠ [])) :=
  allParams_kept c (kept_line hq hc hp he (joinCommand_line h (w := []) (by simp)))

/-- Violation: a word with a comma comes as two. -/
theorem C81_comma (c : Ctx) {q : Char → Bool} (hq : q '"' = true) (hc : q '^' = true) (hp : q '%' = true) (he : q '!' = true)
    {a b : List Char} (ha : PlainWord q a) (hb : PlainWord q b) (hs : ∀ x ∈ a ++ b, ¬ Blank x) :
    allParams stdDelims c.ex (joinCommand [a ++ ',' :: b]) = .ok [a, b] := by
  have key : ∀ x : List Char, PlainWord q x → (∀ d ∈ x, ¬ Blank d) → Written q x x := fun x hx hbx =>
    .word hx.1 hbx (fun hm => (hx.2.1 _ hm).2 rfl) fun d hd => (hx.2.1 d hd).1
  have hany : (a ++ ',' :: b).any (fun c => c == ' ' || c == '\t' || c == '\n') = false := by
    rw [Bool.eq_false_iff]
    intro h
    obtain ⟨d, hd, hbd⟩ := (blankChar_iff _).1 h
    have hne : d ≠ ',' := by rintro rfl; revert hbd; decide
    have hd' : d ∈ a ++ b := by
      simp only [List.mem_append, List.mem_cons] at hd ⊢
      rcases hd with hd | rfl | hd
      · exact .inl hd
      · exact absurd rfl hne
      · exact .inr hd
    refine hs d hd' ?_
    rcases hbd with h | h | h
    · exact .inl h
    · exact .inr (.inl h)
    · exact .inr (.inr (.inr (.inr h)))
  have e : joinCommand [a ++ ',' :: b] = a ++ ',' :: (b ++ ' ' :: []) := by simp [joinCommand, hany]
  rw [e]
  apply allParams_kept c
  apply kept_line hq hc hp he
  have h2 := ParamLine.cons (w := []) (by simp) (key b hb fun d hd => hs d (by simp [hd])) (.inl rfl : Blank ' ')
    (ParamLine.none (q := q) (w := []) (by simp))
  have h1 := ParamLine.cons (w := []) (by simp) (key a ha fun d hd => hs d (by simp [hd])) (.inr (.inr (.inl rfl)) : Blank ',') h2
  simpa using h1

/-- Violation: a command given as one word, such as `/C "echo a b"`, is not run as a command line: its name is the whole text. -/
theorem C81_whole (c : Ctx) {q : Char → Bool} (hq : q '"' = true) (hc : q '^' = true) (hp : q '%' = true) (he : q '!' = true)
    {a : List Char} (ha : PlainWord q a) : allParams stdDelims c.ex (joinCommand [a]) = .ok [a] := by
  rw [C81_empty c hq hc hp he [a] (by simp [ha])]
  simp [ha.1]

/-- What is refused, after any modes: a slash alone, `/C` or `/K` at the end, a second `/C` or `/K`. -/
theorem C81_refused (var : Option (List Char)) (exe : List Char) (ws lss : List (List Char)) (h : ModesWords ws lss) {k k' : Char}
    (hk : k.toLower = 'k' ∨ k.toLower = 'c') (hk' : k'.toLower = 'k' ∨ k'.toLower = 'c') (as : List (List Char)) :
    startup var (exe :: (ws ++ ['/'] :: as)) = .bad ∧ startup var (exe :: (ws ++ [['/', k]])) = .bad ∧
      startup var (exe :: (ws ++ ['/', k] :: ['@'] :: ['/', k'] :: as)) = .bad := by
  have key : ∀ k : Char, k.toLower = 'k' ∨ k.toLower = 'c' → k.toUpper ≠ 'A' ∧ (k.toUpper = 'K' ∨ k.toUpper = 'C') := by
    intro k hk
    have h : k.toUpper = 'K' ∨ k.toUpper = 'C' := hk.imp (upper_lower k 'k').2 (upper_lower k 'c').2
    exact ⟨by rcases h with h | h <;> rw [h] <;> decide, h⟩
  refine ⟨?_, ?_, ?_⟩
  · rw [startup, getParameters_modes var h, getParameters.eq_2, if_pos ⟨rfl, rfl⟩]
    rfl
  · rw [startup, getParameters_modes var h, getParameters.eq_2, if_pos ⟨rfl, rfl⟩]
    simp only [List.drop_succ_cons, List.drop_zero]
    rw [if_neg (key k hk).1, if_pos (key k hk).2]
  · obtain ⟨-, h2, -, -⟩ := startedWith_modes lss
    rw [startup, getParameters_modes var h, getParameters.eq_2, if_pos ⟨rfl, rfl⟩]
    simp only [List.drop_succ_cons, List.drop_zero]
    rw [if_neg (key k hk).1, if_pos (key k hk).2, if_neg (by rw [h2]; decide), if_pos trivial]
    rw [getParameters.eq_2, if_pos ⟨rfl, rfl⟩]
    simp only [List.drop_succ_cons, List.drop_zero]
    rw [if_neg (key k' hk').1, if_pos (key k' hk').2]
    cases as <;> rfl

/-- Violation: delayed expansion cannot be off at the beginning: the letter `v`, that is said to enable it, changes nothing. -/
theorem C81_delayed (var : Option (List Char)) (exe : List Char) (as : List (List Char)) (s : Startup)
    (h : startup var (exe :: as) = .run s) : s.delayed = true :=
  getParameters_delayed var as true {} rfl s h

/-- `/?` after any modes shows the help. -/
theorem C81_help (var : Option (List Char)) (exe : List Char) (ws lss : List (List Char)) (h : ModesWords ws lss) (t : List Char)
    (as : List (List Char)) : startup var (exe :: (ws ++ ('/' :: '?' :: t) :: as)) = .help := by
  rw [startup, getParameters_modes var h, getParameters.eq_2, if_pos ⟨rfl, rfl⟩]
  simp only [List.drop_succ_cons, List.drop_zero]
  rw [if_neg (by decide), if_neg (by decide), if_pos trivial]

/-- `/C @` without the variable runs the empty command, and ends. -/
theorem C81_variable_missing (exe : List Char) : startup none (exe :: ['/', 'c'] :: [['@']]) = .run { command := some [] } := rfl

/-- After an empty word a file may begin with a slash. -/
theorem C81_empty_word (var : Option (List Char)) (exe : List Char) (ws lss : List (List Char)) (h : ModesWords ws lss) (file : List Char)
    (hne : file ≠ []) (as : List (List Char)) :
    ∃ s, startup var (exe :: (ws ++ [] :: file :: as)) = .run s ∧ s.file = some (file, as) ∧ s.command = none ∧ StartedWith s lss := by
  obtain ⟨h1, h2, h3, h4⟩ := startedWith_modes lss
  refine ⟨{ modesOf {} lss with file := some (file, as) }, ?_, rfl, h2, h1⟩
  rw [startup, getParameters_modes var h, getParameters.eq_2, if_neg (by simp), if_pos rfl]
  exact getParameters_file var false _ file as hne (by simp)

/-! ### Examples -/

example : startup none ["pbat".toList, "/a:q".toList, [], "/home/me/x.bat".toList] =
    .run { quiet := true, file := some ("/home/me/x.bat".toList, []) } := by decide +kernel

example : startup none ["pbat".toList, "/a:qe".toList, "x.bat".toList, "/c".toList, "a b".toList] =
    .run { quiet := true, echo := false, file := some ("x.bat".toList, ["/c".toList, "a b".toList]) } := by decide +kernel

example : ModesWords ["/a:qe".toList, "/Av".toList] ["qe".toList, "v".toList] :=
  .cons (.colon (.inl rfl)) (.cons (.plain (.inr rfl) (by decide)) .nil)

example : startup none ["pbat".toList, "/k".toList, "echo".toList, "a b".toList, "c".toList] =
    .run { exits := false, command := some "echo \"a b\" c ".toList } := by decide +kernel

example : PlainWord (fun c => c == '"' || c == '^' || c == '%' || c == '!') "a, b".toList := by decide +kernel

example : startup none ["pbat".toList, "/home/me/x.bat".toList] = .bad := by decide +kernel

end PBat
