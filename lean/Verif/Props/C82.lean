import Verif.Lemmas.Start
import Verif.Props.C81
/-
C82: START.
-/
namespace PBat
open Spec

variable {W : Type}

/-- The thing to be started: the text from it on, its name and its arguments; the name is not taken for a title. -/
structure StartsThing (q : Char → Bool) (is : List StartItem) (rest name : List Char) (as : List (List Char)) : Prop where
  words : ∃ w x tail, rest = w ++ (x ++ tail) ∧ (∀ c ∈ w, Blank c) ∧ Written q x name ∧ Stops tail ∧ ParamLine q tail as ∧
    (x.head? = some '"' → ∃ t, .title t ∈ is)
  noSwitch : NoSwitch name

theorem startScan_thing {q : Char → Bool} (hq : q '"' = true) (hc : q '^' = true) (hp : q '%' = true) (he : q '!' = true) (c : Ctx)
    (e : StartEnv W) (hex : e.ex = c.ex) {line rest name : List Char} {is : List StartItem} {as : List (List Char)} (h : StartLine q line is rest)
    (ho : OnceEach is) (ht : StartsThing q is rest name as) :
    startScan e {} line = startTarget e (startFlags e.full {} is) name rest ∧ Kept rest (name :: as) := by
  obtain ⟨⟨w, x, tail, rfl, h1, h2, h3, h4, h5⟩, hn⟩ := ht
  have hr := readsAs_written hq hc hp he h2
  refine ⟨?_, .cons h1 hr h3 (kept_line hq hc hp he h4)⟩
  rw [startScan_items hq hc hp he c e hex h {} (by simpa using ho.1) (by simpa using ho.2)]
  have hn' := hr c w tail h1 h3
  rw [startScan_other c e hex _ hn' hn, if_neg]
  rintro ⟨g1, g2⟩
  obtain ⟨d, r, rfl, hd⟩ := written_begins h2
  rw [skipBlanks_append h1, List.cons_append, skipBlanks_stop hd] at g1
  obtain ⟨t, htt⟩ := h5 (by simpa using g1)
  exact ((startFlags_title _ _ _).1 g2).2 t htt

theorem dirAsked_flags (full : List Char → List Char) (cur : List Char) {is : List StartItem} (ho : OnceEach is) {d : List Char}
    (hd : DirAsked full cur is d) : (startFlags full {} is).dir.getD cur = d := by
  have g := startFlags_dir full is {} ho.1
  rcases hd with ⟨v, g1, g2⟩ | ⟨g1, g2⟩ <;> rcases g with ⟨v', k1, k2⟩ | ⟨k1, k2⟩
  · rw [k2, g2, onlyDir is ho.1 g1 k1]; rfl
  · exact absurd g1 (k1 v)
  · exact absurd k1 (g1 v')
  · rw [k2, g2]; rfl

theorem startUri_iff (t : List Char) : startUri t = true ↔ Uri t := by
  simp only [startUri, Bool.and_eq_true, decide_eq_true_eq, ne_eq, List.contains_iff_mem, Uri]
  constructor
  · exact fun h => ⟨h.2, h.1.2⟩
  · exact fun h => ⟨⟨by rintro rfl; simp at h, h.2⟩, h.1⟩

/-- How a file is run in the end: in a new window if there is none of `/B` and a start script exists. -/
theorem startFileRun_kept (c : Ctx) (e : StartEnv W) (hex : e.ex = c.ex) (f : StartFlags) (file : List Char) {text all : List Char}
    {a : List Char} {as : List (List Char)} (hk : Kept text (a :: as)) (hst : ∀ x ∈ a :: as, Still x) (hall : c.ex text = .ok all) (w : W) :
    startFileRun e f file text w = .ok (.ran (executeFile e.os e.start f.sep f.wait ⟨file, a :: as, f.dir.getD e.dir⟩ w).1
      (executeFile e.os e.start f.sep f.wait ⟨file, a :: as, f.dir.getD e.dir⟩ w).2.1
      (executeFile e.os e.start f.sep f.wait ⟨file, a :: as, f.dir.getD e.dir⟩ w).2.2) := by
  unfold startFileRun
  rw [hex, hall]
  simp only [Res.ok_bind, paramList_kept c hk, expandAll_still c hst]

theorem executeFile_ends (e : StartEnv W) (f : StartFlags) (q : ExecReq) (hs : f.sep = false ∨ e.start = none) (w w' : W) (n : Nat)
    (hos : e.os q w = (.ended (Ends.code n).status, w')) :
    executeFile e.os e.start f.sep f.wait q w = (if f.wait then ((n % 256 : Nat) : Int) else 0, false, w') := by
  have hst' : exitStatus (Ends.code n).status = n % 256 := by simp only [exitStatus, Ends.status]; omega
  unfold executeFile runFile
  rcases hs with hs | hs
  · simp only [hs, Bool.false_eq_true, if_false, hos, hst']
  · rw [hs]
    cases f.sep with
    | false => simp only [Bool.false_eq_true, if_false, hos, hst']
    | true => simp only [if_true, execAgain, runFile, Bool.false_eq_true, if_false, hos, hst', execReport]

/-- A program, after any switches and a title in any order and case: the system is asked once, to run exactly the file found (the one in the
current directory if none is found), with exactly the name and the arguments written, in the directory asked for; with `/W` its code is the
status, else 0.  Partial: with `/B` or without a start script (`C82_status`); arguments without caret, percent and exclamation marks
(`C82_twice`). -/
theorem C82_program_partial {q : Char → Bool} (hq : q '"' = true) (hc : q '^' = true) (hp : q '%' = true) (he : q '!' = true) (c : Ctx)
    (e : StartEnv W) (hex : e.ex = c.ex) {line rest name all : List Char} {is : List StartItem} {as : List (List Char)} (h : StartLine q line is rest)
    (ho : OnceEach is) (ht : StartsThing q is rest name as) (hst : ∀ a ∈ name :: as, Still a) (hall : c.ex rest = .ok all)
    (hin : e.table.lookup name = .ok none) (hu : ¬ Uri name) {file : List Char} (hfile : file = (e.find name).getD (e.full name))
    (hsp : ¬ ScriptPath file) (hlen : file.length < 4096) (hdr : ¬ HasDrive file) (hcar : '^' ∉ file)
    (hs : .back ∈ is ∨ e.start = none) (w w' : W) (n : Nat) {d : List Char} (hd : DirAsked e.full e.dir is d)
    (hos : e.os ⟨file, name :: as, d⟩ w = (.ended (Ends.code n).status, w')) :
    cmdStart e line w = .ok (.ran (if .wait ∈ is then ((n % 256 : Nat) : Int) else 0) false w') := by
  obtain ⟨h1, h2⟩ := startScan_thing hq hc hp he c e hex h ho ht
  obtain ⟨b, hb, hbs⟩ := isScript_iff file hlen hdr hcar
  have hb' : b = false := by cases b; rfl; exact absurd (hbs.1 rfl) hsp
  subst hb'
  have hu' : startUri name = false := by rw [Bool.eq_false_iff]; exact fun h => hu ((startUri_iff _).1 h)
  have hd' := dirAsked_flags e.full e.dir ho hd
  have hsep := sep_flags (full := e.full) hs
  unfold cmdStart
  rw [h1, startTarget, hin]
  simp only [Res.ok_bind, Option.isSome_none, Bool.false_eq_true, if_false, hu', startPath, ← hfile, hb]
  simp only [startDefault]
  rw [startFileRun_kept c e hex _ file h2 hst hall w, hd', executeFile_ends e _ _ hsep w w' n hos, startFlags_wait]
  simp

/-- What the system is asked when a file is run in the end. -/
theorem cmdStart_file (c : Ctx) (e : StartEnv W) (hex : e.ex = c.ex) {line file text all a : List Char} {as : List (List Char)} {f : StartFlags}
    (hscan : (startScan e {} line).bind (fun p => .ok (startDefault e p)) = .ok (.file f file text)) (hk : Kept text (a :: as))
    (hst : ∀ x ∈ a :: as, Still x) (hall : c.ex text = .ok all) (hs : f.sep = false ∨ e.start = none) (w w' : W) (n : Nat)
    (hos : e.os ⟨file, a :: as, f.dir.getD e.dir⟩ w = (.ended (Ends.code n).status, w')) :
    cmdStart e line w = .ok (.ran (if f.wait then ((n % 256 : Nat) : Int) else 0) false w') := by
  unfold cmdStart
  cases hsc : startScan e {} line with
  | ub => rw [hsc] at hscan; exact absurd hscan (by simp [Res.bind])
  | hang => rw [hsc] at hscan; exact absurd hscan (by simp [Res.bind])
  | ok p =>
    rw [hsc] at hscan
    have hp : startDefault e p = .file f file text := by simpa [Res.bind] using hscan
    simp only [Res.ok_bind, hp]
    rw [startFileRun_kept c e hex _ file hk hst hall w, executeFile_ends e _ _ hs w w' n hos]

/-- The path of the interpreter can be written as a word. -/
structure PlainExe (exe : List Char) : Prop where
  ne : exe ≠ []
  word : ∀ d ∈ exe, ¬ Blank d ∧ d ≠ '"'
  still : Still exe

/-- What the system is asked for a script. -/
theorem startScript_argv {q : Char → Bool} (hq : q '"' = true) (hc : q '^' = true) (hp : q '%' = true) (he : q '!' = true) (c : Ctx)
    (e : StartEnv W) (hex : e.ex = c.ex) {line rest name all : List Char} {is : List StartItem} {as : List (List Char)} (h : StartLine q line is rest)
    (ho : OnceEach is) (ht : StartsThing q is rest name as) (hst : ∀ a ∈ name :: as, Still a) (hall : c.ex (startShell e ++ ' ' :: rest) = .ok all)
    (hin : e.table.lookup name = .ok none) (hu : ¬ Uri name) {file : List Char} (hfile : file = (e.find name).getD (e.full name))
    (hsp : ScriptPath file) (hlen : file.length < 4096) (hdr : ¬ HasDrive file) (hcar : '^' ∉ file) (hexe : PlainExe e.exe)
    {d : List Char} (hd : DirAsked e.full e.dir is d) (w w' : W) (n : Nat) (hs : .back ∈ is ∨ e.start = none)
    (hos : e.os ⟨e.exe, e.exe :: ('/' :: 'a' :: ':' :: shellModes e) :: name :: as, d⟩ w = (.ended (Ends.code n).status, w')) :
    cmdStart e line w = .ok (.ran (if .wait ∈ is then ((n % 256 : Nat) : Int) else 0) false w') := by
  obtain ⟨h1, h2⟩ := startScan_thing hq hc hp he c e hex h ho ht
  obtain ⟨b, hb, hbs⟩ := isScript_iff file hlen hdr hcar
  have hb' : b = true := hbs.2 hsp
  subst hb'
  have hu' : startUri name = false := by rw [Bool.eq_false_iff]; exact fun h => hu ((startUri_iff _).1 h)
  have hkept := shell_kept c e hexe.ne hexe.word hexe.still (.inr ⟨' ', rest, rfl, .inl rfl⟩) (kept_blank h2)
  have := cmdStart_file c e hex (line := line) (file := e.exe) (text := startShell e ++ ' ' :: rest) (f := startFlags e.full {} is) (by
    rw [h1, startTarget, hin]
    simp only [Res.ok_bind, Option.isSome_none, Bool.false_eq_true, if_false, hu', startPath, ← hfile, hb, if_true]
    rfl) hkept (by
      intro x hx
      rcases List.mem_cons.1 hx with rfl | hx
      · exact hexe.still
      · rcases List.mem_cons.1 hx with rfl | hx
        · exact still_modes e
        · exact hst x hx) hall (sep_flags hs) w w' n (by
      rw [dirAsked_flags e.full e.dir ho hd]
      exact hos)
  rw [this, startFlags_wait]
  simp

/-- The modes of the new interpreter. -/
theorem shellState (e : StartEnv W) {s : Startup} (h : StartedWith s [shellModes e]) : s.quiet = true ∧ s.echo = e.echo ∧ s.cmdly = e.cmdly := by
  obtain ⟨-, s6, s7, s8, -⟩ := h
  obtain ⟨-, m2, m3, m4⟩ := shellModes_asked e
  refine ⟨?_, ?_, ?_⟩
  · rw [s8 _ rfl]; simpa using m4
  · rw [s6]
    cases hec : e.echo with
    | true =>
      have : ¬ ModeAsked 'e' [shellModes e] := fun hm => by simp [m2.1 hm] at hec
      simp [this]
    | false => simp [m2.2 hec]
  · rw [s7]
    cases hec : e.cmdly with
    | true => simp [m3.2 hec]
    | false =>
      have : ¬ ModeAsked 'c' [shellModes e] := fun hm => by simp [m3.1 hm] at hec
      simp [this]

/-- A script: a new interpreter is started once, in the directory asked for, and its command line makes it run exactly the script named with
exactly the arguments written (C81), quietly, with the echo and the compatibility of the present one.  Partial: a script named by a relative path
(`C82_absolute`), an interpreter installed at a path without blanks (`C82_exe`), arguments as in `C82_program_partial`. -/
theorem C82_script_partial {q : Char → Bool} (hq : q '"' = true) (hc : q '^' = true) (hp : q '%' = true) (he : q '!' = true) (c : Ctx)
    (e : StartEnv W) (hex : e.ex = c.ex) {line rest name all : List Char} {is : List StartItem} {as : List (List Char)} (h : StartLine q line is rest)
    (ho : OnceEach is) (ht : StartsThing q is rest name as) (hst : ∀ a ∈ name :: as, Still a) (hall : c.ex (startShell e ++ ' ' :: rest) = .ok all)
    (hin : e.table.lookup name = .ok none) (hu : ¬ Uri name) {file : List Char} (hfile : file = (e.find name).getD (e.full name))
    (hsp : ScriptPath file) (hlen : file.length < 4096) (hdr : ¬ HasDrive file) (hcar : '^' ∉ file) (hexe : PlainExe e.exe)
    (hne : name ≠ []) (hrel : name.head? ≠ some '/') (var : Option (List Char)) {d : List Char} (hd : DirAsked e.full e.dir is d) :
    ∃ argv s, startup var argv = .run s ∧ s.file = some (name, as) ∧ s.command = none ∧ s.quiet = true ∧ s.echo = e.echo ∧
      s.cmdly = e.cmdly ∧
      ∀ (w w' : W) (n : Nat), .back ∈ is ∨ e.start = none → e.os ⟨e.exe, argv, d⟩ w = (.ended (Ends.code n).status, w') →
        cmdStart e line w = .ok (.ran (if .wait ∈ is then ((n % 256 : Nat) : Int) else 0) false w') := by
  obtain ⟨s, s1, s2, s3, s4, s5⟩ := C81_script_partial var e.exe name _ _ as (shellModes_word e) hne [] (.inl ⟨rfl, hrel⟩)
  obtain ⟨t1, t2, t3⟩ := shellState e s5
  exact ⟨_, s, s1, s2, s3, t1, t2, t3, fun w w' n hs hos =>
    startScript_argv hq hc hp he c e hex h ho ht hst hall hin hu hfile hsp hlen hdr hcar hexe hd w w' n hs (by simpa using hos)⟩

/-- What the system is asked for a command of the interpreter. -/
theorem startCommand_argv {q : Char → Bool} (hq : q '"' = true) (hc : q '^' = true) (hp : q '%' = true) (he : q '!' = true) (c : Ctx)
    (e : StartEnv W) (hex : e.ex = c.ex) {line rest name all : List Char} {is : List StartItem} {as : List (List Char)} (h : StartLine q line is rest)
    (ho : OnceEach is) (ht : StartsThing q is rest name as) (hst : ∀ a ∈ name :: as, Still a)
    (hall : c.ex (startShell e ++ [' ', '/', 'C', ' '] ++ rest) = .ok all) {p : CmdEntry CmdBody} (hin : e.table.lookup name = .ok (some p))
    (hb : .back ∉ is) (hs : e.start = none) (hexe : PlainExe e.exe) {d : List Char} (hd : DirAsked e.full e.dir is d) (w w' : W) (n : Nat)
    (hos : e.os ⟨e.exe, e.exe :: ('/' :: 'a' :: ':' :: shellModes e) :: ['/', 'C'] :: name :: as, d⟩ w = (.ended (Ends.code n).status, w')) :
    cmdStart e line w = .ok (.ran (if .wait ∈ is then ((n % 256 : Nat) : Int) else 0) false w') := by
  obtain ⟨h1, h2⟩ := startScan_thing hq hc hp he c e hex h ho ht
  have hkc : Kept (' ' :: '/' :: 'C' :: ' ' :: rest) (['/', 'C'] :: name :: as) :=
    Kept.cons (w := [' ']) (x := ['/', 'C']) (by simp [Blank]) (reads_word c (by simp) (by decide) (by decide)) (.inr ⟨' ', rest, rfl, .inl rfl⟩)
      (kept_blank h2)
  have hkept := shell_kept c e hexe.ne hexe.word hexe.still (.inr ⟨' ', _, rfl, .inl rfl⟩) hkc
  have hsep : (startFlags e.full {} is).sep = true := by rw [startFlags_sep]; simp [hb]
  have := cmdStart_file c e hex (line := line) (file := e.exe) (text := startShell e ++ ' ' :: '/' :: 'C' :: ' ' :: rest) (f := startFlags e.full {} is) (by
    rw [h1, startTarget, hin]
    simp only [Res.ok_bind, Option.isSome_some, if_true, hsep]
    simp [Res.bind, startDefault]) hkept (by
      intro x hx
      rcases List.mem_cons.1 hx with rfl | hx
      · exact hexe.still
      · rcases List.mem_cons.1 hx with rfl | hx
        · exact still_modes e
        · rcases List.mem_cons.1 hx with rfl | hx
          · decide
          · exact hst x hx) (by simpa using hall) (.inr hs) w w' n (by
      rw [dirAsked_flags e.full e.dir ho hd]
      exact hos)
  rw [this, startFlags_wait]
  simp

/-- A command of the interpreter without `/B`: a new interpreter is started once, in the directory asked for, and its command line makes it run
a command line made of exactly the words written and end (C81).  Partial: plain words (`C82_command_words`), and as `C82_script_partial`. -/
theorem C82_command_partial {q : Char → Bool} (hq : q '"' = true) (hc : q '^' = true) (hp : q '%' = true) (he : q '!' = true) (c : Ctx)
    (e : StartEnv W) (hex : e.ex = c.ex) {line rest name all : List Char} {is : List StartItem} {as : List (List Char)} (h : StartLine q line is rest)
    (ho : OnceEach is) (ht : StartsThing q is rest name as) (hpl : ∀ a ∈ name :: as, PlainWord q a)
    (hall : c.ex (startShell e ++ [' ', '/', 'C', ' '] ++ rest) = .ok all) {p : CmdEntry CmdBody} (hin : e.table.lookup name = .ok (some p))
    (hat : name.head? ≠ some '@') (hb : .back ∉ is) (hs : e.start = none) (hexe : PlainExe e.exe) (var : Option (List Char)) {d : List Char}
    (hd : DirAsked e.full e.dir is d) :
    ∃ argv s text tail, startup var argv = .run s ∧ s.command = some text ∧ CommandLine q text name tail as ∧ s.exits = true ∧ s.file = none ∧
      s.quiet = true ∧ s.echo = e.echo ∧ s.cmdly = e.cmdly ∧
      ∀ (w w' : W) (n : Nat), e.os ⟨e.exe, argv, d⟩ w = (.ended (Ends.code n).status, w') →
        cmdStart e line w = .ok (.ran (if .wait ∈ is then ((n % 256 : Nat) : Int) else 0) false w') := by
  obtain ⟨s, text, tail, s1, s2, s3, s4, s5, s6⟩ := C81_command_partial var e.exe _ _ (shellModes_word e) (q := q) (k := 'C') (.inr (by decide)) (name := name)
    (as := as) (by rintro rfl; exact hat rfl) hat hpl
  obtain ⟨t1, t2, t3⟩ := shellState e s6
  have hstill : ∀ a ∈ name :: as, Still a := by
    intro a ha d hd
    have := (hpl a ha).2.1 d hd
    refine ⟨?_, ?_, ?_⟩ <;> rintro rfl <;> simp_all
  exact ⟨_, s, text, tail, s1, s2, s3, by rw [s4]; decide, s5, t1, t2, t3, fun w w' n hos =>
    startCommand_argv hq hc hp he c e hex h ho ht hstill hall hin hb hs hexe hd w w' n (by simpa using hos)⟩

/-- A command of the interpreter with `/B`: the text of the command, from its name on, is run in a thread, waited for with `/W`.  Partial: a text
without caret, percent and exclamation marks (`C82_thread_twice`). -/
theorem C82_thread_partial {q : Char → Bool} (hq : q '"' = true) (hc : q '^' = true) (hp : q '%' = true) (he : q '!' = true) (c : Ctx)
    (e : StartEnv W) (hex : e.ex = c.ex) {line rest name : List Char} {is : List StartItem} {as : List (List Char)} (h : StartLine q line is rest)
    (ho : OnceEach is) (ht : StartsThing q is rest name as) (hst : Still rest) (hsa : ∀ a ∈ name :: as, Still a)
    {p : CmdEntry CmdBody} (hin : e.table.lookup name = .ok (some p)) (hb : .back ∈ is) (w : W) :
    ∃ text, LessBlanks rest text ∧ cmdStart e line w = .ok (.thread text (decide (.wait ∈ is))) := by
  obtain ⟨h1, h2⟩ := startScan_thing hq hc hp he c e hex h ho ht
  refine ⟨skipBlanks rest, skipBlanks_less rest, ?_⟩
  have hsep : (startFlags e.full {} is).sep = false := by rw [startFlags_sep]; simp [hb]
  unfold cmdStart
  rw [h1, startTarget, hin]
  simp only [Res.ok_bind, Option.isSome_some, if_true, hsep, Bool.false_eq_true, if_false, startDefault, startThreadRun, startFlags_wait]
  rw [hex, ex_still c hst, paramList_kept c h2, expandAll_still c hsa]
  simp

/-- Only a title (and switches): a new interpreter is started, without script and command. -/
theorem C82_title {q : Char → Bool} (hq : q '"' = true) (hc : q '^' = true) (hp : q '%' = true) (he : q '!' = true) (c : Ctx)
    (e : StartEnv W) (hex : e.ex = c.ex) {line rest : List Char} {is : List StartItem} (h : StartLine q line is rest)
    (ho : OnceEach is) (hr : ∀ d ∈ rest, Blank d) {t : List Char} (ht : .title t ∈ is) (hexe : PlainExe e.exe) (var : Option (List Char))
    {d : List Char} (hd : DirAsked e.full e.dir is d) :
    ∃ argv s, startup var argv = .run s ∧ s.file = none ∧ s.command = none ∧ s.quiet = true ∧ s.echo = e.echo ∧ s.cmdly = e.cmdly ∧
      ∀ (w w' : W) (n : Nat), .back ∈ is ∨ e.start = none → e.os ⟨e.exe, argv, d⟩ w = (.ended (Ends.code n).status, w') →
        cmdStart e line w = .ok (.ran (if .wait ∈ is then ((n % 256 : Nat) : Int) else 0) false w') := by
  have hm : startup var (e.exe :: ['/' :: 'a' :: ':' :: shellModes e]) = .run (modesOf {} [shellModes e]) := by
    have := getParameters_modes var (shellModes_word e) {} []
    exact this
  obtain ⟨m1, m2, m3, m4⟩ := startedWith_modes [shellModes e]
  obtain ⟨t1, t2, t3⟩ := shellState e m1
  refine ⟨_, _, hm, m4, m2, t1, t2, t3, ?_⟩
  intro w w' n hs hos
  have hsep := sep_flags (full := e.full) hs
  have hkept := shell_kept c e hexe.ne hexe.word hexe.still (.inl rfl) (Kept.nil (w := []) (by simp))
  rw [List.append_nil] at hkept
  have htitle : (startFlags e.full {} is).title ≠ none := fun hn => ((startFlags_title _ _ _).1 hn).2 t ht
  have hstill : Still (startShell e) := by
    rw [startShell_eq]
    intro x hx
    rcases List.mem_append.1 hx with hx | hx
    · exact hexe.still x hx
    · rcases List.mem_cons.1 hx with rfl | hx
      · decide
      · exact still_modes e x hx
  have := cmdStart_file c e hex (line := line) (file := e.exe) (text := startShell e) (f := startFlags e.full {} is) (by
    rw [startScan_items hq hc hp he c e hex h {} (by simpa using ho.1) (by simpa using ho.2), startScan.eq_1, hex,
      nextParam_blanks c hr]
    simp only [Res.bind, startDefault, if_neg htitle]) hkept (by
      intro x hx
      rcases List.mem_cons.1 hx with rfl | hx
      · exact hexe.still
      · rcases List.mem_cons.1 hx with rfl | hx
        · exact still_modes e
        · cases hx) (ex_still c hstill) hsep w w' n (by
      rw [dirAsked_flags e.full e.dir ho hd]
      exact hos)
  rw [this, startFlags_wait]
  simp

/-- A second directory is an error, so is `/D` at the end; nothing is run. -/
theorem C82_errors {q : Char → Bool} (hq : q '"' = true) (hc : q '^' = true) (hp : q '%' = true) (he : q '!' = true) (c : Ctx)
    (e : StartEnv W) (hex : e.ex = c.ex) {line rest o tail : List Char} {is : List StartItem} (h : StartLine q line is rest) (ho : OnceEach is)
    (hr : ParamPrefix q rest [o] tail) (hd : fold o = ['/', 'd']) (w : W) :
    ((∃ v, .dir v ∈ is) → cmdStart e line w = .ok (.error 4)) ∧
    ((∀ v, .dir v ∉ is) → (∀ d ∈ tail, Blank d) → cmdStart e line w = .ok (.error 8)) := by
  obtain ⟨e1, -⟩ := prefix_one hq hc hp he c hr
  have ns : ¬ startIgnored o = true := by
    intro hi
    obtain _ | _ | hi := (startIgnored_iff o).1 hi
    rw [hd] at hi
    exact absurd hi (by decide)
  have key : startScan e {} line = if (startFlags e.full {} is).dir.isSome then .ok (.error 4) else
      match nextParam stdDelims c.ex tail with
      | .ub => .ub
      | .hang => .hang
      | .ok none => .ok (.error 8)
      | .ok (some (d, next2)) =>
        if next2.length < rest.length then startScan e { startFlags e.full {} is with dir := some (e.full d) } next2 else .hang := by
    rw [startScan_items hq hc hp he c e hex h {} (by simpa using ho.1) (by simpa using ho.2), startScan.eq_1, hex, e1]
    simp only [is_help, is_b, is_d, startWait_iff, startSkips_iff]
    rw [if_neg (by rw [hd]; decide), if_neg (by rw [hd]; decide), if_neg (by rw [hd]; decide), if_neg ns, if_neg (by rw [hd]; decide), if_pos hd]
    rfl
  have hdir := startFlags_dir e.full is {} ho.1
  constructor
  · rintro ⟨v, hv⟩
    have : (startFlags e.full {} is).dir.isSome = true := by
      rcases hdir with ⟨v', -, h2⟩ | ⟨h1, -⟩
      · simp [h2]
      · exact absurd hv (h1 v)
    unfold cmdStart
    rw [key, if_pos this]
    rfl
  · intro hv hb
    have : ¬ (startFlags e.full {} is).dir.isSome = true := by
      rcases hdir with ⟨v', h1, -⟩ | ⟨-, h2⟩
      · exact absurd h1 (hv v')
      · simp [h2]
    unfold cmdStart
    rw [key, if_neg this, nextParam_blanks c hb]
    rfl

/-- Violation: `/NODE` or `/AFFINITY` at the end of the line reads at a null pointer. -/
theorem C82_node {q : Char → Bool} (hq : q '"' = true) (hc : q '^' = true) (hp : q '%' = true) (he : q '!' = true) (c : Ctx)
    (e : StartEnv W) (hex : e.ex = c.ex) {line rest o tail : List Char} {is : List StartItem} (h : StartLine q line is rest) (ho : OnceEach is)
    (hr : ParamPrefix q rest [o] tail) (hn : fold o = ['/', 'n', 'o', 'd', 'e'] ∨ fold o = ['/', 'a', 'f', 'f', 'i', 'n', 'i', 't', 'y'])
    (hb : ∀ d ∈ tail, Blank d) (w : W) : cmdStart e line w = .ub := by
  obtain ⟨e1, -⟩ := prefix_one hq hc hp he c hr
  have ns : ¬ startIgnored o = true := by
    intro hi
    obtain _ | _ | hi := (startIgnored_iff o).1 hi
    rcases hn with hn | hn <;> rw [hn] at hi <;> exact absurd hi (by decide)
  unfold cmdStart
  rw [startScan_items hq hc hp he c e hex h {} (by simpa using ho.1) (by simpa using ho.2), startScan.eq_1, hex, e1]
  simp only [is_help, is_b, is_d, startWait_iff, startSkips_iff]
  rw [if_neg (by rcases hn with hn | hn <;> rw [hn] <;> decide), if_neg (by rcases hn with hn | hn <;> rw [hn] <;> decide),
    if_neg (by rcases hn with hn | hn <;> rw [hn] <;> decide), if_neg ns, if_pos hn, nextParam_blanks c hb]
  rfl

/-- Violation: START without command and without title is an error, although it is documented to start an interpreter. -/
theorem C82_alone {q : Char → Bool} (hq : q '"' = true) (hc : q '^' = true) (hp : q '%' = true) (he : q '!' = true) (c : Ctx)
    (e : StartEnv W) (hex : e.ex = c.ex) {line rest : List Char} {is : List StartItem} (h : StartLine q line is rest) (ho : OnceEach is)
    (hr : ∀ d ∈ rest, Blank d) (ht : ∀ t, .title t ∉ is) (w : W) : cmdStart e line w = .ok (.error 8) := by
  unfold cmdStart
  rw [startScan_items hq hc hp he c e hex h {} (by simpa using ho.1) (by simpa using ho.2), startScan.eq_1, hex, nextParam_blanks c hr]
  simp only [Res.ok_bind, startDefault]
  rw [if_pos ((startFlags_title _ _ _).2 ⟨rfl, ht⟩)]

/-- Violation: the documented `/MIN` and `/MAX` are taken for the program. -/
theorem C82_min (c : Ctx) (e : StartEnv W) (hex : e.ex = c.ex) {o : List Char} (hmm : o = ['/', 'm', 'i', 'n'] ∨ o = ['/', 'm', 'a', 'x'])
    (hin : e.table.lookup o = .ok none) (hf : e.find o = none) (hfull : e.full o = o) (hs : e.start = none) (w w' : W) (n : Nat)
    (hos : e.os ⟨o, [o, ['x']], e.dir⟩ w = (.ended (Ends.code n).status, w')) : cmdStart e (' ' :: o ++ [' ', 'x']) w = .ok (.ran 0 false w') := by
  have hst : Still o ∧ Still (' ' :: o ++ [' ', 'x']) := by rcases hmm with rfl | rfl <;> decide
  have hno : NoSwitch o := by
    refine ⟨by rcases hmm with rfl | rfl <;> decide, ?_, ?_⟩
    · rintro i (h | h | h) <;> rcases hmm with rfl | rfl <;> revert h <;> decide
    · rintro v i (h | h) <;> rcases hmm with rfl | rfl <;> revert h <;> decide
  have hsc : ¬ ScriptPath o := by
    rintro ⟨b, x, h1, h2⟩
    have hl : x.length = 4 := by
      rcases h2 with h2 | h2
      · have := congrArg List.length h2; simpa [fold] using this
      · have := congrArg List.length h2; simpa [fold] using this
    have hb : b = [] := by
      have := congrArg List.length h1
      rcases hmm with rfl | rfl <;> simp [hl] at this <;> exact this
    subst hb
    rw [List.nil_append] at h1
    subst h1
    rcases hmm with rfl | rfl <;> revert h2 <;> decide
  have := C82_program_partial (q := fun d => d == '"' || d == '^' || d == '%' || d == '!') (by decide) (by decide) (by decide) (by decide) c e hex
    (line := ' ' :: o ++ [' ', 'x']) (name := o) (as := [['x']]) (is := []) .nil (by decide)
    ⟨⟨[' '], o, [' ', 'x'], by simp, by simp [Blank], ?_, .inr ⟨_, _, rfl, .inl rfl⟩,
      ParamLine.last (w := [' ']) (x := ['x']) (by simp [Blank]) (.word (by simp) (by decide) (by decide) (by decide)), ?_⟩, hno⟩
    (by intro a ha; rcases List.mem_cons.1 ha with rfl | ha; exact hst.1; simp at ha; subst ha; decide) (ex_still c hst.2) hin
    (by rcases hmm with rfl | rfl <;> rintro ⟨h, -⟩ <;> revert h <;> decide) (file := o) (by rw [hf, hfull]; rfl) hsc
    (by rcases hmm with rfl | rfl <;> decide) (by rcases hmm with rfl | rfl <;> simp [HasDrive]) (by rcases hmm with rfl | rfl <;> decide)
    (.inr hs) w w' n (.inr ⟨by simp, rfl⟩) hos
  · simpa using this
  · rcases hmm with rfl | rfl <;> exact .word (by simp) (by decide) (by decide) (by decide)
  · rcases hmm with rfl | rfl <;> simp

/-- Violation: for a script named by an absolute path the new interpreter refuses its command line (C81), the script is never run. -/
theorem C82_absolute {q : Char → Bool} (hq : q '"' = true) (hc : q '^' = true) (hp : q '%' = true) (he : q '!' = true) (c : Ctx)
    (e : StartEnv W) (hex : e.ex = c.ex) {line rest name all t : List Char} {k : Char} {is : List StartItem} {as : List (List Char)}
    (h : StartLine q line is rest)
    (ho : OnceEach is) (ht : StartsThing q is rest name as) (hst : ∀ a ∈ name :: as, Still a) (hall : c.ex (startShell e ++ ' ' :: rest) = .ok all)
    (hin : e.table.lookup name = .ok none) (hu : ¬ Uri name) {file : List Char} (hfile : file = (e.find name).getD (e.full name))
    (hsp : ScriptPath file) (hlen : file.length < 4096) (hdr : ¬ HasDrive file) (hcar : '^' ∉ file) (hexe : PlainExe e.exe)
    (habs : name = '/' :: k :: t) (hk : k.toLower ≠ 'a' ∧ k.toLower ≠ 'k' ∧ k.toLower ≠ 'c' ∧ k ≠ '?' ∧ k ≠ '/')
    (var : Option (List Char)) {d : List Char} (hd : DirAsked e.full e.dir is d) :
    ∃ argv, startup var argv = .bad ∧
      ∀ (w w' : W) (n : Nat), .back ∈ is ∨ e.start = none → e.os ⟨e.exe, argv, d⟩ w = (.ended (Ends.code n).status, w') →
        cmdStart e line w = .ok (.ran (if .wait ∈ is then ((n % 256 : Nat) : Int) else 0) false w') := by
  refine ⟨_, ?_, fun w w' n hs hos =>
    startScript_argv hq hc hp he c e hex h ho ht hst hall hin hu hfile hsp hlen hdr hcar hexe hd w w' n hs hos⟩
  have h1 := getParameters_modes var (shellModes_word e) {} (name :: as)
  have h2 : getParameters var true (modesOf {} [shellModes e]) (name :: as) = .bad := by
    obtain ⟨k1, k2, k3, k4, k5⟩ := hk
    rw [habs, getParameters.eq_2, if_pos ⟨rfl, rfl⟩]
    simp only [List.drop_succ_cons, List.drop_zero]
    have ha : k.toUpper ≠ 'A' := fun h => k1 ((upper_lower k 'a').1 h)
    have hkk : ¬ (k.toUpper = 'K' ∨ k.toUpper = 'C') := by
      rintro (h | h)
      · exact k2 ((upper_lower k 'k').1 h)
      · exact k3 ((upper_lower k 'c').1 h)
    rw [if_neg ha, if_neg hkk, if_neg k4, if_neg k5]
  exact h1.trans h2

/-- Violation: an argument without blanks is given to the new interpreter without quotes, whatever it contains: `start echo "a&b"` runs the
command `b`. -/
theorem C82_command_words {q : Char → Bool} (hq : q '"' = true) (hc : q '^' = true) (hp : q '%' = true) (he : q '!' = true) (c : Ctx)
    (e : StartEnv W) (hex : e.ex = c.ex) {line rest name all a : List Char} {is : List StartItem} (h : StartLine q line is rest)
    (ho : OnceEach is) (ht : StartsThing q is rest name [a]) (hst : ∀ x ∈ [name, a], Still x)
    (hall : c.ex (startShell e ++ [' ', '/', 'C', ' '] ++ rest) = .ok all) {p : CmdEntry CmdBody} (hin : e.table.lookup name = .ok (some p))
    (hat : name ≠ ['@']) (hb : .back ∉ is) (hs : e.start = none) (hexe : PlainExe e.exe) (var : Option (List Char)) {d : List Char}
    (hd : DirAsked e.full e.dir is d) (hnb : ∀ d ∈ name ++ a, ¬ Blank d) :
    ∃ argv s, startup var argv = .run s ∧ s.command = some (name ++ ' ' :: (a ++ [' '])) ∧
      ∀ (w w' : W) (n : Nat), e.os ⟨e.exe, argv, d⟩ w = (.ended (Ends.code n).status, w') →
        cmdStart e line w = .ok (.ran (if .wait ∈ is then ((n % 256 : Nat) : Int) else 0) false w') := by
  obtain ⟨m1, m2, m3, m4⟩ := startedWith_modes [shellModes e]
  have hj : joinCommand [name, a] = name ++ ' ' :: (a ++ [' ']) := by
    have key : ∀ x : List Char, (∀ d ∈ x, ¬ Blank d) → (x.any fun c => c == ' ' || c == '\t' || c == '\n') = false := by
      intro x hx
      rw [Bool.eq_false_iff]
      intro hy
      obtain ⟨d, hd, hbd⟩ := (blankChar_iff x).1 hy
      refine hx d hd ?_
      rcases hbd with h | h | h
      · exact .inl h
      · exact .inr (.inl h)
      · exact .inr (.inr (.inr (.inr h)))
    simp [joinCommand, key name fun d hd => hnb d (by simp [hd]), key a fun d hd => hnb d (by simp [hd])]
  refine ⟨_, { modesOf {} [shellModes e] with command := some (joinCommand [name, a]) }, ?_, by rw [hj], fun w w' n hos =>
    startCommand_argv hq hc hp he c e hex h ho ht hst hall hin hb hs hexe hd w w' n hos⟩
  have h1 := getParameters_modes var (shellModes_word e) {} (['/', 'C'] :: name :: [a])
  have h2 := getParameters_command var (modesOf {} [shellModes e]) 'C' [] name [a] (.inr (by decide)) m2 hat
  rw [if_neg (by decide)] at h2
  exact h1.trans h2

/-- Violation: an interpreter installed at a path with a blank takes the second part of the path for a script. -/
theorem C82_exe {q : Char → Bool} (hq : q '"' = true) (hc : q '^' = true) (hp : q '%' = true) (he : q '!' = true) (c : Ctx)
    (e : StartEnv W) (hex : e.ex = c.ex) {line rest a b : List Char} {is : List StartItem} (h : StartLine q line is rest)
    (ho : OnceEach is) (hr : ∀ d ∈ rest, Blank d) {t : List Char} (ht : .title t ∈ is) (hexe : e.exe = a ++ ' ' :: b) (ha : PlainExe a)
    (hb : PlainExe b) (hrel : b.head? ≠ some '/') (var : Option (List Char)) {d : List Char} (hd : DirAsked e.full e.dir is d) :
    ∃ argv s as, startup var argv = .run s ∧ s.file = some (b, as) ∧
      ∀ (w w' : W) (n : Nat), .back ∈ is ∨ e.start = none → e.os ⟨e.exe, argv, d⟩ w = (.ended (Ends.code n).status, w') →
        cmdStart e line w = .ok (.ran (if .wait ∈ is then ((n % 256 : Nat) : Int) else 0) false w') := by
  refine ⟨a :: b :: ['/' :: 'a' :: ':' :: shellModes e], { file := some (b, ['/' :: 'a' :: ':' :: shellModes e]) }, _,
    getParameters_file var true {} b _ hb.ne fun _ => hrel, rfl, ?_⟩
  intro w w' n hs hos
  have hm : ReadsAs ('/' :: 'a' :: ':' :: shellModes e) ('/' :: 'a' :: ':' :: shellModes e) := by
    refine reads_word c (by simp) (fun d hd => ?_) fun d hd => still_modes e d hd
    rcases shellModes_chars e d hd with rfl | rfl | rfl | rfl | rfl | rfl <;> decide
  have k1 := Kept.cons (w := [' ']) (by simp [Blank]) hm (.inl rfl) (Kept.nil (w := []) (by simp))
  have k2 := Kept.cons (w := [' ']) (by simp [Blank]) (reads_word c hb.ne hb.word hb.still) (.inr ⟨' ', _, rfl, .inl rfl⟩) k1
  have k3 := Kept.cons (w := []) (by simp) (reads_word c ha.ne ha.word ha.still) (.inr ⟨' ', _, rfl, .inl rfl⟩) k2
  have hkept : Kept (startShell e) (a :: b :: ['/' :: 'a' :: ':' :: shellModes e]) := by
    rw [startShell_eq, hexe]
    simpa using k3
  have htitle : (startFlags e.full {} is).title ≠ none := fun hn => ((startFlags_title _ _ _).1 hn).2 t ht
  have hstill : Still (startShell e) := by
    rw [startShell_eq, hexe]
    intro x hx
    simp only [List.mem_append, List.mem_cons] at hx
    rcases hx with (hx | rfl | hx) | rfl | hx
    · exact ha.still x hx
    · decide
    · exact hb.still x hx
    · decide
    · exact still_modes e x (by simpa using hx)
  have := cmdStart_file c e hex (line := line) (file := e.exe) (text := startShell e) (f := startFlags e.full {} is) (by
    rw [startScan_items hq hc hp he c e hex h {} (by simpa using ho.1) (by simpa using ho.2), startScan.eq_1, hex,
      nextParam_blanks c hr]
    simp only [Res.bind, startDefault, if_neg htitle]) hkept (by
      intro x hx
      simp only [List.mem_cons, List.not_mem_nil, or_false] at hx
      rcases hx with rfl | rfl | rfl
      · exact ha.still
      · exact hb.still
      · exact still_modes e) (ex_still c hstill) (sep_flags hs) w w' n (by
      rw [dirAsked_flags e.full e.dir ho hd]
      exact hos)
  rw [this, startFlags_wait]
  simp

/-- Violation: with a start script the status is 256 times the code. -/
theorem C82_status (e : StartEnv W) (f : StartFlags) (hf : f.sep = true) (hw : f.wait = true) {script : List Char} (hs : e.start = some script)
    (file : List Char) (name : List Char) (as : List (List Char)) (d : List Char) (w w' : W) (n : Nat)
    (hos : e.os ⟨script, script :: file :: as, d⟩ w = (.ended (Ends.code n).status, w')) :
    (executeFile e.os e.start f.sep f.wait ⟨file, name :: as, d⟩ w).1 = ((n % 256 * 256 : Nat) : Int) := by
  simp only [executeFile, runFile, hf, hw, hs, if_true, execAgain, startFile, List.drop_succ_cons, List.drop_zero, hos, execReport, Ends.status]

/-- Violation: what a program gets are the words written, expanded once more. -/
theorem C82_twice {q : Char → Bool} (hq : q '"' = true) (hc : q '^' = true) (hp : q '%' = true) (he : q '!' = true) (c : Ctx)
    {is : List StartItem} {rest name : List Char} {as : List (List Char)} (ht : StartsThing q is rest name as) :
    paramList c.ex rest = expandAll c.ex (name :: as) := by
  obtain ⟨⟨w, x, tail, rfl, h1, h2, h3, h4, -⟩, -⟩ := ht
  exact paramList_kept c (.cons h1 (readsAs_written hq hc hp he h2) h3 (kept_line hq hc hp he h4))

/-- Violation: a command run in a thread is expanded before it is run (and expanded then again). -/
theorem C82_thread_twice {q : Char → Bool} (hq : q '"' = true) (hc : q '^' = true) (hp : q '%' = true) (he : q '!' = true) (c : Ctx)
    (e : StartEnv W) (hex : e.ex = c.ex) {line rest name all : List Char} {is : List StartItem} {as : List (List Char)} (h : StartLine q line is rest)
    (ho : OnceEach is) (ht : StartsThing q is rest name as) {b : List Char} {bs : List (List Char)}
    (hall : c.ex rest = .ok all) (hexp : expandAll c.ex (name :: as) = .ok (b :: bs))
    {p : CmdEntry CmdBody} (hin : e.table.lookup name = .ok (some p)) (hb : .back ∈ is) (w : W) :
    cmdStart e line w = .ok (.thread (skipBlanks all) (decide (.wait ∈ is))) := by
  obtain ⟨h1, h2⟩ := startScan_thing hq hc hp he c e hex h ho ht
  have hsep : (startFlags e.full {} is).sep = false := by rw [startFlags_sep]; simp [hb]
  unfold cmdStart
  rw [h1, startTarget, hin]
  simp only [Res.ok_bind, Option.isSome_some, if_true, hsep, Bool.false_eq_true, if_false, startDefault, startThreadRun, startFlags_wait]
  rw [hex, hall, paramList_kept c h2, hexp]
  simp

/-! ### Examples -/

/-- The characters that have to be escaped. -/
def startQ : Char → Bool := fun d => d == '"' || d == '^' || d == '%' || d == '!'

/-- `start /wait "my title" /D work prog.exe "a b"`. -/
example : ∃ is rest, StartLine startQ " /Wait \"my title\" /D work prog.exe \"a b\"".toList is rest ∧ OnceEach is ∧
    StartsThing startQ is rest "prog.exe".toList ["a b".toList] ∧ .wait ∈ is ∧ .dir "work".toList ∈ is := by
  refine ⟨[.wait, .title "my title".toList, .dir "work".toList], " prog.exe \"a b\"".toList, ?_, by decide, ?_, by decide, by decide⟩
  · refine .switch (o := "/Wait".toList) (tail := " \"my title\" /D work prog.exe \"a b\"".toList)
      (ParamPrefix.last (w := [' ']) (x := "/Wait".toList) (by decide) (.word (by decide) (by decide) (by decide) (by decide)) (.inr ⟨' ', _, rfl, .inl rfl⟩))
      (.wait (.inl (by decide))) ?_
    refine .title (q := startQ) (w := [' ']) (t := "my title".toList) (tail := " /D work prog.exe \"a b\"".toList) (by decide)
      ⟨by decide, by rintro i (h | h | h) <;> revert h <;> decide, by rintro v i (h | h) <;> revert h <;> decide⟩ (.inr ⟨' ', _, rfl, .inl rfl⟩) ?_
    refine .value (o := "/D".toList) (v := "work".toList) (tail := " prog.exe \"a b\"".toList) ?_ (.dir (by decide)) .nil
    exact ParamPrefix.cons (w := [' ']) (x := "/D".toList) (b := ' ') (r := "work prog.exe \"a b\"".toList) (by decide)
      (.word (by decide) (by decide) (by decide) (by decide)) (.inl rfl)
      (ParamPrefix.last (w := [' ']) (x := "work".toList) (by decide) (.word (by decide) (by decide) (by decide) (by decide)) (.inr ⟨' ', _, rfl, .inl rfl⟩))
  · refine ⟨⟨[' '], "prog.exe".toList, " \"a b\"".toList, rfl, by decide, .word (by decide) (by decide) (by decide) (by decide), .inr ⟨' ', _, rfl, .inl rfl⟩,
      ParamLine.last (w := [' ']) (x := "\"a b\"".toList) (by decide) (Written.quoted (q := startQ) (a := "a b".toList)), fun _ => ⟨_, by simp; rfl⟩⟩,
      by decide, by rintro i (h | h | h) <;> revert h <;> decide, by rintro v i (h | h) <;> revert h <;> decide⟩

/-- A system where every program ends with code 3, and what START does in it. -/
def startSample : StartEnv (List ExecReq) where
  ex := fun t => .ok t
  find := fun n => if n = "prog.exe".toList then some "/bin/prog.exe".toList else if n = "s.bat".toList then some "/w/s.bat".toList else none
  os := fun q w => (.ended (3 * 256), w ++ [q])
  start := none
  dir := "/w".toList
  batch := fun _ _ w => .ok (0, w)
  full := fun n => "/w/".toList ++ n
  table := .node ⟨"ECHO".toList, 0, .proc "pBat_CmdEcho"⟩ .leaf .leaf
  exe := "/usr/bin/pbat".toList
  echo := false
  cmdly := false

def startSampleRun (l : String) : Option (Int × List ExecReq) :=
  match cmdStart startSample l.toList [] with
  | .ok (.ran n _ w) => some (n, w)
  | _ => none

example : startSampleRun " /Wait \"my title\" /D work prog.exe \"a b\"" =
    some (3, [⟨"/bin/prog.exe".toList, ["prog.exe".toList, "a b".toList], "/w/work".toList⟩]) := by decide +kernel

example : startSampleRun " s.bat x" =
    some (0, [⟨"/usr/bin/pbat".toList, ["/usr/bin/pbat".toList, "/a:qe".toList, "s.bat".toList, "x".toList], "/w".toList⟩]) := by decide +kernel

example : startSampleRun " echo \"a&b\"" =
    some (0, [⟨"/usr/bin/pbat".toList, ["/usr/bin/pbat".toList, "/a:qe".toList, "/C".toList, "echo".toList, "a&b".toList], "/w".toList⟩]) := by decide +kernel

end PBat
