import Verif.Lemmas.Exec
/-
C78: programs and scripts run by name.
-/
namespace PBat
open Spec

variable {W : Type}

/-- The command is no command of the interpreter and no macro. -/
def NoCommand (e : ExecEnv W) (t : CmdTree CmdBody) (line : List Char) : Prop := runTarget e.ex line t = .ok .program

theorem runExternal_line {q : Char → Bool} (hq : q '"' = true) (hc : q '^' = true) (hp : q '%' = true) (he : q '!' = true) (c : Ctx)
    (e : ExecEnv W) (hex : e.ex = c.ex) {line name tail : List Char} {as : List (List Char)} (h : CommandLine q line name tail as) :
    paramList e.ex (skipAllBlanks line) = expandAll c.ex (name :: as) := by
  obtain ⟨x, h1, h2, h3, h4, -⟩ := commandLine_text h
  rw [h1, hex]
  apply paramList_kept
  have := Kept.cons (w := []) (by simp) (readsAs_written hq hc hp he h2) h3 (kept_line hq hc hp he h4)
  simpa using this

/-- A program run by name, found at `file`, for every way of writing the name and the arguments: the system is asked once, to run exactly
`file`, with exactly the name and the arguments written, in the current directory; if the program ends with a code, that is the error level.
Partial: the arguments are without caret, percent and exclamation marks (`C78_twice`, `C78_arguments`); a program killed by a signal
(`C78_signal`). -/
theorem C78_program_partial {q : Char → Bool} (hq : q '"' = true) (hc : q '^' = true) (hp : q '%' = true) (he : q '!' = true) (c : Ctx)
    (e : ExecEnv W) (t : CmdTree CmdBody) (hex : e.ex = c.ex) {line name tail file all : List Char} {as : List (List Char)}
    (h : CommandLine q line name tail as) (hall : c.ex (skipAllBlanks line) = .ok all) (hst : ∀ a ∈ name :: as, Still a) (hn : NoCommand e t line)
    (hf : e.find name = some file) (hsp : ¬ ScriptPath file) (hlen : file.length < 4096) (hd : ¬ HasDrive file) (hcar : '^' ∉ file)
    (w w' : W) (n : Nat) (hos : e.os ⟨file, name :: as, e.dir⟩ w = (.ended (Ends.code n).status, w')) :
    runFirst e t line w = .ok (.ran (n % 256 : Nat) none w') := by
  obtain ⟨b, hb, hbs⟩ := isScript_iff file hlen hd hcar
  have hb' : b = false := by cases b; rfl; exact absurd (hbs.1 rfl) hsp
  subst hb'
  have hst' : exitStatus (Ends.code n).status = n % 256 := by simp only [exitStatus, Ends.status]; omega
  unfold runFirst
  rw [hn]
  simp only [Res.ok_bind, runExternal, runExternal_line hq hc hp he c e hex h, expandAll_still c hst, hf]
  rw [hex, hall]
  simp only [Res.ok_bind, runFound, hb, Bool.false_eq_true, if_false, executeFile, runFile, hos, if_true, hst']

/-- The same if the program cannot be run although the file exists: the error level is 3, an error is reported for the file. -/
theorem C78_fails {q : Char → Bool} (hq : q '"' = true) (hc : q '^' = true) (hp : q '%' = true) (he : q '!' = true) (c : Ctx)
    (e : ExecEnv W) (t : CmdTree CmdBody) (hex : e.ex = c.ex) {line name tail file all : List Char} {as : List (List Char)}
    (h : CommandLine q line name tail as) (hall : c.ex (skipAllBlanks line) = .ok all) (hst : ∀ a ∈ name :: as, Still a) (hn : NoCommand e t line)
    (hf : e.find name = some file) (hsp : ¬ ScriptPath file) (hlen : file.length < 4096) (hd : ¬ HasDrive file) (hcar : '^' ∉ file)
    (hs : e.start = none) (w w' : W) (r : Child) (hr : r = .noFork ∨ r = .noExec) (hos : e.os ⟨file, name :: as, e.dir⟩ w = (r, w')) :
    runFirst e t line w = .ok (.ran 3 (some file) w') := by
  obtain ⟨b, hb, hbs⟩ := isScript_iff file hlen hd hcar
  have hb' : b = false := by cases b; rfl; exact absurd (hbs.1 rfl) hsp
  subst hb'
  unfold runFirst
  rw [hn]
  simp only [Res.ok_bind, runExternal, runExternal_line hq hc hp he c e hex h, expandAll_still c hst, hf]
  rw [hex, hall]
  rcases hr with rfl | rfl <;>
    simp only [Res.ok_bind, runFound, hb, Bool.false_eq_true, if_false, executeFile, runFile, hos, hs, execAgain, execReport, if_true]

/-- A name that is not found: nothing is run, the error level is -1 and an error is reported, which shows the text of the command up to the first
space, tabulator or end of line. -/
theorem C78_missing {q : Char → Bool} (hq : q '"' = true) (hc : q '^' = true) (hp : q '%' = true) (he : q '!' = true) (c : Ctx)
    (e : ExecEnv W) (t : CmdTree CmdBody) (hex : e.ex = c.ex) {line name tail : List Char} {as : List (List Char)}
    (h : CommandLine q line name tail as) (hst : Still line) (hsa : ∀ a ∈ name :: as, Still a) (hn : NoCommand e t line)
    (hf : e.find name = none) (w : W) : ∃ lead shown r, line = lead ++ (shown ++ r) ∧ (∀ d ∈ lead, Blank d ∨ d = '@') ∧
      (∀ d ∈ shown, d ≠ ' ' ∧ d ≠ '\t' ∧ d ≠ '\n') ∧ (∀ d, r.head? = some d → d = ' ' ∨ d = '\t' ∨ d = '\n') ∧ shown ≠ [] ∧
      runFirst e t line w = .ok (.ran (-1) (some shown) w) := by
  have hst' : Still (skipAllBlanks line) := by
    obtain ⟨x, h1, -, -, -, lead, h2⟩ := commandLine_text h
    rw [h1]
    intro d hd
    exact hst d (by rw [h2]; simp [List.mem_append.1 hd])
  obtain ⟨lead, r, g1, g2, g3, g4, g5⟩ := shownName_text h
  refine ⟨lead, shownName (skipAllBlanks line), r, g1, g2, g3, g4, g5, ?_⟩
  have hr : runExternal e (skipAllBlanks line) w = .ok .missing := by
    simp only [Res.ok_bind, runExternal, runExternal_line hq hc hp he c e hex h, expandAll_still c hsa, hf]
    rw [hex, ex_still c hst']
    rfl
  unfold runFirst
  rw [hn]
  simp only [Res.ok_bind, hr]
  rw [hex, ex_still c hst]
  simp only [Res.ok_bind, runSecond]
  rw [hn]
  simp only [Res.ok_bind, hr]

/-- A script run by name (its file ends with `.bat` or `.cmd`): it is run once, `%0` is the file, `%1`, `%2`, … are exactly the arguments
written, all of them through SHIFT (`HoldsArgs`), `%*` is the text after the name without its leading blanks, and the error level is the one
it ends with.  Partial: a line without caret, percent and exclamation marks (`C78_star`), arguments after the ninth as in C28. -/
theorem C78_script_partial {q : Char → Bool} (hq : q '"' = true) (hc : q '^' = true) (hp : q '%' = true) (he : q '!' = true) (c : Ctx)
    (e : ExecEnv W) (t : CmdTree CmdBody) (hex : e.ex = c.ex) {line name tail file : List Char} {as : List (List Char)}
    (h : CommandLine q line name tail as) (hst : Still line) (hsa : ∀ a ∈ name :: as, Still a) (hn : NoCommand e t line)
    (hpass : ∀ a ∈ as.drop 9, Passable a)
    (hf : e.find name = some file) (hsp : ScriptPath file) (hlen : file.length < 4096) (hd : ¬ HasDrive file) (hcar : '^' ∉ file) (w : W) :
    ∃ b star, ArgsAre b (file :: as) ∧ (∃ more, b '+' = some more ∧ ∀ d : Ctx, allParams stdDelims d.ex more = .ok (as.drop 9)) ∧
      b '*' = some star ∧ LessBlanks tail star ∧
      runFirst e t line w = (e.batch file b w).bind fun r => .ok (.ran r.1 none r.2) := by
  obtain ⟨x, h1, h2, h3, h4, lead, h5⟩ := commandLine_text h
  have hst' : Still (skipAllBlanks line) := by
    rw [h1]
    intro d hd
    exact hst d (by rw [h5]; simp [List.mem_append.1 hd])
  obtain ⟨b, hb, hbs⟩ := isScript_iff file hlen hd hcar
  have hb' : b = true := hbs.2 hsp
  subst hb'
  have hstar := batchStar_eq hq hc hp he c h2 h3
  rw [← h1] at hstar
  obtain ⟨b, e1, e2, e3⟩ := batchArgs_holds c.ex file _ _ name as hstar hpass
  obtain ⟨more, m1, m2⟩ := e2.more
  refine ⟨b, _, e2.first, ⟨more, m1, fun d => allParams_kept d m2⟩, e3, skipBlanks_less _, ?_⟩
  unfold runFirst
  rw [hn]
  simp only [Res.ok_bind, runExternal, runExternal_line hq hc hp he c e hex h, expandAll_still c hsa, hf]
  rw [hex, ex_still c hst']
  simp only [Res.ok_bind, runFound, hb, if_true]
  rw [hex, e1]
  simp only [Res.ok_bind]
  cases e.batch file b w <;> rfl

/-- What any program gets: the name and the arguments written, each expanded once more. -/
theorem C78_arguments {q : Char → Bool} (hq : q '"' = true) (hc : q '^' = true) (hp : q '%' = true) (he : q '!' = true) (c : Ctx)
    (e : ExecEnv W) (hex : e.ex = c.ex) {line name tail : List Char} {as : List (List Char)}
    (h : CommandLine q line name tail as) : paramList e.ex (skipAllBlanks line) = expandAll c.ex (name :: as) :=
  runExternal_line hq hc hp he c e hex h

/-- A command that is expanded to the name of a program, such as `%prog%`: if no file has the name as it is written, the line is expanded, and
the program it names then is run with the arguments it has then. -/
theorem C78_again {q : Char → Bool} (hq : q '"' = true) (hc : q '^' = true) (hp : q '%' = true) (he : q '!' = true) (c : Ctx)
    (e : ExecEnv W) (t : CmdTree CmdBody) (hex : e.ex = c.ex) {first line name tail file all b all' : List Char} {as bs : List (List Char)}
    (hn1 : NoCommand e t first) (hp1 : paramList c.ex (skipAllBlanks first) = .ok (b :: bs)) (hb : e.find b = none)
    (ha1 : c.ex (skipAllBlanks first) = .ok all') (hl : c.ex first = .ok line)
    (h : CommandLine q line name tail as) (hall : c.ex (skipAllBlanks line) = .ok all) (hst : ∀ a ∈ name :: as, Still a) (hn : NoCommand e t line)
    (hf : e.find name = some file) (hsp : ¬ ScriptPath file) (hlen : file.length < 4096) (hd : ¬ HasDrive file) (hcar : '^' ∉ file)
    (w w' : W) (n : Nat) (hos : e.os ⟨file, name :: as, e.dir⟩ w = (.ended (Ends.code n).status, w')) :
    runFirst e t first w = .ok (.ran (n % 256 : Nat) none w') := by
  obtain ⟨b', hb', hbs⟩ := isScript_iff file hlen hd hcar
  have hb'' : b' = false := by cases b'; rfl; exact absurd (hbs.1 rfl) hsp
  subst hb''
  have hst' : exitStatus (Ends.code n).status = n % 256 := by simp only [exitStatus, Ends.status]; omega
  have hr : runExternal e (skipAllBlanks first) w = .ok .missing := by
    unfold runExternal
    rw [hex, hp1]
    simp only [Res.ok_bind, ha1, hb]
  unfold runFirst
  rw [hn1]
  simp only [Res.ok_bind, hr]
  rw [hex, hl]
  simp only [Res.ok_bind, runSecond]
  rw [hn]
  simp only [Res.ok_bind, runExternal, runExternal_line hq hc hp he c e hex h, expandAll_still c hst, hf]
  rw [hex, hall]
  simp only [Res.ok_bind, runFound, hb', Bool.false_eq_true, if_false, executeFile, runFile, hos, if_true, hst']

/-- A command without any word runs nothing and is no error. -/
theorem C78_blank (c : Ctx) (e : ExecEnv W) (t : CmdTree CmdBody) (hex : e.ex = c.ex) {line : List Char} (h : ∀ d ∈ line, Blank d ∨ d = '@')
    (hn : NoCommand e t line) (w : W) : runFirst e t line w = .ok (.ran 0 none w) := by
  have hs : skipAllBlanks line = [] := by
    have := skipAll_append (s := []) h (by simp)
    rwa [List.append_nil] at this
  have hr : runExternal e (skipAllBlanks line) w = .ok (.done 0 none w) := by
    unfold runExternal
    rw [hs, hex, paramList_kept c (Kept.nil (w := []) (by simp))]
    rfl
  unfold runFirst
  rw [hn]
  simp only [Res.ok_bind, hr]

/-! ### Violations -/

/-- A program killed by a signal gives the error level 0, as if it had succeeded, whatever the signal: `program || command` does not run the
command. -/
theorem C78_signal (os : ExecReq → W → Child × W) (start : Option (List Char)) (q : ExecReq) (w w' : W) (s : Nat) (dump : Bool)
    (h : os q w = (.ended (Ends.killed s dump).status, w')) : executeFile os start false true q w = (0, false, w') := by
  have : exitStatus (Ends.killed s dump).status = 0 := by
    simp only [exitStatus, Ends.status]
    cases dump <;> simp <;> omega
  simp only [executeFile, runFile, h, Bool.false_eq_true, if_false, if_true, this]
  rfl

/-- With `PBAT_START_SCRIPT`, a file that cannot be executed is given to the start script; the error level is then 256 times the code of the
script. -/
theorem C78_start_code (os : ExecReq → W → Child × W) (script : List Char) (q : ExecReq) (w w' w'' : W) (n : Nat) (hn : n < 256)
    (h1 : os q w = (.noExec, w')) (h2 : os { q with file := script, argv := script :: q.file :: q.argv.drop 1 } w' = (.ended (Ends.code n).status, w'')) :
    executeFile os (some script) false true q w = (((256 * n : Nat) : Int), false, w'') := by
  have : (Ends.code n).status = 256 * n := by simp only [Ends.status]; omega
  rw [this] at h2
  simp only [executeFile, runFile, h1, Bool.false_eq_true, if_false, execAgain, startFile, h2, execReport, if_true]

/-- An environment without variables. -/
def bareEnv : ExecEnv (List ExecReq) where
  ex := delayedExpand false (fun _ => none) (fun _ _ v => v) fun _ => .ok none
  find := fun n => some n
  os := fun q w => (.ended 0, w ++ [q])
  start := none
  dir := "/".toList
  batch := fun _ b w => .ok (0, w ++ [⟨(b '*').getD [], [], []⟩])

/-- The arguments are expanded twice: `"a^^b"`, which stands for `a^b`, gives `ab`. -/
theorem C78_twice : runFirst bareEnv .leaf "p \"a^^b\"".toList [] =
    .ok (.ran 0 none [⟨"p".toList, ["p".toList, "ab".toList], "/".toList⟩]) := by
  rw [runFirst, show runTarget bareEnv.ex "p \"a^^b\"".toList .leaf = .ok .program from rfl]
  simp only [Res.ok_bind]
  rw [runExternal, show paramList bareEnv.ex (skipAllBlanks "p \"a^^b\"".toList) = .ok ["p".toList, "ab".toList] by decide +kernel,
    show bareEnv.ex (skipAllBlanks "p \"a^^b\"".toList) = .ok "p \"a^b\"".toList by decide +kernel]
  simp only [Res.ok_bind, runFound, bareEnv, show isScript "p".toList = .ok false by decide +kernel]
  rfl

/-- `%*` is taken from the line after it has been expanded: a name written with an escaped blank leaves a part of itself in `%*`. -/
theorem C78_star : batchStar bareEnv.ex "my^ run.bat x".toList = .ok "x".toList ∧
    (bareEnv.ex "my^ run.bat x".toList >>= batchStar bareEnv.ex) = .ok "run.bat x".toList := by
  constructor <;> decide +kernel

/-! ### Examples -/

example : CommandLine (fun c => c == '"' || c == '^' || c == '%' || c == '!') " @\"my prog\" a \"b c\"".toList "my prog".toList
    " a \"b c\"".toList ["a".toList, "b c".toList] :=
  .intro (lead := " @".toList) (x := "\"my prog\"".toList) (by decide) (.quoted (a := "my prog".toList)) (by decide)
    (.inr ⟨' ', "a \"b c\"".toList, rfl, by decide⟩)
    (.cons (w := [' ']) (x := ['a']) (b := ' ') (rest := "\"b c\"".toList) (by decide) (.word (by decide) (by decide) (by decide) (by decide)) (by decide)
      (.last (w := []) (x := "\"b c\"".toList) (by decide) (.quoted (a := "b c".toList))))

example : NoCommand bareEnv .leaf " @\"my prog\" a \"b c\"".toList ∧ bareEnv.find "my prog".toList = some "my prog".toList ∧
    ¬ ScriptPath "my prog".toList ∧ bareEnv.os ⟨"my prog".toList, [], []⟩ [] = (.ended (Ends.code 256).status, [⟨"my prog".toList, [], []⟩]) := by
  refine ⟨rfl, rfl, ?_, rfl⟩
  rintro ⟨b, e, h1, h2⟩
  obtain ⟨s, rfl, -⟩ := script_ext h2
  have : '.' ∈ "my prog".toList := by rw [h1]; simp
  exact absurd this (by decide)

example : Still "run.bat a b".toList ∧ ScriptPath "/bin/run.BAT".toList :=
  ⟨by decide, "/bin/run".toList, ".BAT".toList, rfl, .inl (by decide)⟩

end PBat
