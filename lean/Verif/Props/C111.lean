import Verif.Lemmas.Program
import Verif.Props.C18
import Verif.Props.C13
/-
C111: scripts run as they are written.
-/
namespace PBat.Prog
open PBat PBat.Spec PBat.Spec.Prog

variable {ν W τ : Type}

/-- From the text to the effects: for every script, every state and all commands, variables, arguments and files.  If the script, line by
line as it is reached, expands to lines of commands joined by `&`, `&&`, `||` and `|`, each with redirections anywhere in it, then it runs
exactly the commands written, in the order and under the conditions the operators give, each once, with its text without the redirections
and with the streams they name; files are opened before their command; and after each line it goes on where the commands left the script.
Partial: the commands are not blocks, IF, FOR or calls (C43, C44 and C46 are about these), and a line left by a command has no pipes
(C46). -/
theorem C111_script_partial (h : Host ν W τ) (st st' : St (W × Script) τ) (ho : st.io.outOwn = true) (he : st.io.errOut = false)
    (hr : Runs nameSpecial h st st') : ∃ n, ∀ k, h.run (n + k) st = some st' := by
  induction hr with
  | @done st hd =>
    refine ⟨1, ?_⟩
    intro k
    have hf : h.sys.fetch st.world = none := by
      show h.fetch st.world = none
      unfold Host.fetch getLine
      rw [hd]
    rw [Host.run, Nat.add_comm, runBatch, hf]
  | @left st st' hs ha =>
    obtain ⟨nodes, w, h1, h2⟩ := step_run h st st' hs ho he
    refine ⟨3, ?_⟩
    intro k
    have h2 := h2 k
    have hf : h.sys.fetch st.world = some (nodes, w) := h1
    rw [Host.run, show 3 + k = (k + 2) + 1 by omega, runBatch, hf]
    cases hx : runLine h.sys (k + 2) nodes { st with world := w } with
    | none => rw [hx] at h2; cases h2
    | some x =>
      rw [hx, Option.map_some, Option.some.injEq] at h2
      simp only [hx]
      rw [h2, if_pos ha]
  | @next st st' st'' hs ha _ ih =>
    obtain ⟨nodes, w, h1, h2⟩ := step_run h st st' hs ho he
    have hio : st'.io = st.io := by
      have h2 := h2 0
      cases hx : runLine h.sys (0 + 2) nodes { st with world := w } with
      | none => rw [hx] at h2; cases h2
      | some x =>
        rw [hx, Option.map_some, Option.some.injEq] at h2
        have := C17_line h.sys _ _ x.1 _ x.2 hx
        rw [← h2]
        exact this
    obtain ⟨n, hn⟩ := ih (by rw [← ho, ← hio]) (by rw [← he, ← hio])
    refine ⟨n + 3, ?_⟩
    intro k
    have h2 := h2 (n + k)
    have hf : h.sys.fetch st.world = some (nodes, w) := h1
    have hn := hn (k + 2)
    rw [Host.run] at hn
    rw [Host.run, show n + 3 + k = (n + k + 2) + 1 by omega, runBatch, hf]
    cases hx : runLine h.sys (n + k + 2) nodes { st with world := w } with
    | none => rw [hx] at h2; cases h2
    | some x =>
      rw [hx, Option.map_some, Option.some.injEq] at h2
      simp only [hx]
      rw [h2, if_neg ha]
      rw [show n + (k + 2) = n + k + 2 by omega] at hn
      exact hn

/-- For a file whose lines of commands stand on lines of their own, between labels, comments and blank lines, without percent signs, and
commands that do not move the script: the script is the sequence of its lines.  The result is that of running them one after the other. -/
theorem C111_file_partial (h : Host ν W τ) (hs : Stays h) (items : List Char → List RedirItem) (texts : List (List Char)) (size : Nat)
    (prog : List SrcLine) (w : W) (err : Int) (io : Io τ) (ho : io.outOwn = true) (he : io.errOut = false)
    (htext : commands (effective texts) = prog.map fun l => l.text ++ ['\n'])
    (hprog : ∀ l ∈ prog, Sentence nameSpecial items l ∧ '%' ∉ l.text ∧
      ∀ c ∈ l.cmds, h.cls (textOf (items c)) = .simple (textOf (items c)))
    (hp : (∀ l ∈ prog, l.NoPipes) ∨ ∀ c w e s, (h.base.exec c w e s).2.2 = .no) (st' : St (W × Script) τ)
    (hrun : program h items prog ⟨(w, loadScript texts size), err, .no, io⟩ = some st') :
    ∃ n, ∀ k, h.run (n + k) ⟨(w, loadScript texts size), err, .no, io⟩ = some st' := by
  refine C111_script_partial h _ st' ho he ?_
  have key : ∀ (prog : List SrcLine) (st : St (W × Script) τ), st.abort = .no →
      st.world.2.cmds.drop st.world.2.curr = prog.map (fun l => l.text ++ ['\n']) →
      (∀ l ∈ prog, Sentence nameSpecial items l ∧ '%' ∉ l.text ∧ ∀ c ∈ l.cmds, h.cls (textOf (items c)) = .simple (textOf (items c))) →
      ((∀ l ∈ prog, l.NoPipes) ∨ ∀ c w e s, (h.base.exec c w e s).2.2 = .no) →
      program h items prog st = some st' → Runs nameSpecial h st st' := by
    intro prog
    induction prog with
    | nil =>
      intro st _ hd _ _ hr
      cases hr
      exact .done hd
    | cons l ls ih =>
      intro st ha hd hprog hp hr
      obtain ⟨h1, h2, h3⟩ := hprog l (by simp)
      rw [program] at hr
      obtain ⟨st1, hst1, hr⟩ := Option.bind_eq_some_iff.1 hr
      have hstep : Step nameSpecial h st st1 := by
        refine ⟨[l.text ++ ['\n']], ls.map (fun l => l.text ++ ['\n']), [l.text ++ ['\n']], l, items, ?_, ?_, by simp, h1, h3, hst1, ?_⟩
        · rw [hd]
          rfl
        · exact ⟨(means_iff _ _ _ _).1 (C13_plain _ _ _ _ (by simp [h2])), by simp, trivial⟩
        · rcases hp with hp | hp
          · exact .inl (hp l (by simp))
          · refine .inr (chain_goes hp _ _ _ _ ?_ hst1)
            exact ha
      by_cases hl : st1.abort = .level
      · rw [if_pos hl] at hr
        cases hr
        exact .left hstep hl
      · rw [if_neg hl] at hr
        refine .next hstep hl (ih { st1 with abort := .no } rfl ?_ (fun l hl => hprog l (by simp [hl])) ?_ hr)
        · have := chain_stays hs _ _ _ _ hst1
          simp only [this]
          rw [← List.drop_drop, hd]
          rfl
        · rcases hp with hp | hp
          · exact .inl fun l hl => hp l (by simp [hl])
          · exact .inr hp
  refine key prog _ rfl ?_ hprog hp hrun
  show (loadScript texts size).cmds.drop _ = _
  rw [C18_start, htext]

/-- A line in which one command redirects the same stream twice runs none of its commands, neither those before nor those after it: only the
position of the script changes, the error level does not. -/
theorem C111_refused (h : Host ν W τ) (st : St (W × Script) τ) (cs rest ts : List (List Char)) (items : List Char → List RedirItem) (l : SrcLine)
    (hw : ∃ strict, Whole strict l.text) (hj : WellFormed l.first.1 l.tail) (hr : ∀ c ∈ l.cmds, RedirCommand nameSpecial c (items c))
    (hd : ∃ c ∈ l.cmds, ¬ Once (items c)) (hsc : st.world.2.cmds.drop st.world.2.curr = cs ++ rest) (hex : Each (Means h st.world.1) cs ts)
    (ht : ts.flatten = l.text ++ ['\n']) (ha : st.abort = .no) (n : Nat) :
    h.run (n + 2) st = h.run (n + 1) { st with
      world := (h.echo l.text st.world.1, { st.world.2 with curr := st.world.2.curr + cs.length }) } := by
  have hf : h.sys.fetch st.world = some (h.nodes (h.echo l.text st.world.1) l.text,
      (h.echo l.text st.world.1, { st.world.2 with curr := st.world.2.curr + cs.length })) :=
    fetch_text h st.world.1 st.world.2 cs rest ts l.text hw hsc hex ht
  rw [Host.run, runBatch, hf, nodes_refused h _ items l hj hr hd]
  simp only [runLine, runNodes]
  rw [if_neg (by simp [ha]), Host.run, ← ha]

/-! ### A script -/

/-- Commands that record their text and their streams; `two` fails. -/
def demo : Host Unit (List (List Char × List Char × List Char × List Char)) (List Char) where
  base := {
    exec := fun c x _ s => (((c, s.1, s.2.1, s.2.2) :: x.1, x.2), if c = " two ".toList then 1 else 0, .no)
    test := fun _ _ _ => .no
    setVar := fun _ x => x
    openFile := fun f _ x => (x, some f)
    pipe := fun x => (x, "pipe".toList)
    spawn := fun _ c _ t _ x => match c with
      | .simple c => (((c, [], t, []) :: x.1), x.2)
      | _ => x
    enter := fun _ x => .ok x
    leave := fun _ x => x
    fetch := fun _ => none }
  args := fun _ _ => none
  loops := fun _ _ => none
  mods := fun _ _ _ v => v
  vars := fun _ _ => none
  delayed := fun _ => false
  full := fun _ f => f
  cls := .simple
  echo := fun _ w => w

theorem demo_stays : Stays demo where
  exec _ _ _ _ := rfl
  opens _ _ _ := rfl
  pipe _ := rfl
  spawn _ c _ _ _ _ := by cases c <;> rfl

def demoLines : List SrcLine :=
  [⟨("one >f ".toList, []), [(.and, (" two ".toList, [])), (.and, (" three ".toList, [])), (.or, (" four".toList, []))]⟩,
   ⟨("five ".toList, [" six".toList]), []⟩]

def demoItems (c : List Char) : List RedirItem :=
  if c = "one >f ".toList then [.text "one ".toList, .out false false "f".toList, .text [' ']] else [.text c]

/-- The file, with a label and a comment. -/
def demoTexts : List (List Char) :=
  [":start\n".toList, "one >f && two && three || four\n".toList, ":: nothing\n".toList, "  five | six".toList]

theorem demo_sentence1 : Sentence nameSpecial demoItems
    ⟨("one >f ".toList, []), [(.and, (" two ".toList, [])), (.and, (" three ".toList, [])), (.or, (" four".toList, []))]⟩ where
  whole := by
    refine ⟨true, ?_⟩
    refine .cons (l := "one >f ".toList) (c := '&') (.plain (w := []) (by simp) (by decide) (by decide) (by decide)) (.inl rfl) ?_
    refine .cons (l := []) (c := '&') (.plain (w := []) (t := []) (by simp) (by simp) (by decide) (by decide)) (.inl rfl) ?_
    refine .cons (l := " two ".toList) (c := '&') (.plain (w := [' ']) (t := "two ".toList) (by decide) (by decide) (by decide) (by decide)) (.inl rfl) ?_
    refine .cons (l := []) (c := '&') (.plain (w := []) (t := []) (by simp) (by simp) (by decide) (by decide)) (.inl rfl) ?_
    refine .cons (l := " three ".toList) (c := '|') (.plain (w := [' ']) (t := "three ".toList) (by decide) (by decide) (by decide) (by decide)) (.inr (.inl rfl)) ?_
    refine .cons (l := []) (c := '|') (.plain (w := []) (t := []) (by simp) (by simp) (by decide) (by decide)) (.inr (.inl rfl)) ?_
    exact .last (.plain (w := [' ']) (t := "four".toList) (by decide) (by decide) (by decide) (by decide))
  joined := by
    refine ⟨.plain (by decide), by unfold Precedes; decide, by decide, .plain (by decide), by unfold Precedes; decide, by decide,
      .plain (by decide), by unfold Precedes; decide, by decide, .plain (by decide)⟩
  redirected := by
    intro c hc
    simp only [SrcLine.cmds, SrcLine.tail, pipes, List.map_nil, List.nil_append, List.flatMap_cons, List.flatMap_nil, List.append_nil,
      List.cons_append, List.map_cons, List.mem_cons, List.not_mem_nil, or_false] at hc
    rcases hc with rfl | rfl | rfl | rfl
    · refine .plain ?_ (.inl (by decide))
      exact .file (t := "one ".toList) (s := ['>']) (w := []) (x := ['f']) (rest := [' ']) (by decide) (.out (app := false))
        (fun _ => NoNumber_last (by decide) (by decide)) (by simp) (.word (by decide) (by decide) (by decide) (by decide))
        (by rintro c h; cases h; exact .inl (.inl rfl)) (.last (NoSign.none (t := [' ']) (by decide)))
    · exact .plain (.last (NoSign.none (t := " two ".toList) (by decide))) (.inl (by decide))
    · exact .plain (.last (NoSign.none (t := " three ".toList) (by decide))) (.inl (by decide))
    · exact .plain (.last (NoSign.none (t := " four".toList) (by decide))) (.inl (by decide))
  once := by decide
  noColon := by
    intro w r h
    have : ':' ∈ w ++ ':' :: r := by simp
    rw [← h] at this
    exact absurd this (by decide)

theorem demo_sentence2 : Sentence nameSpecial demoItems ⟨("five ".toList, [" six".toList]), []⟩ where
  whole := by
    refine ⟨true, ?_⟩
    refine .cons (l := "five ".toList) (c := '|') (.plain (w := []) (by simp) (by decide) (by decide) (by decide)) (.inr (.inl rfl)) ?_
    exact .last (.plain (w := [' ']) (t := "six".toList) (by decide) (by decide) (by decide) (by decide))
  joined := ⟨.plain (by decide), by unfold Precedes; decide, by decide, .plain (by decide)⟩
  redirected := by
    intro c hc
    simp only [SrcLine.cmds, SrcLine.tail, pipes, List.map_cons, List.map_nil, List.flatMap_nil, List.append_nil, List.mem_cons,
      List.not_mem_nil, or_false] at hc
    rcases hc with rfl | rfl
    · exact .plain (.last (NoSign.none (t := "five ".toList) (by decide))) (.inl (by decide))
    · exact .plain (.last (NoSign.none (t := " six".toList) (by decide))) (.inl (by decide))
  once := by decide
  noColon := by
    intro w r h
    have : ':' ∈ w ++ ':' :: r := by simp
    rw [← h] at this
    exact absurd this (by decide)

/-- All hypotheses are met, and the commands run are `one` with its output in `f`, `two`, which fails, `four`, and the pipeline. -/
example : ∃ st' n, (∀ k, demo.run (n + k) ⟨([], loadScript demoTexts 60), 0, .no, ⟨"in".toList, "out".toList, "err".toList, true, false, []⟩⟩ = some st') ∧
    st'.world.1.reverse = [("one  ".toList, "in".toList, "f".toList, "err".toList), (" two ".toList, "in".toList, "out".toList, "err".toList),
      (" four".toList, "in".toList, "out".toList, "err".toList), ("five ".toList, [], "pipe".toList, []),
      (" six".toList, "pipe".toList, "out".toList, "err".toList)] := by
  cases hp : program demo demoItems demoLines ⟨([], loadScript demoTexts 60), 0, .no, ⟨"in".toList, "out".toList, "err".toList, true, false, []⟩⟩ with
  | none => exact absurd (congrArg Option.isSome hp) (by decide +kernel)
  | some st' =>
    obtain ⟨n, hn⟩ := C111_file_partial demo demo_stays demoItems demoTexts 60 demoLines [] 0 ⟨"in".toList, "out".toList, "err".toList, true, false, []⟩
      rfl rfl (by decide +kernel) (by
        intro l hl
        simp only [demoLines, List.mem_cons, List.not_mem_nil, or_false] at hl
        rcases hl with rfl | rfl
        · exact ⟨demo_sentence1, by decide, fun _ _ => rfl⟩
        · exact ⟨demo_sentence2, by decide, fun _ _ => rfl⟩) (.inr fun _ _ _ _ => rfl) st' hp
    refine ⟨st', n, hn, ?_⟩
    have := congrArg (Option.map fun s => s.world.1.reverse) hp
    have hv : (program demo demoItems demoLines ⟨([], loadScript demoTexts 60), 0, .no,
        ⟨"in".toList, "out".toList, "err".toList, true, false, []⟩⟩).map (fun s => s.world.1.reverse) =
      some [("one  ".toList, "in".toList, "f".toList, "err".toList), (" two ".toList, "in".toList, "out".toList, "err".toList),
      (" four".toList, "in".toList, "out".toList, "err".toList), ("five ".toList, [], "pipe".toList, []),
      (" six".toList, "pipe".toList, "out".toList, "err".toList)] := by decide +kernel
    rw [hv] at this
    simpa using this.symm

/-- A refused line: in `a & b >f >g` not even `a` runs, and the error level remains. -/
example : (demo.run 9 ⟨([], loadScript ["a & b >f >g\n".toList] 12), 3, .no, ⟨"in".toList, "out".toList, "err".toList, true, false, []⟩⟩).map
    (fun s => (s.world.1.length, s.err)) = some (0, 3) := by decide +kernel

/-- It meets the hypotheses of `C111_refused`. -/
example : (∃ strict, Whole strict "a & b >f >g".toList) ∧ WellFormed "a ".toList [(.seq, " b >f >g".toList)] ∧
    RedirCommand nameSpecial " b >f >g".toList
      [.text " b ".toList, .out false false ['f'], .text [' '], .out false false ['g'], .text []] ∧
    ¬ Once [.text " b ".toList, .out false false ['f'], .text [' '], .out false false ['g'], .text []] := by
  refine ⟨⟨true, ?_⟩, ⟨.plain (by decide), by unfold Precedes; decide, by decide, .plain (by decide)⟩, .plain ?_ (.inl (by decide)), by decide⟩
  · refine .cons (l := "a ".toList) (c := '&') (.plain (w := []) (by simp) (by decide) (by decide) (by decide)) (.inl rfl) ?_
    exact .last (.plain (w := [' ']) (t := "b >f >g".toList) (by decide) (by decide) (by decide) (by decide))
  · refine .file (t := " b ".toList) (s := ['>']) (w := []) (x := ['f']) (rest := " >g".toList) (by decide) (.out (app := false))
      (fun _ => NoNumber_last (by decide) (by decide)) (by simp) (.word (by decide) (by decide) (by decide) (by decide))
      (by rintro c h; cases h; exact .inl (.inl rfl)) ?_
    exact .file (t := [' ']) (s := ['>']) (w := []) (x := ['g']) (rest := []) (by decide) (.out (app := false))
      (fun _ => NoNumber_last (by decide) (by decide)) (by simp) (.word (by decide) (by decide) (by decide) (by decide))
      (by simp) (.last (NoSign.none (t := []) (by decide)))

end PBat.Prog
