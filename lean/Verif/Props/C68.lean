import Verif.Model.Xargs
import Verif.Lemmas.Shift
import Verif.Lemmas.Echo
/-
C68: XARGS runs a command with the lines of the input as parameters.
-/
namespace PBat

namespace Spec

/-- A line of the input and its text: the last line may lack its end. -/
inductive LineText : List Char → List Char → Prop
  | ended {l} : '\n' ∉ l → LineText (l ++ ['\n']) l
  | last {l} : '\n' ∉ l → LineText l l

/-- The lines of an input and their texts. -/
inductive LineTexts : List (List Char) → List (List Char) → Prop
  | nil : LineTexts [] []
  | cons {i l is ls} : LineText i l → LineTexts is ls → LineTexts (i :: is) (l :: ls)

/-- A line that nothing changes on its way: not empty, without quote, caret, percent or exclamation mark. -/
def PlainLine (l : List Char) : Prop := l ≠ [] ∧ ∀ c ∈ l, c ∉ ['"', '^', '%', '!']

instance (l) : Decidable (PlainLine l) := by unfold PlainLine; infer_instance

end Spec

open Spec

/-! ### Helper lemmas -/

theorem rmTrailing_line {i l : List Char} (h : LineText i l) : rmTrailingNl i = l := by
  cases h with
  | ended h => simp [rmTrailingNl]
  | last h =>
    unfold rmTrailingNl
    rw [if_neg]
    intro h0
    exact h (List.mem_of_getLast? h0)

theorem kept_blanks {w : List Char} (hw : ∀ d ∈ w, Blank d) {t : List Char} {as : List (List Char)} (h : Kept t as) : Kept (w ++ t) as := by
  cases h with
  | nil hv => exact .nil (by intro d hd; rcases List.mem_append.1 hd with hd | hd; exact hw d hd; exact hv d hd)
  | cons hv hx hs ht =>
    rw [← List.append_assoc]
    exact .cons (by intro d hd; rcases List.mem_append.1 hd with hd | hd; exact hw d hd; exact hv d hd) hx hs ht

theorem kept_append {t : List Char} {as : List (List Char)} (h : Kept t as) {u : List Char} {bs : List (List Char)} (hu : Kept u bs)
    (hs : Stops u) : Kept (t ++ u) (as ++ bs) := by
  induction h with
  | nil hw => exact kept_blanks hw hu
  | @cons w x a t as hw hx hst _ ih =>
    rw [List.append_assoc, List.append_assoc]
    refine .cons hw hx ?_ ih
    rcases hst with rfl | ⟨b, r, rfl, hb⟩
    · exact hs
    · exact .inr ⟨b, r ++ u, rfl, hb⟩

def xargsQuote : Char → Bool := fun c => ['"', '^', '%', '!'].contains c

theorem xargsAdd_plain {i l : List Char} (hi : LineText i l) (hl : PlainLine l) : ∃ x, xargsAdd i = ' ' :: x ∧ ReadsAs x l := by
  have hq : ∀ c ∈ l, xargsQuote c = false := by
    intro c hc
    have := hl.2 c hc
    simpa [xargsQuote] using this
  have hnl : '\n' ∉ l := by cases hi <;> assumption
  unfold xargsAdd
  simp only [rmTrailing_line hi]
  have hrd : ∀ {x}, Written xargsQuote x l → ReadsAs x l := fun h => readsAs_written (by decide) (by decide) (by decide) (by decide) h
  split
  · refine ⟨'"' :: (l ++ ['"']), rfl, hrd ?_⟩
    have := Written.quoted (q := xargsQuote) (a := l)
    rwa [escape_none hq] at this
  · rename_i h
    refine ⟨l, rfl, hrd (.word hl.1 ?_ (fun h => by have := hl.2 _ h; simp at this) hq)⟩
    have h2 : (skipAllBlanks l).head? ≠ some '"' := by
      intro h0
      have hm : '"' ∈ skipAllBlanks l := by
        cases hs : skipAllBlanks l with
        | nil => rw [hs] at h0; simp at h0
        | cons c r => rw [hs] at h0; simp only [List.head?_cons, Option.some.injEq] at h0; simp [h0]
      have hsub : ∀ s : List Char, '"' ∈ skipAllBlanks s → '"' ∈ s := by
        intro s
        induction s with
        | nil => simp [skipAllBlanks]
        | cons c s ih =>
          simp only [skipAllBlanks]
          split
          · intro h; exact List.mem_cons_of_mem _ (ih h)
          · exact id
      have := hl.2 _ (hsub l hm)
      simp at this
    intro c hc hb
    apply h
    refine ⟨?_, h2⟩
    rw [List.any_eq_true]
    rcases hb with rfl | rfl | rfl | rfl | rfl
    · exact ⟨_, hc, rfl⟩
    · exact ⟨_, hc, rfl⟩
    · exact ⟨_, hc, rfl⟩
    · exact ⟨_, hc, rfl⟩
    · exact absurd hc hnl

theorem xargs_kept {is ls : List (List Char)} (h : LineTexts is ls) (hl : ∀ l ∈ ls, PlainLine l) :
    Kept (is.map xargsAdd).flatten ls ∧ Stops (is.map xargsAdd).flatten := by
  induction h with
  | nil => exact ⟨.nil (by simp), .inl rfl⟩
  | @cons i l is ls hi _ ih =>
    obtain ⟨h1, h2⟩ := ih fun x hx => hl x (by simp [hx])
    obtain ⟨x, hx, hr⟩ := xargsAdd_plain hi (hl l (by simp))
    simp only [List.map_cons, List.flatten_cons, hx]
    exact ⟨.cons (w := [' ']) (by simp [Blank]) hr h2 h1, stops_blank _⟩

theorem xargs_run {ex : List Char → Res (List Char)} {line t : List Char} {is : List (List Char)} (h1 : skipBlanks line ≠ [])
    (h2 : skipBlanks line ≠ "/?".toList) (hex : ex (skipBlanks line) = .ok t) :
    cmdXargs ex line is = .ok (.run (t ++ (is.map xargsAdd).flatten)) := by
  unfold cmdXargs
  simp only
  rw [if_neg h1, if_neg h2, hex]
  rfl

/-! ### The property -/

/-- XARGS runs the command given, once; its parameters are those given and then the lines of the input, each being one parameter,
unchanged.  Partial: the lines are not empty and have no quote, caret, percent or exclamation mark (see the violations), and the
parameters given are those left by the expansion of the command (`C68_twice`). -/
theorem C68_args_partial (c c' : Ctx) (line name args : List Char) (as is ls : List (List Char)) (h1 : skipBlanks line ≠ [])
    (h2 : skipBlanks line ≠ "/?".toList) (hex : c.ex (skipBlanks line) = .ok (name ++ args)) (ha : Kept args as) (hi : LineTexts is ls)
    (hl : ∀ l ∈ ls, PlainLine l) :
    ∃ tail, cmdXargs c.ex line is = .ok (.run (name ++ tail)) ∧ allParams stdDelims c'.ex tail = .ok (as ++ ls) := by
  obtain ⟨hk, hs⟩ := xargs_kept hi hl
  refine ⟨args ++ (is.map xargsAdd).flatten, ?_, allParams_kept c' (kept_append ha hk hs)⟩
  rw [xargs_run h1 h2 hex, List.append_assoc]

/-- In terms of what is written: a command name and a list of written arguments. -/
theorem C68_written_partial (c c' : Ctx) (q : Char → Bool) (hqq : q '"' = true) (hqc : q '^' = true) (hqp : q '%' = true)
    (hqe : q '!' = true) (w name args : List Char) (as is ls : List (List Char)) (hw : ∀ x ∈ w, Blank x) (d : Char) (r : List Char)
    (hn : name = d :: r) (hd : ¬ Blank d) (hh : name ++ args ≠ "/?".toList) (hp : ∀ x ∈ name ++ args, x ∉ ['^', '%', '!'])
    (ha : ParamLine q args as) (hi : LineTexts is ls) (hl : ∀ l ∈ ls, PlainLine l) :
    ∃ tail, cmdXargs c.ex (w ++ (name ++ args)) is = .ok (.run (name ++ tail)) ∧
      allParams stdDelims c'.ex tail = .ok (as ++ ls) := by
  have hsk : skipBlanks (w ++ (name ++ args)) = name ++ args := by
    rw [skipBlanks_append hw, hn, List.cons_append, skipBlanks_stop hd]
  refine C68_args_partial c c' _ name args as is ls (by rw [hsk, hn]; simp) (by rw [hsk]; exact hh) ?_
    (kept_line hqq hqc hqp hqe ha) hi hl
  rw [hsk]
  have h := delayedExpand_escape c.delayed c.loops c.mods c.getv (q := fun c => c == '^' || c == '%' || c == '!') rfl rfl rfl (name ++ args)
  rwa [escape_none] at h
  intro x hx
  have := hp x hx
  simpa [and_assoc] using this

/-- Without command nothing is read nor run. -/
theorem C68_missing (ex : List Char → Res (List Char)) (w : List Char) (is : List (List Char)) (hw : ∀ c ∈ w, Blank c) :
    cmdXargs ex w is = .ok .missing := by
  have := skipBlanks_append (s := []) hw
  rw [List.append_nil] at this
  unfold cmdXargs
  rw [this]
  rfl

/-! ### Violations -/

/-- Empty lines are lost: the command gets one parameter less for each. -/
theorem C68_empty (c c' : Ctx) (line name args : List Char) (as is ls is' ls' : List (List Char)) (h1 : skipBlanks line ≠ [])
    (h2 : skipBlanks line ≠ "/?".toList) (hex : c.ex (skipBlanks line) = .ok (name ++ args)) (ha : Kept args as) (hi : LineTexts is ls)
    (hl : ∀ l ∈ ls, PlainLine l) (hi' : LineTexts is' ls') (hl' : ∀ l ∈ ls', PlainLine l) :
    ∃ tail, cmdXargs c.ex line (is ++ ['\n'] :: is') = .ok (.run (name ++ tail)) ∧
      allParams stdDelims c'.ex tail = .ok (as ++ (ls ++ ls')) := by
  obtain ⟨hk, hs⟩ := xargs_kept hi hl
  obtain ⟨hk', hs'⟩ := xargs_kept hi' hl'
  have hk1 : Kept (' ' :: (is'.map xargsAdd).flatten) ls' := kept_blank hk'
  refine ⟨args ++ ((is.map xargsAdd).flatten ++ ' ' :: (is'.map xargsAdd).flatten), ?_,
    allParams_kept c' (kept_append ha (kept_append hk hk1 (stops_blank _)) ?_)⟩
  · rw [xargs_run h1 h2 hex]
    simp [List.append_assoc, show xargsAdd ['\n'] = [' '] from by decide]
  · rcases hs with h | ⟨b, r, h, hb⟩
    · rw [h]; exact stops_blank _
    · rw [h]; exact .inr ⟨b, _, rfl, hb⟩

def xargsCtx : Ctx := ⟨true, fun _ => none, fun _ _ _ => [], fun n => .ok (if n = "x".toList then some "val".toList else none)⟩

/-- Carets and names of variables inside lines are interpreted. -/
theorem C68_interpreted : ∃ tail, cmdXargs xargsCtx.ex "DEL".toList ["a^b\n".toList, "!x!\n".toList] = .ok (.run ("DEL".toList ++ tail)) ∧
    allParams stdDelims xargsCtx.ex tail = .ok ["ab".toList, "val".toList] :=
  ⟨" a^b !x!".toList, by decide +kernel, by decide +kernel⟩

/-- A line with quotes is not one parameter. -/
theorem C68_quotes : ∃ tail, cmdXargs xargsCtx.ex "DEL".toList ["\"a\" b\n".toList] = .ok (.run ("DEL".toList ++ tail)) ∧
    allParams stdDelims xargsCtx.ex tail = .ok ["a".toList, "b".toList] :=
  ⟨" \"a\" b".toList, by decide +kernel, by decide +kernel⟩

/-- The command itself is expanded twice: `XARGS ECHO a^^b` without input does not write what `ECHO a^^b` writes. -/
theorem C68_twice :
    cmdEcho xargsCtx.ex ⟨[], [], []⟩ true " a^^b".toList = .ok ⟨true, "a^b\n".toList, 0⟩ ∧
    cmdXargs xargsCtx.ex "ECHO a^^b".toList [] = .ok (.run "ECHO a^b".toList) ∧
    cmdEcho xargsCtx.ex ⟨[], [], []⟩ true " a^b".toList = .ok ⟨true, "ab\n".toList, 0⟩ :=
  ⟨by decide +kernel, by decide +kernel, by decide +kernel⟩

/-! ### Examples -/

example : LineTexts ["my file\n".toList, "b.txt".toList] ["my file".toList, "b.txt".toList] :=
  .cons (.ended (l := "my file".toList) (by decide)) (.cons (.last (by decide)) .nil)

example : PlainLine "my file".toList := by decide

example : ParamLine xargsQuote " /q".toList ["/q".toList] :=
  .last (w := " ".toList) (by decide) (.word (by decide) (by decide) (by decide) (by decide))

end PBat
