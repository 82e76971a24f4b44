import Verif.Model.Startup
import Verif.Spec.Startup
import Verif.Lemmas.Exec
import Verif.Lemmas.Wild
/-
Lemmas about the command line of the interpreter.
-/
namespace PBat
open Spec

/-- The modes of several words: the quiet mode is that of the last word. -/
def modesOf (s : Startup) (lss : List (List Char)) : Startup := lss.foldl (fun s ls => ls.foldl initMode { s with quiet := false }) s

theorem modesWord_modes {w ls : List Char} (h : ModesWord w ls) :
    ∃ c t, w = '/' :: c :: t ∧ c.toUpper = 'A' ∧ ∀ s, initModes s t = ls.foldl initMode { s with quiet := false } := by
  cases h with
  | @plain a _ ha hl =>
    rcases ha with rfl | rfl
    · refine ⟨'a', ls, rfl, by decide, fun s => ?_⟩
      unfold initModes
      split
      · simp at hl
      · rfl
    · refine ⟨'A', ls, rfl, by decide, fun s => ?_⟩
      unfold initModes
      split
      · simp at hl
      · rfl
  | @colon a _ ha =>
    rcases ha with rfl | rfl
    · exact ⟨'a', ':' :: ls, rfl, by decide, fun s => rfl⟩
    · exact ⟨'A', ':' :: ls, rfl, by decide, fun s => rfl⟩

theorem getParameters_modes (var : Option (List Char)) {ws lss : List (List Char)} (h : ModesWords ws lss) (s : Startup)
    (rest : List (List Char)) : getParameters var true s (ws ++ rest) = getParameters var true (modesOf s lss) rest := by
  induction h generalizing s with
  | nil => rfl
  | @cons w ls ws lss hw _ ih =>
    obtain ⟨c, t, rfl, hc, hm⟩ := modesWord_modes hw
    rw [List.cons_append, getParameters.eq_2, if_pos ⟨rfl, rfl⟩]
    simp only [List.drop_succ_cons, List.drop_zero, hc, if_true]
    rw [ih, hm]
    rfl

/-- The letter is among the letters. -/
def hasLetter (l : Char) (ls : List Char) : Bool := ls.any fun c => c.toLower == l

theorem initMode_eq (s : Startup) (c : Char) : initMode s c =
    { s with delayed := s.delayed || c.toLower == 'v', echo := s.echo && !(c.toLower == 'e'), cmdly := s.cmdly || c.toLower == 'c',
             quiet := s.quiet || c.toLower == 'q' } := by
  have hv : c.toUpper = 'V' ↔ c.toLower = 'v' := upper_lower c 'v'
  have he : c.toUpper = 'E' ↔ c.toLower = 'e' := upper_lower c 'e'
  have hc : c.toUpper = 'C' ↔ c.toLower = 'c' := upper_lower c 'c'
  have hq : c.toUpper = 'Q' ↔ c.toLower = 'q' := upper_lower c 'q'
  unfold initMode
  simp only [hv, he, hc, hq]
  generalize c.toLower = d
  cases s
  repeat' split
  all_goals simp_all

theorem foldl_initMode (ls : List Char) (s : Startup) : ls.foldl initMode s =
    { s with delayed := s.delayed || hasLetter 'v' ls, echo := s.echo && !hasLetter 'e' ls, cmdly := s.cmdly || hasLetter 'c' ls,
             quiet := s.quiet || hasLetter 'q' ls } := by
  induction ls generalizing s with
  | nil => simp [hasLetter]
  | cons c ls ih =>
    rw [List.foldl_cons, ih, initMode_eq]
    simp [hasLetter, Bool.or_assoc, Bool.and_assoc]

theorem hasLetter_iff (l : Char) (ls : List Char) : hasLetter l ls = true ↔ ∃ c ∈ ls, c.toLower = l := by
  simp [hasLetter]

theorem modesOf_eq (lss : List (List Char)) (s : Startup) : ∃ b, (∀ ls, lss.getLast? = some ls → b = decide (ModeAsked 'q' [ls])) ∧ modesOf s lss =
    { s with delayed := s.delayed || decide (ModeAsked 'v' lss), echo := s.echo && !decide (ModeAsked 'e' lss),
             cmdly := s.cmdly || decide (ModeAsked 'c' lss), quiet := b } ∧ (lss = [] → b = s.quiet) := by
  have asked : ∀ l ls lss, decide (ModeAsked l (ls :: lss)) = (hasLetter l ls || decide (ModeAsked l lss)) := by
    intro l ls lss
    rw [Bool.eq_iff_iff, decide_eq_true_iff, Bool.or_eq_true, decide_eq_true_iff, hasLetter_iff]
    simp only [ModeAsked, List.mem_cons, exists_eq_or_imp]
  have none : ∀ l, decide (ModeAsked l []) = false := by intro l; simp [ModeAsked]
  induction lss generalizing s with
  | nil => exact ⟨s.quiet, by simp, by simp [modesOf, none], fun _ => rfl⟩
  | cons ls lss ih =>
    obtain ⟨b, h1, h2, h3⟩ := ih (ls.foldl initMode { s with quiet := false })
    refine ⟨b, ?_, ?_, by simp⟩
    · intro m hm
      cases lss with
      | nil =>
        simp only [List.getLast?_singleton, Option.some.injEq] at hm
        subst hm
        rw [h3 rfl, foldl_initMode, asked, none]
        simp
      | cons l2 lss => exact h1 m (by simpa using hm)
    · show modesOf (ls.foldl initMode { s with quiet := false }) lss = _
      rw [h2, foldl_initMode]
      simp only [asked, Bool.or_assoc, Bool.and_assoc, Bool.not_or]

theorem getParameters_file (var : Option (List Char)) (sw : Bool) (s : Startup) (file : List Char) (as : List (List Char)) (hne : file ≠ [])
    (hf : sw = true → file.head? ≠ some '/') : getParameters var sw s (file :: as) = .run { s with file := some (file, as) } := by
  rw [getParameters.eq_2, if_neg (fun h => hf h.2 h.1), if_neg hne]

theorem getParameters_end (var : Option (List Char)) (s : Startup) (as : List (List Char)) :
    getParameters var true s (['/', '/'] :: as) = getParameters var false s as := by
  rw [getParameters.eq_2, if_pos ⟨rfl, rfl⟩]
  simp only [List.drop_succ_cons, List.drop_zero]
  rw [if_neg (by decide), if_neg (by decide), if_neg (by decide), if_pos trivial]

theorem getParameters_command (var : Option (List Char)) (s : Startup) (c : Char) (t b : List Char) (bs : List (List Char))
    (hc : c.toUpper = 'K' ∨ c.toUpper = 'C') (hs : s.command = none) (hb : b ≠ ['@']) : getParameters var true s (('/' :: c :: t) :: b :: bs) =
    .run { s with exits := if c.toUpper = 'K' then false else s.exits, command := some (joinCommand (b :: bs)) } := by
  rw [getParameters.eq_2, if_pos ⟨rfl, rfl⟩]
  simp only [List.drop_succ_cons, List.drop_zero]
  rw [if_neg (by rcases hc with h | h <;> rw [h] <;> decide), if_pos hc]
  simp only [hs, Option.isSome_none, Bool.false_eq_true, if_false, if_neg hb]

theorem blankChar_iff (a : List Char) : (a.any fun c => c == ' ' || c == '\t' || c == '\n') = true ↔ ∃ c ∈ a, c = ' ' ∨ c = '\t' ∨ c = '\n' := by
  simp [or_assoc]

/-- A word as it is put in the command. -/
def putWord (a : List Char) : List Char := if a.any fun c => c == ' ' || c == '\t' || c == '\n' then '"' :: (a ++ ['"']) else a

theorem putWord_written {q : Char → Bool} {a : List Char} (h : PlainWord q a) : Written q (putWord a) a := by
  obtain ⟨h1, h2, h3⟩ := h
  unfold putWord
  split
  · rename_i hb
    have : escape q a = a := escape_none fun c hc => (h2 c hc).1
    have w := Written.quoted (q := q) (a := a)
    rwa [this] at w
  · rename_i hb
    have hno : ¬ ∃ c ∈ a, c = ' ' ∨ c = '\t' ∨ c = '\n' := fun h => hb ((blankChar_iff a).2 h)
    refine .word h1 ?_ (fun hm => (h2 _ hm).2 rfl) fun c hc => (h2 c hc).1
    intro c hc hbl
    have h4 := h3.resolve_left hno c hc
    rcases hbl with h | h | h | h | h
    · exact hno ⟨c, hc, .inl h⟩
    · exact hno ⟨c, hc, .inr (.inl h)⟩
    · exact h4.1 h
    · exact h4.2 h
    · exact hno ⟨c, hc, .inr (.inr h)⟩

theorem joinCommand_line {q : Char → Bool} {ws : List (List Char)} (h : ∀ a ∈ ws, a = [] ∨ PlainWord q a) {w : List Char}
    (hw : ∀ c ∈ w, Blank c) : ParamLine q (w ++ joinCommand ws) (ws.filter (· ≠ [])) := by
  induction ws generalizing w with
  | nil => simpa [joinCommand] using ParamLine.none hw
  | cons a ws ih =>
    have ih' := fun {w : List Char} hw => ih (w := w) (fun x hx => h x (by simp [hx])) hw
    have e : joinCommand (a :: ws) = putWord a ++ ' ' :: joinCommand ws := rfl
    rw [e]
    by_cases ha : a = []
    · subst ha
      have := ih' (w := w ++ [' ']) (by
        intro c hc
        rcases List.mem_append.1 hc with hc | hc
        · exact hw c hc
        · exact .inl (by simpa using hc))
      simpa [putWord] using this
    · have hp := (h a (by simp)).resolve_left ha
      have := ParamLine.cons hw (putWord_written hp) (.inl rfl : Blank ' ') (ih' (w := []) (by simp))
      rw [List.filter_cons_of_pos (by simpa using ha)]
      simpa using this

theorem initModes_delayed (s : Startup) (t : List Char) (h : s.delayed = true) : (initModes s t).delayed = true := by
  unfold initModes
  split <;> rw [foldl_initMode] <;> simp [h]

theorem getParameters_delayed (var : Option (List Char)) (as : List (List Char)) (sw : Bool) (s : Startup) (h : s.delayed = true) (s' : Startup)
    (hs : getParameters var sw s as = .run s') : s'.delayed = true := by
  fun_induction getParameters var sw s as with
  | case1 => cases hs; exact h
  | case2 => cases hs
  | case3 _ _ _ _ _ _ _ _ _ ih => exact ih (initModes_delayed _ _ h) hs
  | _ => first | (cases hs; done) | (cases hs; exact h) | (rename_i ih; exact ih h hs)

end PBat
