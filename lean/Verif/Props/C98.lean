import Verif.Spec.ErrorMsg
import Verif.Lemmas.Prompt
/-
C98: error messages name what is wrong and say why.
-/
namespace PBat.Err
open Spec

/-! ### Helper lemmas -/

theorem cformat_percents (t rest : List Char) (a : Option Arg) (o : List Char) (h : cformat rest a = .ok o) :
    cformat (percents t ++ rest) a = .ok (t ++ o) := by
  induction t with
  | nil => exact h
  | cons c t ih =>
    unfold percents
    split
    · rename_i hc; subst hc
      rw [List.cons_append, List.cons_append, cformat, ih]; rfl
    · rename_i hc
      rw [List.cons_append, cformat, ih]
      · rfl
      all_goals (intros; simp_all)

theorem cformat_hole (h : Hole) (s : List Char) : cformat h.format (some (.text s)) = .ok (h.fill s) := by
  unfold Hole.format Hole.fill
  rw [List.append_assoc, cformat_percents _ _ _ (s ++ h.after)]
  · rw [List.append_assoc]
  · rw [List.cons_append, List.cons_append, List.nil_append, cformat]
    have := cformat_percents h.after [] none [] rfl
    rw [List.append_nil, List.append_nil] at this
    rw [this]; rfl

theorem cformat_plain (t : List Char) (a : Option Arg) : cformat (percents t) a = .ok t := by
  have := cformat_percents t [] a [] rfl
  rwa [List.append_nil, List.append_nil] at this

theorem receives_chars (s : Screen) (t : List Char) (r : List Piece) :
    receives s (t.map .char ++ r) = (t.map (·, s) ++ (receives s r).1, (receives s r).2) := by
  induction t with
  | nil => rfl
  | cons c t ih => simp only [List.map_cons, List.cons_append, receives, ih]

theorem red_code {col : Nat} {b f : Colour} (h : Holds col b f) : (col &&& 0x1F0) ||| (0x01 ||| 0x08) = encFore brightRed ||| encBack b := by
  rw [h.1, show (0x01 ||| 0x08 : Nat) = encFore brightRed by decide, Nat.or_comm]

theorem bit_on : ∀ n : Fin 128, (n.val + 128).testBit 7 = true ∧ n.val.testBit 7 = false := by decide

/-- A message of the table and what it says about an argument. -/
inductive Says : List Char → Arg → List Char → Prop
  | hole {h : Hole} {s} : Says h.format (.text s) (h.fill s)
  | plain {t a} : Says (percents t) a t

theorem says_format {m : List Char} {a : Arg} {t : List Char} (h : Says m a t) : cformat m (some a) = .ok t := by
  cases h with
  | hole => exact cformat_hole _ _
  | plain => exact cformat_plain _ _

/-- The number given for a message with or without reason. -/
def numbered (n : Nat) (reason : Bool) : Nat := if reason then n + 128 else n

theorem show_eq (c : Ctx) (n : Nat) (reason : Bool) (m : List Char) (a : Arg) (t : List Char) (exit : Int) (hn : n < 128)
    (hm : c.table[n]? = some m) (hs : Says m a t) :
    showError c (numbered n reason) a exit =
      let red := setColor c ((c.col &&& 0x1F0) ||| (0x01 ||| 0x08))
      let body := red.1 ++ (errorText t (if reason then some (red.2.strerror red.2.errno) else none)).map .char ++ (setColor red.2 c.col).1
      if exit = 0 then .ok (body, none) else .ok (body ++ ('\n' :: quitMessage ++ ['\n']).map .char, some n) := by
  have hb := bit_on ⟨n, hn⟩
  have h1 : (numbered n reason).testBit 7 = reason := by cases reason <;> simp [numbered, hb]
  have h2 : (if reason = true then numbered n reason - 128 else numbered n reason) = n := by cases reason <;> simp [numbered]
  have h3 : messageText c.table n a = .ok (t ++ ['\n']) := by
    unfold messageText
    rw [if_pos (by omega), hm]
    simp only
    rw [says_format hs]
    rfl
  unfold showError
  simp only [h1, h2, h3]
  have h4 : ∀ r : List Char, t ++ ['\n'] ++ (if reason = true then reasonLabel ++ r ++ ['\n'] else []) =
      errorText t (if reason then some r else none) := by
    intro r; unfold errorText; cases reason <;> rfl
  rw [h4]
  by_cases he : exit = 0
  · rw [if_neg (by simpa using he), if_pos he]
  · rw [if_pos he, if_neg he]

/-! ### The property -/

/-- A message shows what it is about, whatever characters that is made of, followed by the reason if there is one, in bright red on the
background in force when the error stream is a terminal, the colours being afterwards what they were. If the program ends, its status is
the number of the message. Partial: a message with a reason is only right on a terminal (see `C98_reason`); the message must be about a
text (see `C98_conversions`, `C98_null`). -/
theorem C98_message_partial (c : Ctx) (n : Nat) (m : List Char) (a : Arg) (t : List Char) (reason : Bool) (exit : Int) (b f : Colour)
    (scr : Screen) (hn : n < 128) (hm : c.table[n]? = some m) (hs : Says m a t) (hcol : c.col = encFore f ||| encBack b)
    (htty : reason = true → c.tty = true) (hscr : scr = showing b f) :
    ∃ out, showError c (numbered n reason) a exit = .ok (out, if exit = 0 then none else some n) ∧
      receives scr out =
        ((errorText t (if reason then some (c.strerror c.errno) else none)).map (·, if c.tty then showing b brightRed else scr) ++
          (if exit = 0 then [] else ('\n' :: quitMessage ++ ['\n']).map (·, scr)), scr) := by
  rw [show_eq c n reason m a t exit hn hm hs]
  have hred : ∀ s : Screen, (setTextColor ((c.col &&& 0x1F0) ||| (0x01 ||| 0x08))).foldl Screen.sgr s = showing b brightRed := by
    intro s
    rw [red_code (f := f) (hcol ▸ holds_code b f)]
    exact setText_shows s b brightRed
  have hback : ∀ s : Screen, (setTextColor c.col).foldl Screen.sgr s = showing b f := by
    intro s; rw [hcol]; exact setText_shows s b f
  generalize hq : ('\n' :: quitMessage ++ ['\n']) = q
  have hquit : receives scr (q.map .char) = (q.map (·, scr), scr) := by
    have := receives_chars scr q []
    rw [List.append_nil] at this
    rw [this]; simp [receives]
  cases ht : c.tty with
  | true =>
    generalize htx : errorText t (if reason then some (c.strerror c.errno) else none) = tx
    have e1 : ∀ code, setColor c code = ([.color code], c) := fun code => by simp [setColor, ht]
    simp only [e1, htx, if_true]
    have e2 : ∀ r, receives scr ([.color ((c.col &&& 0x1F0) ||| (0x01 ||| 0x08))] ++ tx.map .char ++ [.color c.col] ++ r) =
        (tx.map (·, showing b brightRed) ++ (receives scr r).1, (receives scr r).2) := by
      intro r
      rw [List.append_assoc, List.append_assoc, List.cons_append, List.nil_append, receives, hred, receives_chars,
        List.cons_append, List.nil_append, receives, hback, ← hscr]
    by_cases he : exit = 0
    · rw [if_pos he, if_pos he, if_pos he]
      have := e2 []
      rw [List.append_nil] at this
      exact ⟨_, rfl, this⟩
    · rw [if_neg he, if_neg he, if_neg he]
      refine ⟨_, rfl, ?_⟩
      rw [e2, hquit]
  | false =>
    have hr : reason = false := by
      cases reason with
      | false => rfl
      | true => exact absurd (htty rfl) (by simp [ht])
    subst hr
    generalize htx : errorText t none = tx
    have e1 : ∀ code, (setColor c code).1 = [] := fun code => by simp [setColor, ht]
    have e3 : ∀ code code', (setColor (setColor c code').2 code).1 = [] := fun code code' => by simp [setColor, ht]
    simp only [e1, e3, Bool.false_eq_true, if_false, htx, List.nil_append, List.append_nil]
    by_cases he : exit = 0
    · rw [if_pos he, if_pos he, if_pos he]
      refine ⟨_, rfl, ?_⟩
      have := receives_chars scr tx []
      rw [List.append_nil] at this
      rw [this]; simp [receives]
    · rw [if_neg he, if_neg he, if_neg he]
      refine ⟨_, rfl, ?_⟩
      rw [receives_chars, hquit]

/-- The numbers of the messages that are about something else than a text. -/
def odd : List Nat := [16, 19, 25, 28, 55]

/-- The messages of the source, these apart, have at most one hole. -/
theorem C98_table : ∀ n < 62, n ∉ odd → ∃ m, messages[n]? = some m ∧
    ((∃ h : Hole, m.toList = h.format) ∨ ∃ t, m.toList = percents t) := by
  intro n hn ho
  have key : ∀ n : Fin 62, n.val ∉ odd → (fun m : List Char => let i := (m.takeWhile (· ≠ '%')).length
      m = (Hole.mk (m.take i) (m.drop (i + 2))).format ∨ m = percents m) ((messages[n.val]?).getD "").toList := by decide +kernel
  have hl : n < messages.length := by rw [show messages.length = 62 by decide +kernel]; exact hn
  refine ⟨messages[n], List.getElem?_eq_getElem hl, ?_⟩
  have := key ⟨n, hn⟩ ho
  simp only [List.getElem?_eq_getElem hl, Option.getD_some] at this
  rcases this with h | h
  · exact .inl ⟨_, h⟩
  · exact .inr ⟨_, h⟩

/-! ### Violations -/

/-- When the error stream is no terminal, the reason given is always that of ENOTTY, whatever went wrong: the test for a terminal changes
`errno` before it is looked at. -/
theorem C98_reason (c : Ctx) (n : Nat) (m : List Char) (a : Arg) (t : List Char) (hn : n < 128) (hm : c.table[n]? = some m) (hs : Says m a t)
    (htty : c.tty = false) :
    showError c (numbered n true) a 0 = .ok ((errorText t (some (c.strerror enotty))).map .char, none) := by
  rw [show_eq c n true m a t 0 hn hm hs]
  generalize errorText t = g
  simp [setColor, htty]

theorem format_ub (p r : List Char) (x : Char) (a : Option Arg) (h1 : x ≠ '%') (h2 : x ≠ 's') : cformat (percents p ++ '%' :: x :: r) a = .ub := by
  induction p with
  | nil =>
    rw [percents, List.nil_append]
    unfold cformat
    split
    · rename_i h; simp at h
    · rename_i h; simp at h; exact absurd h.1 h1
    · rename_i h; simp at h; exact absurd h.1 h2
    · rfl
    · rename_i heq; simp_all [eq_comm]
  | cons c t ih =>
    unfold percents
    split
    · rename_i hc; subst hc
      rw [List.cons_append, List.cons_append, cformat, ih]; rfl
    · rename_i hc
      rw [List.cons_append, cformat, ih]
      · rfl
      all_goals (intros; simp_all)

theorem show_ub (c : Ctx) (n : Nat) (reason : Bool) (a : Arg) (exit : Int) (hn : n < 128) (h : messageText c.table n a = .ub) :
    showError c (numbered n reason) a exit = .ub := by
  have hb := bit_on ⟨n, hn⟩
  have h1 : (numbered n reason).testBit 7 = reason := by cases reason <;> simp [numbered, hb]
  have h2 : (if reason = true then numbered n reason - 128 else numbered n reason) = n := by cases reason <;> simp [numbered]
  unfold showError
  simp only [h1, h2, h]

/-- Five messages have a conversion for a character or a number, but are given a pointer. -/
theorem C98_conversions (c : Ctx) (n : Nat) (reason : Bool) (a : Arg) (exit : Int) (hc : c.table = messages.map String.toList)
    (hn : n ∈ odd) : showError c (numbered n reason) a exit = .ub := by
  have hb : n < 128 := by simp [odd] at hn; omega
  refine show_ub c n reason a exit hb ?_
  have key : ∃ p x r, (messages.map String.toList)[n]? = some (percents p ++ '%' :: x :: r) ∧ x ≠ '%' ∧ x ≠ 's' := by
    simp only [odd, List.mem_cons, List.not_mem_nil, or_false] at hn
    rcases hn with rfl | rfl | rfl | rfl | rfl
    · exact ⟨"Error : \"".toList, 'c', "\" is an invalid character for special variables. Special variables require their name to be strict ascii characters, excluding controls characters and space (0x00 - 0x30).".toList, by decide +kernel, by decide, by decide⟩
    · exact ⟨"Error : Attempted to specify more than TOKEN_NB_MAX (".toList, 'd', ") different tokens.".toList, by decide +kernel, by decide,
        by decide⟩
    · exact ⟨"Error : FOR loop is trying to reassign already used %%".toList, 'c', " variable.".toList, by decide +kernel, by decide,
        by decide⟩
    · exact ⟨"Error : Unable to duplicate file descriptor (".toList, 'd', ").".toList, by decide +kernel, by decide, by decide⟩
    · exact ⟨"Error : Invalid label encountered within a block (at line ".toList, 'd', ").".toList, by decide +kernel, by decide, by decide⟩
  obtain ⟨p, x, r, h, h1, h2⟩ := key
  unfold messageText
  rw [if_pos (by omega), hc, h]
  simp only
  rw [format_ub p r x _ h1 h2]
  rfl

/-- A message about a null pointer, as for a wrong option of the program (pbat/init/pBat_Init.c:367), is undefined. -/
theorem C98_null (c : Ctx) (n : Nat) (reason : Bool) (h : Hole) (exit : Int) (hn : n < 128) (hm : c.table[n]? = some h.format) :
    showError c (numbered n reason) .null exit = .ub := by
  refine show_ub c n reason .null exit hn ?_
  have key : ∀ p q : List Char, cformat (percents p ++ (['%', 's'] ++ q)) (some .null) = .ub := by
    intro p q
    induction p with
    | nil => rfl
    | cons c t ih =>
      unfold percents
      split
      · rename_i hc; subst hc
        rw [List.cons_append, List.cons_append, cformat, ih]; rfl
      · rename_i hc
        rw [List.cons_append, cformat, ih]
        · rfl
        all_goals (intros; simp_all)
  unfold messageText
  rw [if_pos (by omega), hm]
  simp only
  rw [Hole.format, List.append_assoc, key]
  rfl

/-- Numbers that have no message are not refused: the test allows eight times as many as there are, and what is behind the table is taken
for a format. -/
theorem C98_bound (c : Ctx) (n : Nat) (reason : Bool) (a : Arg) (exit : Int) (hc : c.table = messages.map String.toList) (h1 : 62 ≤ n)
    (hn : n < 128) : showError c (numbered n reason) a exit = .ub := by
  refine show_ub c n reason a exit hn ?_
  unfold messageText
  rw [if_pos (by omega), List.getElem?_eq_none (by rw [hc, List.length_map, show messages.length = 62 by decide +kernel]; exact h1)]

/-! ### Examples -/

/-- A program for examples: `errno` is ENOENT. -/
def exCtx (tty : Bool) : Ctx :=
  ⟨messages.map String.toList, fun n => if n = 2 then "No such file or directory".toList else "Inappropriate ioctl for device".toList, 2,
    encFore (some 7) ||| encBack (some 0), tty⟩

/-- A file with a per cent sign in its name. -/
example : showError (exCtx false) 1 (.text "100%s.txt".toList) 0 =
    .ok (("Error : Unable to access file \"100%s.txt\".\n".toList).map .char, none) := by decide +kernel

/-- The wrong reason. -/
example : showError (exCtx false) (1 + 128) (.text "a".toList) 0 =
    .ok (("Error : Unable to access file \"a\".\n\tReason: Inappropriate ioctl for device\n".toList).map .char, none) := by decide +kernel

/-- The right one. -/
example : ∃ out, showError (exCtx true) (1 + 128) (.text "a".toList) 0 = .ok (out, none) ∧
    (receives (showing (some 0) (some 7)) out).1.map Prod.fst =
      "Error : Unable to access file \"a\".\n\tReason: No such file or directory\n".toList := by
  refine ⟨_, rfl, ?_⟩
  decide +kernel

end PBat.Err
