import Verif.Lemmas.Cu8Console
/-
C96: the keys pressed at the console of Windows edit the line as an editor of characters does.
-/
namespace PBat
open PBat.Cu8 PBat.Spec

/-- **C96** (partial).  A history that holds texts in UTF-8, and keys that are tame: the arrows go over characters of one byte only,
the newer entry is asked for when there is one, a completion is not shorter than what is behind the cursor, and the line is
shorter than the buffer.  Whatever the number of the keys, ENTER then gives the line the characters make and an end of line,
nothing is left over, the keys after ENTER are kept, and the line is put in the history.
Missing: keys that are not tame, see below. -/
theorem C96_edit_partial (k : Nat) (same : Nat → Nat → Bool) (orig : Nat) (h : Hist) (hist : List (List (List Nat))) (hh : HistIs h hist)
    (ks : List CuKey) (ht : TameAll orig hist { hid := hist.length } ks) (rest : List EKey) :
    readConsole k same orig h (ks.map CuKey.key ++ .enter :: rest) =
      (histAdd k same ((CuLine.presses hist { hid := hist.length } ks).bytes ++ [10]) h).bind fun h' =>
        .ok (some ((CuLine.presses hist { hid := hist.length } ks).bytes ++ [10], [], rest, h')) := by
  have hs0 : Shows ({ hid := h.entries.length } : ESt) { hid := hist.length } := by
    refine ⟨rfl, rfl, ?_, by simp⟩
    simp only [hh.len]
  obtain ⟨s, e, hs, _⟩ := editKeys_shows (orig := orig) hh (.enter :: rest) ks hs0 (Nat.le_refl _) ht
  rw [readConsole, e, editKeys]
  simp only [editKey, Res.bind, hs.line]

/-- While fewer than fifty lines were read, the text is the new entry of the history, which can be recalled. -/
theorem C96_history_partial (k : Nat) (same : Nat → Nat → Bool) (h : Hist) (hist : List (List (List Nat))) (hh : HistIs h hist)
    (hfr : ∀ b ∈ h.freed, b < h.next) (hn : h.entries.length < histSize) (new : List (List Nat)) (hc : ∀ c ∈ new, IsChar c) :
    ∃ h', histAdd k same (new.flatten ++ [10]) h = .ok h' ∧ HistIs h' (hist ++ [new]) ∧ h'.freed = h.freed ∧ h'.next = h.next + 1 := by
  rw [histAdd, if_pos hn]
  refine ⟨_, rfl, ⟨by simp [hh.len], ?_, ?_⟩, rfl, rfl⟩
  · intro n e he
    simp only at he ⊢
    by_cases h1 : n < h.entries.length
    · rw [List.getElem?_append_left h1] at he
      obtain ⟨a, b, c, d⟩ := hh.text n e he
      have h2 : n < hist.length := by rw [← hh.len]; exact h1
      have hg : (hist ++ [new]).getD n [] = hist.getD n [] := by
        simp only [List.getD_eq_getElem?_getD, List.getElem?_append_left h2]
      rw [hg, List.getElem?_append_left h2]
      exact ⟨a, b, c, d⟩
    · rw [List.getElem?_append_right (by omega)] at he
      have hz : n = h.entries.length := by
        have := (List.getElem?_eq_some_iff.1 he).1
        simp at this
        omega
      subst hz
      rw [Nat.sub_self] at he
      simp at he
      subst he
      have hg : (hist ++ [new])[h.entries.length]? = some new := by
        rw [hh.len, List.getElem?_append_right (Nat.le_refl _), Nat.sub_self]
        rfl
      simp only [List.getD_eq_getElem?_getD, hg, Option.getD_some]
      refine ⟨by trivial, by trivial, by trivial, ?_⟩
      intro hin
      exact absurd (hfr _ hin) (Nat.lt_irrefl _)
  · intro e he
    simp only [List.mem_append, List.mem_singleton] at he
    rcases he with he | rfl
    · exact hh.chars e he
    · exact hc

example : ∃ h', histAdd 3 (fun _ _ => false) [0xC3, 0xA9, 97, 10] {} = .ok h' ∧ HistIs h' [[[0xC3, 0xA9], [97]]] ∧ h'.freed = [] ∧ h'.next = 1 :=
  C96_history_partial 3 (fun _ _ => false) {} [] ⟨rfl, by simp, by simp⟩ (by simp) (by decide) [[0xC3, 0xA9], [97]]
    (by simp [IsChar, isFollowing])

/-- A line typed with characters of one byte in which the arrows, DELETE, HOME and so on are used. -/
example : readConsole 3 (fun _ _ => false) 100 {} [.char [98], .left, .char [97], .right, .char [0xC3, 0xA9], .char [99], .back, .home, .delete,
    .enter] = .ok (some ([98, 0xC3, 0xA9, 10], [], [], ⟨[⟨0, false, [98, 0xC3, 0xA9]⟩], [], 1⟩)) := by
  have e := C96_edit_partial 3 (fun _ _ => false) 100 {} [] ⟨rfl, by simp, by simp⟩
    [.char [98], .left, .char [97], .right, .char [0xC3, 0xA9], .char [99], .back, .home, .delete]
    (by simp [TameAll, Tame, IsChar, CuLine.press, CuLine.bytes, isFollowing]) []
  simp only [List.map_cons, List.map_nil, CuKey.key, List.cons_append, List.nil_append] at e
  rw [e]
  rfl

/-- The older entry and the newer one. -/
example (h : Hist) (hh : HistIs h [[[97]], [[98], [0xC3, 0xA9]]]) (hfew : h.entries.length = 2) :
    ∃ h', readConsole 3 (fun _ _ => false) 100 h [.up, .up, .down, .char [99], .enter] = .ok (some ([98, 0xC3, 0xA9, 99, 10], [], [], h')) := by
  have e := C96_edit_partial 3 (fun _ _ => false) 100 h _ hh [.up, .up, .down, .char [99]]
    (by simp [TameAll, Tame, IsChar, CuLine.press, CuLine.bytes, CuLine.recall, isFollowing]) []
  simp only [List.map_cons, List.map_nil, CuKey.key, List.cons_append, List.nil_append] at e
  rw [e, histAdd, if_pos (by rw [hfew]; decide)]
  exact ⟨_, rfl⟩

/-- **C96** (partial).  Units from the console that have none of the bits of `D800` are characters of their own, and a true pair
of surrogates is read as a pair.  Missing: all other units, see below. -/
theorem C96_input_partial (rest : List Nat) :
    (∀ w, w &&& 0xD800 = 0 → getInput (w :: rest) = some ([w], rest)) ∧
    (∀ a b, a < 0x400 → b < 0x400 → getInput ((0xD800 + a) :: (0xDC00 + b) :: rest) = some ([0xD800 + a, 0xDC00 + b], rest)) := by
  refine ⟨fun w hw => ?_, fun a b ha hb => ?_⟩
  · have h1 : isSurrogate w = false := by simp [isSurrogate, hw]
    rw [getInput, getRetry.eq_def]
    simp [isLow, h1]
  · have h1 : isSurrogate (0xD800 + a) = true ∧ isLow (0xD800 + a) = false := by
      have : ∀ x : Fin 0x400, isSurrogate (0xD800 + x.1) = true ∧ isLow (0xD800 + x.1) = false := by decide +kernel
      exact this ⟨a, ha⟩
    have h2 : isLow (0xDC00 + b) = true := by
      have : ∀ x : Fin 0x400, isLow (0xDC00 + x.1) = true := by decide +kernel
      exact this ⟨b, hb⟩
    rw [getInput, getRetry.eq_def]
    simp [h1, h2]

example : getInput [0x41, 0xD83D] = some ([0x41], [0xD83D]) ∧ getInput [0xD83D, 0xDE00, 0x41] = some ([0xD83D, 0xDE00], [0x41]) :=
  ⟨(C96_input_partial [0xD83D]).1 0x41 (by decide), (C96_input_partial [0x41]).2 0x3D 0x200 (by decide) (by decide)⟩

/-- The code violates the full statement: a unit with a bit of `D800` and the bit `0400` is dropped, wherever it is, though it is no
surrogate at all. -/
theorem C96_dropped (w : Nat) (hw : isLow w = true) (rest : List Nat) : getInput (w :: rest) = getInput rest := by
  rw [getInput, if_pos hw]

/-- The character 中. -/
example : getInput [0x4E2D, 0x61] = some ([0x61], []) := by
  rw [C96_dropped 0x4E2D (by decide)]
  exact (C96_input_partial []).1 0x61 (by decide)

/-- And one with a bit of `D800` but not `0400` is dropped when it is followed by an ordinary character. -/
theorem C96_dropped_high (w v : Nat) (hw : isSurrogate w = true) (hl : isLow w = false) (hv : v &&& 0xD800 = 0) (rest : List Nat) :
    getInput (w :: v :: rest) = some ([v], rest) := by
  have h1 : isSurrogate v = false := by simp [isSurrogate, hv]
  have h2 : isLow v = false := by simp [isLow, h1]
  rw [getInput, getRetry.eq_def]
  simp only [hl, hw, h2, Bool.not_true, Bool.false_eq_true, ↓reduceIte]
  rw [getRetry.eq_def]
  simp [h1]

/-- The character あ before a letter. -/
example : getInput [0x3042, 0x61] = some ([0x61], []) ∧ isSurrogate 0x3042 = true :=
  ⟨C96_dropped_high 0x3042 0x61 (by decide) (by decide) (by decide) [], by decide⟩

/-- The code violates the full statement: the arrow goes back over one byte, and what is typed then breaks the character before
the cursor. -/
theorem C96_broken (orig : Nat) (h : Hist) (a b c : Nat) (ho : 3 < orig) (rest : List EKey) :
    editKeys orig h (.char [a, b] :: .left :: .char [c] :: .enter :: rest) { hid := h.entries.length } = .ok (some ([a, c, b, 10], [], rest)) := by
  have e1 : editKey orig h (.char [a, b]) { hid := h.entries.length } = .ok (.more { line := [a, b], pos := 2, hid := h.entries.length }) := by
    simp only [editKey, putChar, List.drop_nil, List.length_nil, ↓reduceIte, Nat.sub_zero, List.nil_append]
    rw [List.take_of_length_le (by simp; omega)]
    rw [if_neg (by simp), if_neg (by simp; omega)]
    rfl
  have e2 : editKey orig h (.char [c]) { line := [a, b], pos := 1, hid := h.entries.length } =
      .ok (.more { line := [a, c, b], pos := 2, hid := h.entries.length }) := by
    have hr : orig - 2 = (orig - 3) + 1 := by omega
    simp [editKey, putChar, hr]
    omega
  rw [editKeys, e1]
  simp only [Res.bind]
  rw [editKeys]
  simp only [editKey, Res.bind, gt_iff_lt, Nat.zero_lt_succ, ↓reduceIte, Nat.add_one_sub_one]
  rw [editKeys, e2]
  simp only [Res.bind]
  rw [editKeys]
  rfl

/-- The code violates the full statement: to ask for the newer entry of an empty history has no defined effect. -/
theorem C96_no_history (k : Nat) (same : Nat → Nat → Bool) (orig : Nat) (ks : List EKey) (freed : List Nat) (next : Nat) :
    readConsole k same orig ⟨[], freed, next⟩ (.down :: ks) = .ub := by
  rw [readConsole, editKeys]
  simp [editKey, Res.bind]

/-- The code violates the full statement: a character with more bytes than there is room for, typed at the end of the line, has no
defined effect. -/
theorem C96_no_room (orig : Nat) (h : Hist) (s : ESt) (u : List Nat) (hp : s.pos = s.line.length) (hl : s.line.length < orig)
    (hr : orig < s.line.length + u.length) : editKey orig h (.char u) s = .ub := by
  have hd : s.line.drop s.pos = [] := by rw [hp]; simp
  simp only [editKey, putChar, hd, List.length_nil, ↓reduceIte]
  rw [if_pos (by simp only [List.length_append, List.length_take]; omega)]

example : editKeys 4 {} [.char [97], .char [98], .char [99], .char [0xC3, 0xA9]] { hid := 0 } = .ub := by decide +kernel

/-- The code violates the full statement: a completion put before a longer text has no defined effect. -/
theorem C96_overlap (orig : Nat) (h : Hist) (s : ESt) (c : List Nat) (hc : c ≠ []) (hr : s.line.length + c.length ≤ orig)
    (hl : c.length < s.line.length - s.pos) : editKey orig h (.tab (some c)) s = .ub := by
  simp only [editKey]
  rw [if_neg (by omega), if_pos ⟨hl, hc⟩]

example : editKeys 100 {} [.char [97], .char [98], .home, .tab (some [120])] { hid := 0 } = .ub := by decide +kernel

/-- The code violates the full statement: an entry of the history that fills the buffer is read without ENTER. -/
theorem C96_unasked (orig : Nat) (h : Hist) (e : Entry) (s : ESt) (hs : s.hid = h.entries.length) (he : h.entries.getLast? = some e)
    (hl : e.text.length = orig) (hw : e.wild = false) (hf : e.block ∉ h.freed) :
    editKey orig h .up s = .ok (.got e.text []) := by
  have hpos : 0 < h.entries.length := by
    cases hx : h.entries with
    | nil => rw [hx] at he; cases he
    | cons => simp
  rw [List.getLast?_eq_getElem?] at he
  have h1 : (if s.hid > 0 then s.hid - 1 else s.hid) = ((h.entries.length - 1 : Nat) : Int) := by
    rw [hs]; split <;> omega
  simp only [editKey]
  rw [h1, if_pos (by omega), showEntry, Int.toNat_natCast, he]
  simp only
  rw [if_pos (by omega), if_neg (by rintro (h | h); rw [hw] at h; cases h; exact hf h), goOn, if_neg (by simp only; omega)]

example : editKey 2 ⟨[⟨0, false, [97, 98]⟩], [], 1⟩ .up { hid := 1 } = .ok (.got [97, 98] []) :=
  C96_unasked 2 _ ⟨0, false, [97, 98]⟩ _ rfl rfl rfl rfl (by simp)

/-- The code violates the full statement: whatever the lines are, once the history is full the next entries are damaged, because bytes
are moved instead of entries, and `k + 2` lines later a damaged pointer is freed, or one is freed twice.  `k` is the number of entries
moved: 3 where a pointer has eight bytes, 6 where it has four. -/
theorem C96_history_damaged (k : Nat) (hk : k = 3 ∨ k = 6) (same : Nat → Nat → Bool) (ls : List (List Nat)) (hl : 52 + k ≤ ls.length) :
    histAll k same ls {} = .ub := by
  refine histAll_early (by omega) (by rcases hk with rfl | rfl <;> decide) histSize 0 rfl ⟨rfl, ?_, rfl, rfl⟩ ls ?_
  · intro i hi; omega
  · have : histSize = 50 := rfl
    omega

/-- So at most `51 + k` lines can be read, whatever is typed, if only ENTER is pressed at last. -/
theorem C96_lines_end (k : Nat) (hk : k = 3 ∨ k = 6) (same : Nat → Nat → Bool) (orig : Nat) (n : Nat) (hn : 52 + k ≤ n) :
    readLines k same orig (List.replicate n [.enter]) {} = .ub := by
  have key : ∀ n h, (histAll k same (List.replicate n [10]) h) = .ub → readLines k same orig (List.replicate n [.enter]) h = .ub := by
    intro n
    induction n with
    | zero => intro h e; cases e
    | succ n ih =>
      intro h e
      rw [List.replicate_succ, readLines, readConsole, editKeys]
      simp only [editKey, Res.bind, List.nil_append]
      rw [List.replicate_succ, histAll] at e
      cases h1 : histAdd k same [10] h with
      | ub => rfl
      | hang => rw [h1] at e; cases e
      | ok h' =>
        rw [h1] at e
        simp only [Res.bind] at e ⊢
        rw [ih h' e]
  exact key n {} (C96_history_damaged k hk same _ (by simpa using hn))

/-- Fifty lines are read and the fifty-fifth ends the program. -/
example : (∃ r, readLines 3 (fun _ _ => false) 100 (List.replicate 54 [.enter]) {} = .ok r) ∧
    readLines 3 (fun _ _ => false) 100 (List.replicate 55 [.enter]) {} = .ub := by
  refine ⟨?_, C96_lines_end 3 (.inl rfl) _ 100 55 (Nat.le_refl _)⟩
  have h : (match readLines 3 (fun _ _ => false) 100 (List.replicate 54 [.enter]) {} with | .ok _ => true | _ => false) = true := by decide +kernel
  revert h
  cases readLines 3 (fun _ _ => false) 100 (List.replicate 54 [.enter]) {} with
  | ok r => intro _; exact ⟨r, rfl⟩
  | ub => intro h; cases h
  | hang => intro h; cases h

end PBat
