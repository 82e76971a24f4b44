import Verif.Model.LineEdit
import Verif.Spec.LineEdit

namespace PBat
open Spec

set_option maxRecDepth 4000 in
theorem byte_and80 : ∀ b < 256, (b &&& 0x80 = 0 ↔ b < 128) := by decide
set_option maxRecDepth 4000 in
theorem byte_andE0 : ∀ b < 256, (b &&& 0xE0 = 0xC0 ↔ 192 ≤ b ∧ b < 224) := by decide
set_option maxRecDepth 4000 in
theorem byte_andF0 : ∀ b < 256, (b &&& 0xF0 = 0xE0 ↔ 224 ≤ b ∧ b < 240) := by decide
set_option maxRecDepth 4000 in
theorem byte_andF8 : ∀ b < 256, (b &&& 0xF8 = 0xF0 ↔ 240 ≤ b ∧ b < 248) := by decide
set_option maxRecDepth 4000 in
theorem byte_andC0 : ∀ b < 256, (b &&& 0xC0 = 0x80 ↔ 128 ≤ b ∧ b < 192) := by decide

theorem and_3F (b : Nat) : b &&& 0x3F = b % 64 := Nat.and_two_pow_sub_one_eq_mod b 6
theorem and_1F (b : Nat) : b &&& 0x1F = b % 32 := Nat.and_two_pow_sub_one_eq_mod b 5
theorem and_0F (b : Nat) : b &&& 0x0F = b % 16 := Nat.and_two_pow_sub_one_eq_mod b 4
theorem and_07 (b : Nat) : b &&& 0x07 = b % 8 := Nat.and_two_pow_sub_one_eq_mod b 3

theorem shl_or (a n b : Nat) (h : b < 2 ^ n) : (a <<< n) ||| b = a * 2 ^ n + b := by
  rw [← Nat.shiftLeft_add_eq_or_of_lt h, Nat.shiftLeft_eq]

theorem shl_or3 (a b c : Nat) (hb : b < 64) (hc : c < 64) :
    (a <<< 12) ||| (b <<< 6) ||| c = a * 4096 + b * 64 + c := by
  rw [Nat.or_assoc, shl_or b 6 c hc, shl_or a 12 _ (by omega)]; omega

theorem shl_or4 (a b c d : Nat) (hb : b < 64) (hc : c < 64) (hd : d < 64) :
    (a <<< 18) ||| (b <<< 12) ||| (c <<< 6) ||| d = a * 262144 + b * 4096 + c * 64 + d := by
  rw [Nat.or_assoc, Nat.or_assoc, ← Nat.or_assoc (b <<< 12), shl_or3 b c d hc hd,
    shl_or a 18 _ (by omega)]
  omega

theorem utf8Code_uni (c : Nat) (hc : c < 0x110000) (r : List Nat) :
    utf8Code (uni c ++ r) = some ((uni c).length, c) := by
  unfold uni
  split
  · rename_i h
    simp [utf8Code, (byte_and80 c (by omega)).2 h]
  split
  · rename_i h1 h2
    have e1 : ¬ ((0xC0 + c / 64) &&& 0x80 = 0) := by
      rw [byte_and80 _ (by omega)]; omega
    have e2 : (0xC0 + c / 64) &&& 0xE0 = 0xC0 := by
      rw [byte_andE0 _ (by omega)]; omega
    simp only [utf8Code, List.cons_append, List.nil_append, if_neg e1, if_pos e2, and_3F, and_1F]
    rw [shl_or _ 6 _ (by omega)]
    simp; omega
  split
  · rename_i h1 h2 h3
    have e1 : ¬ ((0xE0 + c / 4096) &&& 0x80 = 0) := by
      rw [byte_and80 _ (by omega)]; omega
    have e2 : ¬ ((0xE0 + c / 4096) &&& 0xE0 = 0xC0) := by
      rw [byte_andE0 _ (by omega)]; omega
    have e3 : (0xE0 + c / 4096) &&& 0xF0 = 0xE0 := by
      rw [byte_andF0 _ (by omega)]; omega
    simp only [utf8Code, List.cons_append, List.nil_append, if_neg e1, if_neg e2, if_pos e3,
      and_3F, and_0F]
    rw [shl_or3 _ _ _ (by omega) (by omega)]
    simp; omega
  · rename_i h1 h2 h3
    have e1 : ¬ ((0xF0 + c / 262144) &&& 0x80 = 0) := by
      rw [byte_and80 _ (by omega)]; omega
    have e2 : ¬ ((0xF0 + c / 262144) &&& 0xE0 = 0xC0) := by
      rw [byte_andE0 _ (by omega)]; omega
    have e3 : ¬ ((0xF0 + c / 262144) &&& 0xF0 = 0xE0) := by
      rw [byte_andF0 _ (by omega)]; omega
    have e4 : (0xF0 + c / 262144) &&& 0xF8 = 0xF0 := by
      rw [byte_andF8 _ (by omega)]; omega
    simp only [utf8Code, List.cons_append, List.nil_append, if_neg e1, if_neg e2, if_neg e3,
      if_pos e4, and_3F, and_07]
    rw [shl_or4 _ _ _ _ (by omega) (by omega) (by omega)]
    simp; omega

theorem uni_pos (c : Nat) : 0 < (uni c).length := by
  unfold uni; repeat' split
  all_goals simp

theorem uni_ne (c : Nat) : uni c ≠ [] := fun h => by
  have := uni_pos c; rw [h] at this; simp at this

theorem uniText_nil : uniText [] = [] := rfl
theorem uniText_cons (c : Nat) (cs : List Nat) : uniText (c :: cs) = uni c ++ uniText cs := rfl
theorem uniText_append (a b : List Nat) : uniText (a ++ b) = uniText a ++ uniText b := by
  simp [uniText]

theorem uniText_eq_nil {cs : List Nat} : uniText cs = [] ↔ cs = [] := by
  cases cs with
  | nil => simp [uniText]
  | cons c cs => simp [uniText_cons, uni_ne]

/-- the bytes of a code point are not zero -/
theorem uni_nonzero {c : Nat} (h : 0 < c) : ∀ b ∈ uni c, b ≠ 0 := by
  unfold uni; repeat' split
  all_goals intro b hb; simp at hb; omega

theorem lnStr_uniText {cs : List Nat} (h : ∀ c ∈ cs, Scalar c) :
    lnStr (uniText cs) = uniText cs := by
  have key : ∀ l : List Nat, (∀ b ∈ l, b ≠ 0) → l.takeWhile (· ≠ 0) = l := by
    intro l; induction l with
    | nil => simp
    | cons b l ih =>
      intro hb
      have h0 := hb b (by simp)
      rw [List.takeWhile_cons_of_pos (by simpa using h0), ih fun x hx => hb x (by simp [hx])]
  apply key
  intro b hb
  simp only [uniText, List.mem_flatMap] at hb
  obtain ⟨c, hc, hb⟩ := hb
  exact uni_nonzero (h c hc).1 b hb

/-- A space is the byte 32 and nothing else is. -/
theorem uni_space {c : Nat} (hc : c < 0x110000) : ∀ b ∈ uni c, b = 32 ↔ c = 32 := by
  unfold uni; repeat' split
  all_goals intro b hb; simp at hb; omega

theorem uni_last {c : Nat} (hc : c < 0x110000) :
    ∃ b ms, uni c = b :: ms ∧ b < 256 ∧ ¬ (b &&& 0xC0 = 0x80) ∧
      ∀ m ∈ ms, m &&& 0xC0 = 0x80 := by
  unfold uni
  split
  · refine ⟨c, [], rfl, by omega, ?_, by simp⟩
    rw [byte_andC0 _ (by omega)]; omega
  split
  · refine ⟨_, _, rfl, by omega, ?_, ?_⟩
    · rw [byte_andC0 _ (by omega)]; omega
    · intro m hm; simp at hm; rw [byte_andC0 _ (by omega)]; omega
  split
  · refine ⟨_, _, rfl, by omega, ?_, ?_⟩
    · rw [byte_andC0 _ (by omega)]; omega
    · intro m hm; simp at hm; rw [byte_andC0 _ (by omega)]; omega
  · refine ⟨_, _, rfl, by omega, ?_, ?_⟩
    · rw [byte_andC0 _ (by omega)]; omega
    · intro m hm; simp at hm; rw [byte_andC0 _ (by omega)]; omega

theorem prevBytes_marks (ms : List Nat) (h : ∀ m ∈ ms, m &&& 0xC0 = 0x80) (b : Nat)
    (hb : ¬ (b &&& 0xC0 = 0x80)) (r : List Nat) :
    prevBytes (ms ++ b :: r) = some (ms.length + 1) := by
  induction ms with
  | nil => simp [prevBytes, hb]
  | cons m ms ih =>
    simp only [List.cons_append, prevBytes, if_pos (h m (by simp)),
      ih fun x hx => h x (by simp [hx])]
    simp

theorem prevBytes_uni {c : Nat} (hc : c < 0x110000) (p : List Nat) :
    prevBytes (p ++ uni c).reverse = some (uni c).length := by
  obtain ⟨b, ms, e, -, hb, hm⟩ := uni_last hc
  rw [e, List.reverse_append, List.reverse_cons, List.append_assoc, List.singleton_append,
    prevBytes_marks _ (by simpa using hm) b hb]
  simp

/-! ### The characters -/

theorem skipMarks_text (u : CharTables) (ms : List Nat) (hm : ∀ m ∈ ms, u.comb m = true)
    (hg : ∀ m ∈ ms, Scalar m) (rest : List Nat) (hr : Starts u.comb rest)
    (hgr : ∀ m ∈ rest, Scalar m) (fuel acc : Nat) (hf : (uniText ms).length ≤ fuel) :
    skipMarks u fuel acc (uniText (ms ++ rest)) = .ok (acc + (uniText ms).length) := by
  induction ms generalizing fuel acc with
  | nil =>
    cases fuel with
    | zero => simp [skipMarks, uniText]
    | succ fuel =>
      cases rest with
      | nil => simp [skipMarks, uniText]
      | cons c rest =>
        have hne : uniText (c :: rest) ≠ [] := by simp [uniText_eq_nil]
        have h0 : u.comb c = false := hr c (by simp)
        simp only [skipMarks, List.nil_append, if_neg hne]
        rw [uniText_cons, utf8Code_uni c (hgr c (by simp)).2]
        simp [h0, uniText]
  | cons m ms ih =>
    have hp := uni_pos m
    rw [uniText_cons, List.length_append] at hf
    cases fuel with
    | zero => omega
    | succ fuel =>
      have hne : uniText (m :: ms ++ rest) ≠ [] := by simp [uniText_eq_nil]
      simp only [skipMarks, if_neg hne]
      rw [List.cons_append, uniText_cons, utf8Code_uni m (hg m (by simp)).2]
      simp only [hm m (by simp), if_true, List.drop_left]
      rw [ih (fun x hx => hm x (by simp [hx])) (fun x hx => hg x (by simp [hx])) fuel _ (by omega)]
      rw [uniText_cons]; simp; omega

theorem nextChar_text (u : CharTables) {ch rest : List Nat} (hc : OneChar u.comb ch)
    (hg : ∀ c ∈ ch ++ rest, Scalar c) (hr : Starts u.comb rest) :
    ∃ w, nextGlyph u (uniText (ch ++ rest)) = .ok ((uniText ch).length, some w) ∧
      (w = 1 ∨ w = 2) := by
  obtain ⟨b, ms, rfl, hb, hm⟩ := hc
  simp only [nextGlyph, List.cons_append, uniText_cons]
  rw [utf8Code_uni b (hg b (by simp)).2]
  simp only [hb, List.drop_left]
  rw [skipMarks_text u ms hm (fun x hx => hg x (by simp [hx])) rest hr
    (fun x hx => hg x (by simp [hx]))]
  · simp only [Res.ok_bind, List.length_append]
    exact ⟨_, by simp; rfl, by split <;> simp⟩
  · rw [uniText_append]; simp; omega

theorem prevChar_text (u : CharTables) (a ch : List Nat) (hc : OneChar u.comb ch)
    (hg : ∀ c ∈ a ++ ch, Scalar c) (fuel acc : Nat) (hf : ch.length ≤ fuel) :
    prevGlyph u fuel acc (uniText (a ++ ch)) = .ok (acc + (uniText ch).length) := by
  obtain ⟨b, ms, rfl, hb, hm⟩ := hc
  -- the marks are taken from the end
  induction hn : ms.length generalizing ms fuel acc with
  | zero =>
    obtain rfl : ms = [] := List.eq_nil_of_length_eq_zero hn
    cases fuel with
    | zero => simp at hf
    | succ fuel =>
      have hgb := (hg b (by simp)).2
      have hne : uniText (a ++ [b]) ≠ [] := by simp [uniText_eq_nil]
      simp only [prevGlyph, if_neg hne]
      have e : uniText (a ++ [b]) = uniText a ++ uni b := by simp [uniText]
      rw [e, prevBytes_uni hgb]
      have e2 : (uniText a ++ uni b).length - (uni b).length = (uniText a).length := by simp
      dsimp only
      rw [e2, List.drop_left]
      have e3 := utf8Code_uni b hgb []
      rw [List.append_nil] at e3
      simp only [e3, hb]
      simp [uniText]
  | succ n ih =>
    obtain ⟨ms', m, rfl⟩ : ∃ ms' m, ms = ms' ++ [m] := by
      refine ⟨ms.dropLast, ms.getLast (by intro h; simp [h] at hn), ?_⟩
      rw [List.dropLast_concat_getLast]
    cases fuel with
    | zero => simp at hf
    | succ fuel =>
      have hgm := (hg m (by simp)).2
      have hne : uniText (a ++ b :: (ms' ++ [m])) ≠ [] := by simp [uniText_eq_nil]
      simp only [prevGlyph, if_neg hne]
      have e : uniText (a ++ b :: (ms' ++ [m])) = uniText (a ++ b :: ms') ++ uni m := by
        simp [uniText]
      rw [e, prevBytes_uni hgm]
      have e2 : (uniText (a ++ b :: ms') ++ uni m).length - (uni m).length =
          (uniText (a ++ b :: ms')).length := by simp
      dsimp only
      rw [e2, List.drop_left, List.take_left]
      have e3 := utf8Code_uni m hgm []
      rw [List.append_nil] at e3
      have hmm : u.comb m = true := hm m (by simp)
      simp only [e3, hmm, if_true]
      rw [ih fuel _ ms' (by intro c hc; exact hg c (by simp at hc ⊢; grind))
        (by simp at hf ⊢; omega) (fun x hx => hm x (List.mem_append_left _ hx)) (by simpa using hn)]
      simp [uniText]; omega

/-- A text that does not begin with a mark begins with a character. -/
theorem char_split {mark : Nat → Bool} {cs : List Nat} (hs : Starts mark cs) (hne : cs ≠ []) :
    ∃ ch rest, cs = ch ++ rest ∧ OneChar mark ch ∧ Starts mark rest := by
  cases cs with
  | nil => simp at hne
  | cons b cs =>
    refine ⟨b :: cs.takeWhile mark, cs.dropWhile mark, ?_, ?_, ?_⟩
    · simp [List.takeWhile_append_dropWhile]
    · refine ⟨b, _, rfl, hs b (by simp), ?_⟩
      intro m hm
      have : ∀ l : List Nat, ∀ x ∈ l.takeWhile mark, mark x = true := by
        intro l; induction l with
        | nil => simp
        | cons y l ih =>
          intro x hx
          rw [List.takeWhile_cons] at hx
          split at hx
          · rename_i hy
            simp at hx; rcases hx with rfl | hx
            · exact hy
            · exact ih x hx
          · simp at hx
      exact this _ m hm
    · intro c hc
      have : ∀ l : List Nat, ∀ x ∈ (l.dropWhile mark).head?, mark x = false := by
        intro l; induction l with
        | nil => simp
        | cons y l ih =>
          intro x hx
          rw [List.dropWhile_cons] at hx
          split at hx
          · exact ih x hx
          · rename_i hy
            simp at hx; subst hx; simpa using hy
      exact this _ c hc

/-- A text that does not begin with a mark ends with a character. -/
theorem char_last {mark : Nat → Bool} {cs : List Nat} (hs : Starts mark cs) (hne : cs ≠ []) :
    ∃ a ch, cs = a ++ ch ∧ OneChar mark ch := by
  induction hn : cs.length using Nat.strongRecOn generalizing cs with
  | ind n ih =>
    obtain ⟨ch, rest, rfl, hc, hr⟩ := char_split hs hne
    by_cases h0 : rest = []
    · exact ⟨[], ch, by simp [h0], hc⟩
    · obtain ⟨b, ms, rfl, -, -⟩ := hc
      obtain ⟨a, ch', rfl, h2⟩ := ih rest.length (by simp at hn; omega) hr h0 rfl
      exact ⟨(b :: ms) ++ a, ch', by simp, h2⟩

theorem columns_ok (u : CharTables) (cols pos : Nat) (cs : List Nat)
    (hg : ∀ c ∈ cs, Scalar c) (hs : Starts u.comb cs) (fuel off ret wid : Nat) :
    ∃ v, columns u cols pos fuel (uniText cs) off ret wid = .ok v := by
  induction fuel generalizing cs off ret wid with
  | zero => exact ⟨ret, rfl⟩
  | succ fuel ih =>
    by_cases h0 : cs = []
    · subst h0; exact ⟨ret, by simp [columns, uniText]⟩
    · obtain ⟨ch, rest, rfl, hc, hr⟩ := char_split hs h0
      obtain ⟨w, hw, -⟩ := nextChar_text u hc hg hr
      have hne : uniText (ch ++ rest) ≠ [] := by simpa [uniText_eq_nil] using h0
      simp only [columns, if_neg hne, hw]
      split
      · exact ⟨_, rfl⟩
      · rw [uniText_append, List.drop_left]
        exact ih rest (fun c hc => hg c (by simp [hc])) hr _ _ _

theorem refresh_ok (u : CharTables) (l : LnState) (cs : List Nat) (hb : l.buf = uniText cs)
    (hg : ∀ c ∈ cs, Scalar c) (hs : Starts u.comb cs) (hc : 0 < l.cols) :
    ∃ l', refresh u l = .ok l' ∧ l'.buf = l.buf ∧ l'.pos = l.pos ∧ l'.hist = l.hist ∧
      l'.idx = l.idx ∧ l'.cols = l.cols ∧ l'.plen = l.plen := by
  obtain ⟨v, hv⟩ := columns_ok u l.cols l.buf.length cs hg hs l.buf.length 0 0 l.plen
  obtain ⟨v2, hv2⟩ := columns_ok u l.cols l.pos cs hg hs l.buf.length 0 0 l.plen
  rw [← hb] at hv hv2
  have hc' : l.cols ≠ 0 := by omega
  simp only [refresh, hv, hv2, Res.ok_bind, if_neg hc']
  exact ⟨_, rfl, rfl, rfl, rfl, rfl, rfl, rfl⟩

theorem readCode_uni (c : Nat) (hc : c < 0x110000) (rest : List Nat) :
    readCode (uni c ++ rest) = .ok (.got (uni c) c rest) := by
  have hd := utf8Code_uni c hc []
  rw [List.append_nil] at hd
  revert hd
  unfold uni
  split
  · rename_i h
    intro hd
    have e1 : c &&& 0x80 = 0 := (byte_and80 c (by omega)).2 h
    simp only [readCode, List.cons_append, List.nil_append, if_pos e1, List.take_zero, hd]
    simp
  split
  · rename_i h1 h2
    intro hd
    have e1 : ¬ ((0xC0 + c / 64) &&& 0x80 = 0) := by
      rw [byte_and80 _ (by omega)]; omega
    have e2 : (0xC0 + c / 64) &&& 0xE0 = 0xC0 := by
      rw [byte_andE0 _ (by omega)]; omega
    simp only [readCode, List.cons_append, List.nil_append, if_neg e1, if_pos e2,
      List.take_succ_cons, List.take_zero, hd]
    simp
  split
  · rename_i h1 h2 h3
    intro hd
    have e1 : ¬ ((0xE0 + c / 4096) &&& 0x80 = 0) := by
      rw [byte_and80 _ (by omega)]; omega
    have e2 : ¬ ((0xE0 + c / 4096) &&& 0xE0 = 0xC0) := by
      rw [byte_andE0 _ (by omega)]; omega
    have e3 : (0xE0 + c / 4096) &&& 0xF0 = 0xE0 := by
      rw [byte_andF0 _ (by omega)]; omega
    simp only [readCode, List.cons_append, List.nil_append, if_neg e1, if_neg e2, if_pos e3,
      List.take_succ_cons, List.take_zero, hd]
    simp
  · rename_i h1 h2 h3
    intro hd
    have e1 : ¬ ((0xF0 + c / 262144) &&& 0x80 = 0) := by
      rw [byte_and80 _ (by omega)]; omega
    have e2 : ¬ ((0xF0 + c / 262144) &&& 0xE0 = 0xC0) := by
      rw [byte_andE0 _ (by omega)]; omega
    have e3 : ¬ ((0xF0 + c / 262144) &&& 0xF0 = 0xE0) := by
      rw [byte_andF0 _ (by omega)]; omega
    have e4 : (0xF0 + c / 262144) &&& 0xF8 = 0xF0 := by
      rw [byte_andF8 _ (by omega)]; omega
    simp only [readCode, List.cons_append, List.nil_append, if_neg e1, if_neg e2, if_neg e3,
      if_pos e4, List.take_succ_cons, List.take_zero, hd]
    simp

theorem readCode_byte (c : Nat) (hc : c < 128) (rest : List Nat) :
    readCode (c :: rest) = .ok (.got [c] c rest) := by
  have := readCode_uni c (by omega) rest
  simpa [uni, hc] using this

end PBat
