import Verif.Lemmas.LineRun

/-!
C74: a line edited at the prompt is the line the keys describe.
-/

namespace PBat
open Spec

/-- Whatever keys are typed, in whatever order, Enter hands over exactly the text those keys
describe, encoded in UTF-8, for every table of combining marks, every width of the terminal and
every history; what was typed behind Enter is left for the next line, and the history gets the
line.  Missing: combining marks at the begin of a line (`C74_mark`), swapping characters of more
than one byte (`C74_swap`), the byte zero (`C74_zero`), lines of 4095 bytes called back
(`C74_recall`) and bytes that are not UTF-8 (`C74_invalid`). -/
theorem C74_edit_partial (u : CharTables) (complete : List Nat → Reply) {cols : Nat}
    (hc : 0 < cols) (plen : Nat) {hist : List (List Nat)} (hh : ∀ t ∈ hist, LineOk u.comb t)
    (hlen : hist.length ≤ 100) {keys : List (List Nat)} {e : Ed}
    (hr : EdRun u.comb (Able u.comb) (Ed.start hist) keys e) (rest : List Nat) :
    lnRead u complete cols plen (hist.map uniText) (keys.flatten ++ 13 :: rest) =
      .ok (some (uniText e.line.text), (remember e.kept e.line.text).map uniText, rest) := by
  obtain ⟨l, fuel, h1, h2, h3⟩ := lnLoop_run complete hr (start_rel u hc plen hh hlen)
    (13 :: rest) ((keys.flatten ++ 13 :: rest).length + 1) (Nat.lt_succ_self _)
  unfold lnRead
  rw [h3]
  obtain ⟨⟨a, b⟩, s, o, n⟩ := e
  have hsmall := h1.small
  have hhist := h1.hist
  dsimp only at hsmall hhist
  have hkept : l.hist.dropLast = ((o.reverse ++ [s] ++ n).dropLast).map uniText := by
    rw [hhist, List.map_dropLast]
  cases fuel with
  | zero => simp at h2
  | succ fuel =>
    obtain ⟨l2, h4, h5⟩ := lnEnd_rel h1
    have h6 : ∃ l3, lnEnd u { l with hist := l.hist.dropLast } = .ok l3 ∧ l3.buf = l2.buf ∧
        l3.hist = l.hist.dropLast := by
      unfold lnEnd
      split
      · obtain ⟨l3, g1, g2, g3, g4, -⟩ := refresh_ok u
          { l with hist := l.hist.dropLast, pos := l.buf.length } (a ++ b) h1.buf h1.line.1
          h1.line.2.1 h1.cols
        refine ⟨l3, g1, ?_, g4⟩
        rw [g2, h5.buf, h1.buf]; simp
      · exact ⟨_, rfl, by rw [h5.buf, h1.buf]; simp, rfl⟩
    obtain ⟨l3, g1, g2, g3⟩ := h6
    have hb : l3.buf = uniText (a ++ b) := by rw [g2, h5.buf]; simp
    have hkey : lnKey u complete l (13 :: rest) = .ok (.done l3 rest) := by
      simp [lnKey, readCode_byte, Res.ok_bind, g1]
    rw [lnLoop, hkey]
    simp only [Res.ok_bind]
    rw [hb, lnStr_uniText h1.line.1, g3, hkept,
      histAdd_text _ h1.line.1 (by simp only [List.length_dropLast, List.length_append,
        List.length_reverse, List.length_cons, List.length_nil]; omega)]
    · rfl
    · intro x hx
      have hx' := List.dropLast_subset _ hx
      simp only [List.append_assoc, List.mem_append, List.mem_reverse, List.mem_singleton] at hx'
      rcases hx' with hx' | hx' | hx'
      · exact (h1.entries x (by simp [hx'])).1
      · subst hx'; exact h1.stored.1
      · exact (h1.entries x (by simp [hx'])).1

/-- What the specification asks is always defined: in every state and for every key there is a
next state, except that Ctrl-D on an empty line ends the input. -/
theorem C74_every_key (mark : Nat → Bool) (e : Ed) (h1 : Starts mark (e.line.before ++ e.line.after))
    (h2 : Starts mark e.line.after) (k : Key) (hk : k = .ctrlD → e.line.text ≠ []) :
    ∃ e', EdStep mark e k e' := by
  obtain ⟨⟨a, b⟩, s, o, n⟩ := e
  dsimp only at h1 h2
  have hnext : b ≠ [] → ∃ ch r, b = ch ++ r ∧ OneChar mark ch ∧ Starts mark r := char_split h2
  have hprev : a ≠ [] → ∃ r ch, a = r ++ ch ∧ OneChar mark ch := char_last (starts_left h1)
  have key : (∃ L', Edit mark ⟨a, b⟩ k L') → ∃ e', EdStep mark ⟨⟨a, b⟩, s, o, n⟩ k e' :=
    fun ⟨L', h⟩ => ⟨_, .edit h⟩
  cases k with
  | char c =>
    apply key
    by_cases h : (uniText (a ++ b)).length + (uni c).length ≤ lineRoom
    · exact ⟨_, .type h⟩
    · exact ⟨_, .full (by omega)⟩
  | left =>
    apply key
    by_cases h : a = []
    · subst h; exact ⟨_, .left0⟩
    · obtain ⟨r, ch, rfl, hc⟩ := hprev h; exact ⟨_, .left hc⟩
  | right =>
    apply key
    by_cases h : b = []
    · subst h; exact ⟨_, .right0⟩
    · obtain ⟨ch, r, rfl, hc, hr⟩ := hnext h; exact ⟨_, .right hc hr⟩
  | home => exact key ⟨_, .home⟩
  | «end» => exact key ⟨_, .end⟩
  | backspace =>
    apply key
    by_cases h : a = []
    · subst h; exact ⟨_, .backspace0⟩
    · obtain ⟨r, ch, rfl, hc⟩ := hprev h; exact ⟨_, .backspace hc⟩
  | delete =>
    apply key
    by_cases h : b = []
    · subst h; exact ⟨_, .delete0⟩
    · obtain ⟨ch, r, rfl, hc, hr⟩ := hnext h; exact ⟨_, .delete hc hr⟩
  | ctrlD =>
    apply key
    by_cases h : b = []
    · subst h
      have := hk rfl
      exact ⟨_, .ctrlD0 (by simpa [EdLine.text] using this)⟩
    · obtain ⟨ch, r, rfl, hc, hr⟩ := hnext h; exact ⟨_, .ctrlD hc hr⟩
  | killLine => exact key ⟨_, .killLine⟩
  | killEnd => exact key ⟨_, .killEnd⟩
  | delWord =>
    apply key
    obtain ⟨q, sp, rfl, h3, h4⟩ := split_back (· == 32) a
    obtain ⟨p, w, rfl, h5, h6⟩ := split_back (· != 32) q
    simp only [beq_iff_eq, bne_iff_ne, beq_eq_false_iff_ne, bne_eq_false_iff_eq] at h3 h4 h5 h6
    refine ⟨⟨p, b⟩, .delWord h3 h5 ?_ h6⟩
    rintro rfl
    rcases List.eq_nil_or_concat p with rfl | ⟨p', c, rfl⟩
    · rfl
    · rw [List.concat_eq_append] at *
      exact absurd (h6 c (by simp)) (h4 c (by simp))
  | swap =>
    apply key
    by_cases h : a = []
    · subst h; exact ⟨_, .swap0⟩
    by_cases h' : b = []
    · subst h'; exact ⟨_, .swap1⟩
    obtain ⟨r, x, rfl, hx⟩ := hprev h
    obtain ⟨y, t, rfl, hy, ht⟩ := hnext h'
    by_cases h'' : t = []
    · subst h''; rw [List.append_nil]; exact ⟨_, .swapLast hx hy⟩
    · exact ⟨_, .swap hx hy ht h''⟩
  | redraw => exact key ⟨_, .redraw⟩
  | up =>
    cases o with
    | cons t o => exact ⟨_, .up⟩
    | nil => cases n with
      | nil => exact ⟨_, .up1⟩
      | cons t n => exact ⟨_, .up0⟩
  | down =>
    cases n with
    | cons t n => exact ⟨_, .down⟩
    | nil => cases o with
      | nil => exact ⟨_, .down1⟩
      | cons t o => exact ⟨_, .down0⟩
  | ignored => exact key ⟨_, .ignored⟩

/-- Ctrl-C gives up the line whatever has been typed, and Ctrl-D gives up a line that is empty:
no line is handed over. -/
theorem C74_given_up (u : CharTables) (complete : List Nat → Reply) {cols : Nat}
    (hc : 0 < cols) (plen : Nat) {hist : List (List Nat)} (hh : ∀ t ∈ hist, LineOk u.comb t)
    (hlen : hist.length ≤ 100) {keys : List (List Nat)} {e : Ed}
    (hr : EdRun u.comb (Able u.comb) (Ed.start hist) keys e) (rest : List Nat) {c : Nat}
    (hk : c = 3 ∨ c = 4 ∧ e.line.text = []) :
    ∃ h', lnRead u complete cols plen (hist.map uniText) (keys.flatten ++ c :: rest) =
      .ok (none, h', rest) := by
  obtain ⟨l, fuel, h1, h2, h3⟩ := lnLoop_run complete hr (start_rel u hc plen hh hlen)
    (c :: rest) ((keys.flatten ++ c :: rest).length + 1) (Nat.lt_succ_self _)
  unfold lnRead
  rw [h3]
  cases fuel with
  | zero => simp at h2
  | succ fuel =>
    rcases hk with rfl | ⟨rfl, he⟩
    · have hkey : lnKey u complete l (3 :: rest) = .ok (.fail l rest) := by
        simp [lnKey, readCode_byte, Res.ok_bind]
      rw [lnLoop, hkey]
      exact ⟨_, rfl⟩
    · have hb : l.buf.length = 0 := by
        rw [h1.buf]
        have : e.line.before ++ e.line.after = [] := he
        rw [this]; rfl
      have hkey : lnKey u complete l (4 :: rest) =
          .ok (.fail { l with hist := l.hist.dropLast } rest) := by
        simp [lnKey, readCode_byte, Res.ok_bind, hb]
      rw [lnLoop, hkey]
      exact ⟨_, rfl⟩

/-! ### Violations -/

/-- A combining mark typed at the begin of the line makes the editor loop for ever, whatever
stands behind the cursor. -/
theorem C74_mark {u : CharTables} {l : LnState} {b s : List Nat} {o n : List (List Nat)}
    (h : EdRel u l ⟨⟨[], b⟩, s, o, n⟩) {c : Nat} (hc : Scalar c) (hm : u.comb c = true)
    (hr : (uniText b).length + (uni c).length ≤ lineRoom) :
    lnInsert u l (uni c) = .hang := by
  have hbuf := h.buf; have hp := h.pos; have ht := h.take; have hd := h.drop
  dsimp only at hbuf hp ht hd
  rw [List.nil_append] at hbuf
  rw [uniText_nil] at ht hp
  rw [List.length_nil] at hp
  have hloop : ∀ l' : LnState, l'.buf = uni c ++ uniText b → refresh u l' = .hang := by
    intro l' hl'
    have hpos := uni_pos c
    have hcol : columns u l'.cols l'.buf.length l'.buf.length l'.buf 0 0 l'.plen = .hang := by
      have hlen : l'.buf.length = (l'.buf.length - 1) + 1 := by rw [hl']; simp; omega
      rw [hlen, columns, ← hlen, hl', if_neg (by simp [uni_ne])]
      have : nextGlyph u (uni c ++ uniText b) = .ok (0, none) := by
        rw [nextGlyph, utf8Code_uni c hc.2]; simp [hm]
      rw [this]
      simp only
      rw [if_neg (by rw [List.length_append]; omega)]
    rw [refresh, hcol]; rfl
  have hroom : l.buf.length + (uni c).length ≤ lnRoom := by rw [hbuf]; exact hr
  rw [lnInsert, if_pos hroom]
  split
  · rename_i he
    apply hloop
    have : uniText b = [] := by
      rw [hbuf, hp] at he; exact List.eq_nil_of_length_eq_zero he
    rw [hbuf, this]; simp
  · apply hloop
    dsimp only
    rw [ht, hd]; simp

/-- Ctrl-T exchanges bytes, not characters: with a character of two bytes behind the cursor the
line is no longer UTF-8 and the editor fails (it uses a code that was never decoded, or loops). -/
theorem C74_swap {u : CharTables} {l : LnState} {s : List Nat} {o n : List (List Nat)} {x y : Nat}
    (hx : x < 128) (hy : 128 ≤ y) (hy2 : y < 0x800) (h : EdRel u l ⟨⟨[x], [y]⟩, s, o, n⟩) :
    ∀ l', lnSwap u l ≠ .ok l' := by
  have hbuf := h.buf; have hp := h.pos
  dsimp only at hbuf hp
  have ey : uni y = [0xC0 + y / 64, 0x80 + y % 64] := by
    unfold uni; rw [if_neg (by omega), if_pos hy2]
  have e1 : l.buf = [x, 0xC0 + y / 64, 0x80 + y % 64] := by
    rw [hbuf]; simp [uniText, uni_ascii hx, ey]
  have hp' : l.pos = 1 := by rw [hp]; simp [uniText, uni_ascii hx]
  intro l'
  rw [lnSwap, if_pos ⟨by omega, by rw [e1, hp']; simp⟩]
  have hset : (l.buf.set (l.pos - 1) (l.buf.getD l.pos 0)).set l.pos (l.buf.getD (l.pos - 1) 0) =
      [0xC0 + y / 64, x, 0x80 + y % 64] := by
    rw [e1, hp']; simp
  dsimp only
  rw [hset, refresh]
  have g1 : ¬ ((0xC0 + y / 64) &&& 0x80 = 0) := by
    rw [byte_and80 _ (by omega)]; omega
  have g2 : (0xC0 + y / 64) &&& 0xE0 = 0xC0 := by
    rw [byte_andE0 _ (by omega)]; omega
  have hc1 : utf8Code [0xC0 + y / 64, x, 0x80 + y % 64] =
      some (2, (((0xC0 + y / 64) &&& 0x1F) <<< 6) ||| (x &&& 0x3F)) := by
    simp only [utf8Code, if_neg g1, if_pos g2]
  have g3 : ¬ ((0x80 + y % 64) &&& 0x80 = 0) := by
    rw [byte_and80 _ (by omega)]; omega
  have g4 : ¬ ((0x80 + y % 64) &&& 0xE0 = 0xC0) := by
    rw [byte_andE0 _ (by omega)]; omega
  have g5 : ¬ ((0x80 + y % 64) &&& 0xF0 = 0xE0) := by
    rw [byte_andF0 _ (by omega)]; omega
  have g6 : ¬ ((0x80 + y % 64) &&& 0xF8 = 0xF0) := by
    rw [byte_andF8 _ (by omega)]; omega
  have hc2 : utf8Code [0x80 + y % 64] = none := by
    simp only [utf8Code, if_neg g3, if_neg g4, if_neg g5, if_neg g6]
  dsimp only
  simp only [List.length_cons, List.length_nil]
  rw [columns]
  simp only [List.cons_ne_nil, if_false, nextGlyph, hc1, List.length_cons, List.length_nil]
  by_cases hm : u.comb ((((0xC0 + y / 64) &&& 0x1F) <<< 6) ||| (x &&& 0x3F)) = true
  · simp [hm]
  · rw [if_neg hm, skipMarks]
    simp [hc2]

/-- A byte that is not UTF-8 ends the line as if Enter had been pressed: what has been typed so
far is handed over. -/
theorem C74_invalid (u : CharTables) (complete : List Nat → Reply) {cols : Nat}
    (hc : 0 < cols) (plen : Nat) {hist : List (List Nat)} (hh : ∀ t ∈ hist, LineOk u.comb t)
    (hlen : hist.length ≤ 100) {keys : List (List Nat)} {e : Ed}
    (hr : EdRun u.comb (Able u.comb) (Ed.start hist) keys e) (rest : List Nat) {c : Nat}
    (hb : 128 ≤ c ∧ c < 192 ∨ 248 ≤ c ∧ c < 256) :
    ∃ h', lnRead u complete cols plen (hist.map uniText) (keys.flatten ++ c :: rest) =
      .ok (some (uniText e.line.text), h', rest) := by
  obtain ⟨l, fuel, h1, h2, h3⟩ := lnLoop_run complete hr (start_rel u hc plen hh hlen)
    (c :: rest) ((keys.flatten ++ c :: rest).length + 1) (Nat.lt_succ_self _)
  unfold lnRead
  rw [h3]
  cases fuel with
  | zero => simp at h2
  | succ fuel =>
    have g3 : ¬ (c &&& 0x80 = 0) := by rw [byte_and80 _ (by omega)]; omega
    have g4 : ¬ (c &&& 0xE0 = 0xC0) := by rw [byte_andE0 _ (by omega)]; omega
    have g5 : ¬ (c &&& 0xF0 = 0xE0) := by rw [byte_andF0 _ (by omega)]; omega
    have g6 : ¬ (c &&& 0xF8 = 0xF0) := by rw [byte_andF8 _ (by omega)]; omega
    have hkey : lnKey u complete l (c :: rest) = .ok (.done l rest) := by
      simp only [lnKey, readCode, if_neg g3, if_neg g4, if_neg g5, if_neg g6, Res.ok_bind]
    rw [lnLoop, hkey]
    simp only [Res.ok_bind]
    refine ⟨_, by rw [h1.buf, lnStr_uniText h1.line.1]; rfl⟩

/-- So does the end of the input: a terminal that hangs up in the middle of a line has the
unfinished line handed over. -/
theorem C74_hangup (u : CharTables) (complete : List Nat → Reply) {cols : Nat}
    (hc : 0 < cols) (plen : Nat) {hist : List (List Nat)} (hh : ∀ t ∈ hist, LineOk u.comb t)
    (hlen : hist.length ≤ 100) {keys : List (List Nat)} {e : Ed}
    (hr : EdRun u.comb (Able u.comb) (Ed.start hist) keys e) :
    ∃ h', lnRead u complete cols plen (hist.map uniText) keys.flatten =
      .ok (some (uniText e.line.text), h', []) := by
  obtain ⟨l, fuel, h1, h2, h3⟩ := lnLoop_run complete hr (start_rel u hc plen hh hlen)
    [] ((keys.flatten ++ []).length + 1) (Nat.lt_succ_self _)
  rw [List.append_nil] at h3
  unfold lnRead
  rw [h3]
  cases fuel with
  | zero => simp at h2
  | succ fuel =>
    have hkey : lnKey u complete l [] = .ok (.done l []) := rfl
    rw [lnLoop, hkey]
    simp only [Res.ok_bind]
    refine ⟨_, by rw [h1.buf, lnStr_uniText h1.line.1]; rfl⟩

/-- The byte zero (Ctrl-Space) is put into the line, and the line that is handed over ends
before it: of `a`, Ctrl-Space, `b` there remains `a`. -/
theorem C74_zero : lnRead ⟨fun _ => false, fun _ => false⟩ (fun _ => .none) 80 0 [] [97, 0, 98, 13] =
    .ok (some [97], [[97]], []) := by decide +kernel

/-- A line of the history that fills the buffer loses its last byte when it is called back. -/
theorem C74_recall {u : CharTables} {l l' : LnState} {a b s t : List Nat} {o n : List (List Nat)}
    (h : EdRel u l ⟨⟨a, b⟩, s, t :: o, n⟩) (ht : (uniText t).length = lineRoom)
    (hl : lnHistory u l true = .ok l') : l'.buf = (uniText t).dropLast := by
  have hset := hist_set h
  have hh := h.hist; have hi := h.idx
  dsimp only at hh hi
  have hlen : l.hist.length = o.length + n.length + 2 := by rw [hh]; simp; omega
  rw [lnHistory, if_pos (by omega), if_neg (by omega)] at hl
  simp only [if_true] at hl
  rw [if_neg (by omega), hset] at hl
  have hget : ((List.map uniText ((t :: o).reverse ++ [a ++ b] ++ n))).getD
      (l.hist.length - 1 - (l.idx + 1)) [] = uniText t := by
    have : l.hist.length - 1 - (l.idx + 1) = o.length := by omega
    rw [this]; simp
  rw [hget] at hl
  have hload : lnLoad (uniText t) = (uniText t).dropLast := by
    rw [lnLoad, List.dropLast_eq_take, ht]; rfl
  rw [hload] at hl
  exact (refresh_same hl).1

/-! ### Examples -/

/-- `h`, `é`, one character back, backspace: the line is `é`, with the cursor before it; then the
line before is called back. -/
example : EdRun (fun _ => false) (Able fun _ => false) (Ed.start [[100, 105, 114]])
    [[104], [0xC3, 0xA9], [27, 91, 68], [127], [16]]
    ⟨⟨[100, 105, 114], []⟩, [100, 105, 114], [], [[0xE9]]⟩ := by
  refine .cons (k := .char 104) (KeyBytes.char (c := 104) ⟨by decide, by decide⟩ (by decide))
    (by simp [Able]) (.edit (.type (a := []) (b := []) (by decide))) ?_
  refine .cons (k := .char 0xE9) (KeyBytes.char (c := 0xE9) ⟨by decide, by decide⟩ (by decide))
    (by simp [Able]) (.edit (.type (a := [104]) (b := []) (by decide))) ?_
  refine .cons .left2 trivial (.edit (.left (a := [104]) (ch := [0xE9]) (b := [])
    ⟨0xE9, [], rfl, rfl, by simp⟩)) ?_
  refine .cons .backspace1 trivial (.edit (.backspace (a := []) (ch := [104]) (b := [0xE9])
    ⟨104, [], rfl, rfl, by simp⟩)) ?_
  refine .cons .up1 ?_ .up .nil
  intro t ht
  have : t = [100, 105, 114] := by
    have h : (Ed.start [[100, 105, 114]]).older.head? = some [100, 105, 114] := by decide
    change t ∈ (Ed.start [[100, 105, 114]]).older.head? at ht
    rw [h] at ht
    simpa using ht.symm
  subst this; decide

/-- A mark on a letter is one character with it: Backspace removes both. -/
example : EdRun (· == 0x301) (Able (· == 0x301)) (Ed.start [])
    [[101], [0xCC, 0x81], [127]] (Ed.start []) := by
  refine .cons (k := .char 101) (KeyBytes.char (c := 101) ⟨by decide, by decide⟩ (by decide))
    (by simp [Able]) (.edit (.type (a := []) (b := []) (by decide))) ?_
  refine .cons (k := .char 0x301) (KeyBytes.char (c := 0x301) ⟨by decide, by decide⟩ (by decide))
    (by simp [Able]) (.edit (.type (a := [101]) (b := []) (by decide))) ?_
  exact .cons .backspace1 trivial (.edit (.backspace (a := []) (ch := [101, 0x301]) (b := [])
    ⟨101, [0x301], rfl, rfl, by simp⟩)) .nil

/-- The same on the bytes. -/
example : lnRead ⟨(· == 0x301), fun _ => false⟩ (fun _ => .none) 80 0 [[100, 105, 114]]
    [101, 0xCC, 0x81, 127, 27, 91, 65, 13, 120] =
    .ok (some [100, 105, 114], [[100, 105, 114]], [120]) := by decide +kernel

theorem edRun_append {mark : Nat → Bool} {able : Ed → Key → Prop} {a b c : Ed} {k1 k2 : List (List Nat)}
    (h1 : EdRun mark able a k1 b) (h2 : EdRun mark able b k2 c) : EdRun mark able a (k1 ++ k2) c := by
  induction h1 with
  | nil => exact h2
  | cons x y z _ ih => exact .cons x y z (ih h2)

/-- The key F5 sends `ESC [ 1 5 ~`; the sequence is taken to end after four bytes, and a tilde is
put into the line, wherever the cursor is. -/
theorem C74_function_key (u : CharTables) (complete : List Nat → Reply) {cols : Nat}
    (hc : 0 < cols) (plen : Nat) {hist : List (List Nat)} (hh : ∀ t ∈ hist, LineOk u.comb t)
    (hlen : hist.length ≤ 100) {keys : List (List Nat)} {e : Ed}
    (hr : EdRun u.comb (Able u.comb) (Ed.start hist) keys e)
    (hm : u.comb 126 = false) (hroom : (uniText e.line.text).length < lineRoom) (rest : List Nat) :
    ∃ h', lnRead u complete cols plen (hist.map uniText)
      (keys.flatten ++ [27, 91, 49, 53, 126] ++ 13 :: rest) =
        .ok (some (uniText (e.line.before ++ [126] ++ e.line.after)), h', rest) := by
  obtain ⟨⟨a, b⟩, s, o, n⟩ := e
  have h2 : EdRun u.comb (Able u.comb) ⟨⟨a, b⟩, s, o, n⟩ [[27, 91, 49, 53], [126]]
      ⟨⟨a ++ [126], b⟩, s, o, n⟩ := by
    refine .cons (.other4 (by decide) (by decide) (by decide)) ?_ (.edit .ignored)
      (.cons (k := .char 126) (.char (by unfold Scalar; omega) (by decide)) ?_ (.edit (.type ?_)) .nil)
    · trivial
    · intro h; rw [hm] at h; cases h
    · show _ + 1 ≤ lineRoom
      exact hroom
  have h3 := C74_edit_partial u complete hc plen hh hlen (edRun_append hr h2) rest
  rw [List.flatten_append] at h3
  exact ⟨_, h3⟩

/-- The key ESC swallows the two bytes that come after it: the line goes on behind them, even if
one of them was Enter. -/
theorem C74_escape (u : CharTables) (complete : List Nat → Reply) {cols : Nat}
    (hc : 0 < cols) (plen : Nat) {hist : List (List Nat)} (hh : ∀ t ∈ hist, LineOk u.comb t)
    (hlen : hist.length ≤ 100) {keys : List (List Nat)} {e : Ed}
    (hr : EdRun u.comb (Able u.comb) (Ed.start hist) keys e) (x : Nat) (hx : x ≠ 91 ∧ x ≠ 79)
    (rest : List Nat) :
    ∃ h', lnRead u complete cols plen (hist.map uniText)
      (keys.flatten ++ [27, x, 13] ++ 13 :: rest) = .ok (some (uniText e.line.text), h', rest) := by
  obtain ⟨⟨a, b⟩, s, o, n⟩ := e
  have h2 : EdRun u.comb (Able u.comb) ⟨⟨a, b⟩, s, o, n⟩ [[27, x, 13]] ⟨⟨a, b⟩, s, o, n⟩ :=
    .cons (.other1 hx.1 hx.2) trivial (.edit .ignored) .nil
  have h3 := C74_edit_partial u complete hc plen hh hlen (edRun_append hr h2) rest
  rw [List.flatten_append] at h3
  simp only [List.flatten_cons, List.flatten_nil, List.append_nil] at h3
  exact ⟨_, h3⟩

/-- `a`, F5; and `a`, ESC, `x`, Enter, which is not seen, Enter. -/
example : lnRead ⟨fun _ => false, fun _ => false⟩ (fun _ => .none) 80 0 [] [97, 27, 91, 49, 53, 126, 13] =
      .ok (some [97, 126], [[97, 126]], []) ∧
    lnRead ⟨fun _ => false, fun _ => false⟩ (fun _ => .none) 80 0 [] [97, 27, 120, 13, 13] =
      .ok (some [97], [[97]], []) := by decide +kernel

end PBat
