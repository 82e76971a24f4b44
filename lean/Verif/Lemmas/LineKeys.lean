import Verif.Lemmas.LineEdit

namespace PBat
open Spec

/-- The state of the program stands for the state of the specification. -/
structure EdRel (u : CharTables) (l : LnState) (e : Ed) : Prop where
  buf : l.buf = uniText (e.line.before ++ e.line.after)
  pos : l.pos = (uniText e.line.before).length
  hist : l.hist = (e.older.reverse ++ [e.stored] ++ e.newer).map uniText
  idx : l.idx = e.newer.length
  cols : 0 < l.cols
  line : LineOk u.comb (e.line.before ++ e.line.after)
  after : Starts u.comb e.line.after
  entries : ∀ t ∈ e.older ++ e.newer, LineOk u.comb t
  stored : LineOk u.comb e.stored
  small : e.older.length + e.newer.length < 100

theorem rel_refresh {u : CharTables} {l : LnState} {e : Ed} (h : EdRel u l e) :
    ∃ l', refresh u l = .ok l' ∧ EdRel u l' e := by
  obtain ⟨l', h1, h2, h3, h4, h5, h6, h7⟩ := refresh_ok u l _ h.buf h.line.1 h.line.2.1 h.cols
  exact ⟨l', h1, ⟨by rw [h2, h.buf], by rw [h3, h.pos], by rw [h4, h.hist], by rw [h5, h.idx],
    by rw [h6]; exact h.cols, h.line, h.after, h.entries, h.stored, h.small⟩⟩

theorem EdRel.take {u : CharTables} {l : LnState} {e : Ed} (h : EdRel u l e) :
    l.buf.take l.pos = uniText e.line.before := by
  rw [h.buf, h.pos, uniText_append, List.take_left]

theorem EdRel.drop {u : CharTables} {l : LnState} {e : Ed} (h : EdRel u l e) :
    l.buf.drop l.pos = uniText e.line.after := by
  rw [h.buf, h.pos, uniText_append, List.drop_left]

theorem EdRel.len {u : CharTables} {l : LnState} {e : Ed} (h : EdRel u l e) :
    l.buf.length = (uniText e.line.before).length + (uniText e.line.after).length := by
  rw [h.buf, uniText_append, List.length_append]

/-- another line with the same history -/
theorem EdRel.edit {u : CharTables} {l : LnState} {a b s : List Nat} {o n : List (List Nat)}
    (h : EdRel u l ⟨⟨a, b⟩, s, o, n⟩) {a' b' : List Nat} {buf : List Nat} {pos : Nat}
    (hb : buf = uniText (a' ++ b')) (hp : pos = (uniText a').length)
    (hl : LineOk u.comb (a' ++ b')) (ha : Starts u.comb b') :
    EdRel u { l with buf := buf, pos := pos } ⟨⟨a', b'⟩, s, o, n⟩ :=
  ⟨hb, hp, h.hist, h.idx, h.cols, hl, ha, h.entries, h.stored, h.small⟩

theorem starts_append {mark : Nat → Bool} {a b : List Nat} (h : Starts mark (a ++ b))
    (ha : a ≠ []) (c : List Nat) : Starts mark (a ++ c) := by
  cases a with
  | nil => simp at ha
  | cons x a => intro c hc; exact h c (by simpa using hc)

theorem starts_left {mark : Nat → Bool} {a b : List Nat} (h : Starts mark (a ++ b)) :
    Starts mark a := by
  cases a with
  | nil => intro c hc; simp at hc
  | cons x a => intro c hc; exact h c (by simpa using hc)

theorem oneChar_starts {mark : Nat → Bool} {ch : List Nat} (h : OneChar mark ch)
    (r : List Nat) : Starts mark (ch ++ r) := by
  obtain ⟨b, ms, rfl, hb, -⟩ := h
  intro c hc; simp at hc; subst hc; exact hb

theorem oneChar_ne {mark : Nat → Bool} {ch : List Nat} (h : OneChar mark ch) : ch ≠ [] := by
  obtain ⟨b, ms, rfl, -⟩ := h; simp

/-- a part of the line is left out -/
theorem lineOk_cut {mark : Nat → Bool} {a ch b : List Nat} (h : LineOk mark (a ++ ch ++ b))
    (hb : Starts mark b) : LineOk mark (a ++ b) := by
  obtain ⟨h1, h2, h3⟩ := h
  refine ⟨fun c hc => h1 c (by simp at hc ⊢; grind), ?_, ?_⟩
  · cases a with
    | nil => exact hb
    | cons x a => intro c hc; exact h2 c (by simpa using hc)
  · simp only [uniText_append, List.length_append] at h3 ⊢; omega

variable {u : CharTables} {l : LnState} {a b s : List Nat} {o n : List (List Nat)}

theorem lnInsert_rel {c : Nat} (h : EdRel u l ⟨⟨a, b⟩, s, o, n⟩) (hc : Scalar c)
    (hm : u.comb c = true → a ≠ [])
    (hr : (uniText (a ++ b)).length + (uni c).length ≤ lineRoom) :
    ∃ l', lnInsert u l (uni c) = .ok l' ∧ EdRel u l' ⟨⟨a ++ [c], b⟩, s, o, n⟩ := by
  have hroom : l.buf.length + (uni c).length ≤ lnRoom := by rw [h.buf]; exact hr
  have e1 : uniText (a ++ [c]) = uniText a ++ uni c := by simp [uniText]
  have hl : LineOk u.comb (a ++ [c] ++ b) := by
    refine ⟨?_, ?_, ?_⟩
    · intro x hx; simp at hx
      rcases hx with hx | hx | hx
      · exact h.line.1 x (by simp [hx])
      · subst hx; exact hc
      · exact h.line.1 x (by simp [hx])
    · cases a with
      | nil =>
        intro x hx; simp at hx; subst hx
        cases hcc : u.comb c with
        | false => rfl
        | true => exact absurd rfl (hm hcc)
      | cons y a => intro x hx; exact h.line.2.1 x (by simpa using hx)
    · simp only [uniText_append, List.length_append] at hr ⊢
      have : uniText [c] = uni c := by simp [uniText]
      rw [this]; omega
  have ht := h.take
  have hd := h.drop
  have hp := h.pos
  dsimp only at ht hd hp
  unfold lnInsert
  rw [if_pos hroom]
  split
  · rename_i he
    apply rel_refresh
    apply h.edit
    · rw [h.buf]
      have : uniText b = [] := by
        have := h.len; dsimp only at this; rw [he, hp] at this
        exact List.eq_nil_of_length_eq_zero (by omega)
      simp only [uniText_append, this, List.append_nil]
      simp [uniText]
    · rw [hp, e1, List.length_append]
    · exact hl
    · exact h.after
  · apply rel_refresh
    apply h.edit
    · rw [ht, hd, uniText_append, e1]
    · rw [hp, e1, List.length_append]
    · exact hl
    · exact h.after

theorem lnInsert_full {c : Nat} (h : EdRel u l ⟨⟨a, b⟩, s, o, n⟩)
    (hr : lineRoom < (uniText (a ++ b)).length + (uni c).length) :
    lnInsert u l (uni c) = .ok l := by
  have hroom : ¬ l.buf.length + (uni c).length ≤ lnRoom := by
    rw [h.buf]; exact Nat.not_le.2 hr
  rw [lnInsert, if_neg hroom]

theorem prevChar_pos (ch : List Nat) (hc : OneChar u.comb ch)
    (h : EdRel u l ⟨⟨a ++ ch, b⟩, s, o, n⟩) :
    0 < l.pos ∧ prevGlyph u l.pos 0 (l.buf.take l.pos) = .ok (uniText ch).length ∧
      l.pos - (uniText ch).length = (uniText a).length := by
  have hp := h.pos
  dsimp only at hp
  have hlen : ∀ cs : List Nat, cs.length ≤ (uniText cs).length := by
    intro cs; induction cs with
    | nil => simp
    | cons c cs ih => have := uni_pos c; rw [uniText_cons]; simp; omega
  have h1 : 0 < ch.length := List.length_pos_iff.2 (oneChar_ne hc)
  have h2 := hlen ch
  rw [uniText_append, List.length_append] at hp
  refine ⟨by omega, ?_, by omega⟩
  have ht := h.take; dsimp only at ht
  rw [ht, prevChar_text u a ch hc (fun c hc => h.line.1 c (by simp at hc ⊢; grind)) _ _
    (by omega)]
  simp

theorem lnLeft_rel {ch : List Nat} (hc : OneChar u.comb ch)
    (h : EdRel u l ⟨⟨a ++ ch, b⟩, s, o, n⟩) :
    ∃ l', lnLeft u l = .ok l' ∧ EdRel u l' ⟨⟨a, ch ++ b⟩, s, o, n⟩ := by
  obtain ⟨h1, h2, h3⟩ := prevChar_pos ch hc h
  rw [lnLeft, if_pos h1, h2]
  simp only [Res.ok_bind]
  apply rel_refresh
  apply h.edit
  · rw [h.buf]; simp
  · exact h3
  · have := h.line; simpa using this
  · exact oneChar_starts hc b

theorem lnBackspace_rel {ch : List Nat} (hc : OneChar u.comb ch)
    (h : EdRel u l ⟨⟨a ++ ch, b⟩, s, o, n⟩) :
    ∃ l', lnBackspace u l = .ok l' ∧ EdRel u l' ⟨⟨a, b⟩, s, o, n⟩ := by
  obtain ⟨h1, h2, h3⟩ := prevChar_pos ch hc h
  have hl : 0 < l.buf.length := by
    have := h.len; have hp := h.pos; dsimp only at this hp; omega
  rw [lnBackspace, if_pos ⟨h1, hl⟩, h2]
  simp only [Res.ok_bind]
  apply rel_refresh
  apply h.edit
  · have hd := h.drop; dsimp only at hd
    rw [hd, h3, h.buf]
    simp only [uniText_append, List.append_assoc, List.take_left]
  · exact h3
  · exact lineOk_cut h.line h.after
  · exact h.after

theorem nextChar_pos {ch : List Nat} (hc : OneChar u.comb ch) (hb : Starts u.comb b)
    (h : EdRel u l ⟨⟨a, ch ++ b⟩, s, o, n⟩) :
    l.pos < l.buf.length ∧ ∃ w, nextGlyph u (l.buf.drop l.pos) = .ok ((uniText ch).length, w) := by
  have hp := h.pos; have hl := h.len; have hd := h.drop
  dsimp only at hp hl hd
  have h1 : 0 < (uniText ch).length := List.length_pos_iff.2 (by
    rw [ne_eq, uniText_eq_nil]; exact oneChar_ne hc)
  obtain ⟨w, hw, -⟩ := nextChar_text u hc (fun c hc => h.line.1 c (by simp at hc ⊢; grind)) hb
  rw [uniText_append, List.length_append] at hl
  exact ⟨by omega, some w, by rw [hd, hw]⟩

theorem lnRight_rel {ch : List Nat} (hc : OneChar u.comb ch) (hb : Starts u.comb b)
    (h : EdRel u l ⟨⟨a, ch ++ b⟩, s, o, n⟩) :
    ∃ l', lnRight u l = .ok l' ∧ EdRel u l' ⟨⟨a ++ ch, b⟩, s, o, n⟩ := by
  obtain ⟨h1, w, h2⟩ := nextChar_pos hc hb h
  rw [lnRight, if_pos (by omega), h2]
  simp only [Res.ok_bind]
  apply rel_refresh
  apply h.edit
  · rw [h.buf]; simp
  · have hp := h.pos; dsimp only at hp; rw [hp, uniText_append, List.length_append]
  · have := h.line; simpa using this
  · exact hb

theorem lnDelete_rel {ch : List Nat} (hc : OneChar u.comb ch) (hb : Starts u.comb b)
    (h : EdRel u l ⟨⟨a, ch ++ b⟩, s, o, n⟩) :
    ∃ l', lnDelete u l = .ok l' ∧ EdRel u l' ⟨⟨a, b⟩, s, o, n⟩ := by
  obtain ⟨h1, w, h2⟩ := nextChar_pos hc hb h
  rw [lnDelete, if_pos ⟨by omega, h1⟩, h2]
  simp only [Res.ok_bind]
  have hp := h.pos; have ht := h.take; have hl := h.line
  dsimp only at hp ht hl
  apply rel_refresh
  apply h.edit
  · rw [ht, ← List.drop_drop, h.drop]
    dsimp only
    rw [uniText_append, uniText_append, List.drop_left]
  · exact hp
  · rw [← List.append_assoc] at hl; exact lineOk_cut hl hb
  · exact hb

theorem lnRight_end (h : EdRel u l ⟨⟨a, []⟩, s, o, n⟩) :
    lnRight u l = .ok l ∧ lnDelete u l = .ok l := by
  have hp := h.pos; have hl := h.len
  dsimp only at hp hl
  rw [uniText_nil, List.length_nil] at hl
  exact ⟨by rw [lnRight, if_neg (by omega)], by rw [lnDelete, if_neg (by omega)]⟩

theorem lnLeft_begin (h : EdRel u l ⟨⟨[], b⟩, s, o, n⟩) :
    lnLeft u l = .ok l ∧ lnBackspace u l = .ok l := by
  have hp := h.pos
  dsimp only at hp
  rw [uniText_nil, List.length_nil] at hp
  exact ⟨by rw [lnLeft, if_neg (by omega)], by rw [lnBackspace, if_neg (by omega)]⟩

theorem lnHome_rel (h : EdRel u l ⟨⟨a, b⟩, s, o, n⟩) :
    ∃ l', lnHome u l = .ok l' ∧ EdRel u l' ⟨⟨[], a ++ b⟩, s, o, n⟩ := by
  have hp := h.pos; have hl := h.line
  dsimp only at hp hl
  have key := @EdRel.edit u l a b s o n h [] (a ++ b) l.buf 0 h.buf rfl hl hl.2.1
  rw [lnHome]
  split
  · exact rel_refresh key
  · rename_i h0
    refine ⟨l, rfl, ?_⟩
    have : l.pos = 0 := by omega
    rw [← this] at key
    exact key

theorem lnEnd_rel (h : EdRel u l ⟨⟨a, b⟩, s, o, n⟩) :
    ∃ l', lnEnd u l = .ok l' ∧ EdRel u l' ⟨⟨a ++ b, []⟩, s, o, n⟩ := by
  have hp := h.pos; have hl := h.line; have hb := h.buf
  dsimp only at hp hl hb
  have key := @EdRel.edit u l a b s o n h (a ++ b) [] l.buf l.buf.length (by rw [hb]; simp)
    (by rw [hb]) (by simpa using hl) (by intro c hc; simp at hc)
  rw [lnEnd]
  split
  · exact rel_refresh key
  · rename_i h0
    refine ⟨l, rfl, ?_⟩
    have : l.pos = l.buf.length := by omega
    rw [← this] at key
    exact key

theorem lnKill_rel (h : EdRel u l ⟨⟨a, b⟩, s, o, n⟩) :
    ∃ l', lnKill u l = .ok l' ∧ EdRel u l' ⟨⟨[], []⟩, s, o, n⟩ := by
  apply rel_refresh
  apply h.edit
  · rfl
  · rfl
  · exact ⟨by simp, by intro c hc; simp at hc, by simp [uniText]⟩
  · intro c hc; simp at hc

theorem lnKillEnd_rel (h : EdRel u l ⟨⟨a, b⟩, s, o, n⟩) :
    ∃ l', lnKillEnd u l = .ok l' ∧ EdRel u l' ⟨⟨a, []⟩, s, o, n⟩ := by
  have hp := h.pos; have hl := h.line; have ht := h.take
  dsimp only at hp hl ht
  apply rel_refresh
  apply h.edit
  · rw [ht]; simp
  · exact hp
  · refine lineOk_cut (ch := b) (by simpa using hl) ?_
    intro c hc; simp at hc
  · intro c hc; simp at hc

theorem lnClear_rel (h : EdRel u l ⟨⟨a, b⟩, s, o, n⟩) :
    ∃ l', lnClear u l = .ok l' ∧ EdRel u l' ⟨⟨a, b⟩, s, o, n⟩ := by
  apply rel_refresh
  exact ⟨h.buf, h.pos, h.hist, h.idx, h.cols, h.line, h.after, h.entries, h.stored, h.small⟩

/-! ### Words -/

theorem dropWhile_front {α} (p : α → Bool) (s r : List α) (h : ∀ x ∈ s, p x = true) :
    (s ++ r).dropWhile p = r.dropWhile p := by
  induction s with
  | nil => rfl
  | cons x s ih =>
    rw [List.cons_append, List.dropWhile_cons_of_pos (h x (by simp)),
      ih fun y hy => h y (by simp [hy])]

theorem dropWhile_stop {α} (p : α → Bool) (r : List α) (h : ∀ x ∈ r.head?, p x = false) :
    r.dropWhile p = r := by
  cases r with
  | nil => rfl
  | cons x r => rw [List.dropWhile_cons_of_neg (by simp [h x (by simp)])]

theorem uniText_spaces {sp : List Nat} (h : ∀ c ∈ sp, c = 32) : ∀ b ∈ uniText sp, b = 32 := by
  intro b hb
  simp only [uniText, List.mem_flatMap] at hb
  obtain ⟨c, hc, hb⟩ := hb
  rw [h c hc] at hb
  simpa [uni] using hb

theorem uniText_nospace {w : List Nat} (hg : ∀ c ∈ w, Scalar c) (h : ∀ c ∈ w, c ≠ 32) :
    ∀ b ∈ uniText w, b ≠ 32 := by
  intro b hb
  simp only [uniText, List.mem_flatMap] at hb
  obtain ⟨c, hc, hb⟩ := hb
  intro he
  exact h c hc ((uni_space (hg c hc).2 b hb).1 he)

theorem wordStart_text {p w sp : List Nat} (hg : ∀ c ∈ p ++ w ++ sp, Scalar c)
    (hsp : ∀ c ∈ sp, c = 32) (hw : ∀ c ∈ w, c ≠ 32) (hwp : w = [] → p = [])
    (hp : ∀ c ∈ p.getLast?, c = 32) :
    wordStart (uniText (p ++ w ++ sp)).reverse = (uniText p).length := by
  have h1 := uniText_spaces hsp
  have h2 := uniText_nospace (fun c hc => hg c (by simp [hc])) hw
  unfold wordStart
  simp only [uniText_append, List.reverse_append]
  rw [dropWhile_front _ (uniText sp).reverse _ (by simpa using h1)]
  by_cases hw0 : w = []
  · subst hw0; simp [hwp rfl, uniText]
  have hw1 : (uniText w).reverse ≠ [] := by simpa [uniText_eq_nil] using hw0
  rw [dropWhile_stop _ ((uniText w).reverse ++ _)]
  · rw [dropWhile_front _ (uniText w).reverse _ (by simpa using h2)]
    rw [dropWhile_stop]
    · simp
    · intro x hx
      rw [List.head?_reverse] at hx
      rcases List.eq_nil_or_concat p with rfl | ⟨p', c, rfl⟩
      · simp [uniText] at hx
      · have : c = 32 := hp c (by simp)
        subst this
        have e : uniText (p' ++ [32]) = uniText p' ++ [32] := by simp [uniText, uni]
        rw [List.concat_eq_append, e] at hx
        simp at hx
        simp [hx]
  · intro x hx
    cases hr : (uniText w).reverse with
    | nil => exact absurd hr hw1
    | cons y r =>
      rw [hr] at hx; simp at hx; subst hx
      have : y ∈ uniText w := by
        have : y ∈ (uniText w).reverse := by rw [hr]; simp
        simpa using this
      simp [h2 y this]

theorem lnDelWord_rel {p w sp : List Nat} (h : EdRel u l ⟨⟨p ++ w ++ sp, b⟩, s, o, n⟩)
    (hsp : ∀ c ∈ sp, c = 32) (hw : ∀ c ∈ w, c ≠ 32) (hwp : w = [] → p = [])
    (hp : ∀ c ∈ p.getLast?, c = 32) :
    ∃ l', lnDelWord u l = .ok l' ∧ EdRel u l' ⟨⟨p, b⟩, s, o, n⟩ := by
  have ht := h.take; have hd := h.drop; have hl := h.line
  dsimp only at ht hd hl
  have hws : wordStart (l.buf.take l.pos).reverse = (uniText p).length := by
    rw [ht]
    exact wordStart_text (fun c hc => hl.1 c (by simp at hc ⊢; grind)) hsp hw hwp hp
  rw [lnDelWord, hws]
  apply rel_refresh
  apply h.edit
  · rw [hd, h.buf, uniText_append]
    simp only [uniText_append, List.append_assoc, List.take_left]
  · rfl
  · refine lineOk_cut (ch := w ++ sp) (by simpa using hl) h.after
  · exact h.after

/-! ### Swapping -/

theorem uni_ascii {c : Nat} (h : c < 128) : uni c = [c] := by
  simp [uni, h]

theorem set_swap (A B : List Nat) (x y : Nat) :
    ((A ++ x :: y :: B).set A.length y).set (A.length + 1) x = A ++ y :: x :: B := by
  simp [List.set_append]

theorem lnSwap_rel {x y : Nat} (hx : x < 128) (hy : y < 128) (hmx : u.comb x = false)
    (hb : Starts u.comb b) (h : EdRel u l ⟨⟨a ++ [x], y :: b⟩, s, o, n⟩) :
    ∃ l', lnSwap u l = .ok l' ∧ EdRel u l'
      (if b = [] then ⟨⟨a ++ [y], [x]⟩, s, o, n⟩ else ⟨⟨a ++ [y, x], b⟩, s, o, n⟩) := by
  have hp := h.pos; have hl := h.line; have hbf := h.buf; have ha := h.after
  dsimp only at hp hl hbf ha
  have hmy : u.comb y = false := ha y (by simp)
  have e1 : uniText (a ++ [x]) = uniText a ++ [x] := by simp [uniText, uni_ascii hx]
  have e2 : l.buf = uniText a ++ x :: y :: uniText b := by
    rw [hbf]; simp [uniText, uni_ascii hx, uni_ascii hy]
  have hp' : l.pos = (uniText a).length + 1 := by rw [hp, e1]; simp
  have hl2 : l.buf.length = (uniText a).length + (uniText b).length + 2 := by
    rw [e2]; simp; omega
  have hh : LineOk u.comb (a ++ y :: x :: b) := by
    obtain ⟨g1, g2, g3⟩ := hl
    refine ⟨fun c hc => g1 c (by simp at hc ⊢; grind), ?_, ?_⟩
    · cases a with
      | nil => intro c hc; simp at hc; subst hc; exact hmy
      | cons z a => intro c hc; exact g2 c (by simpa using hc)
    · simp [uniText] at g3 ⊢; omega
  have hset : (l.buf.set (l.pos - 1) (l.buf.getD l.pos 0)).set l.pos (l.buf.getD (l.pos - 1) 0) =
      uniText a ++ y :: x :: uniText b := by
    have g1 : l.buf.getD (l.pos - 1) 0 = x := by
      rw [e2, hp']; simp
    have g2 : l.buf.getD l.pos 0 = y := by
      rw [e2, hp']; simp
    rw [g1, g2, e2, hp']
    simpa using set_swap (uniText a) (uniText b) x y
  rw [lnSwap, if_pos ⟨by omega, by omega⟩]
  dsimp only
  rw [hset]
  by_cases hbn : b = []
  · subst hbn
    rw [if_pos rfl, if_neg (by rw [hl2, hp']; simp [uniText])]
    apply rel_refresh
    apply h.edit
    · simp [uniText, uni_ascii hx, uni_ascii hy]
    · rw [hp']; simp [uniText, uni_ascii hy]
    · simpa using hh
    · intro c hc; simp at hc; subst hc; exact hmx
  · have : 0 < (uniText b).length := List.length_pos_iff.2 (by
      rw [ne_eq, uniText_eq_nil]; exact hbn)
    rw [if_neg hbn, if_pos (by omega)]
    apply rel_refresh
    apply h.edit
    · simp [uniText, uni_ascii hx, uni_ascii hy]
    · rw [hp']; simp [uniText, uni_ascii hx, uni_ascii hy]
    · simpa using hh
    · exact hb

theorem lnSwap_edge (h : EdRel u l ⟨⟨a, b⟩, s, o, n⟩) (hab : a = [] ∨ b = []) :
    lnSwap u l = .ok l := by
  have hp := h.pos; have hl := h.len
  dsimp only at hp hl
  rw [lnSwap, if_neg]
  rcases hab with rfl | rfl
  · rw [uniText_nil, List.length_nil] at hp; omega
  · rw [uniText_nil, List.length_nil] at hl; omega

/-! ### History -/

theorem lnLoad_text {t : List Nat} (h : (uniText t).length < lineRoom) :
    lnLoad (uniText t) = uniText t := by
  unfold lnLoad
  apply List.take_of_length_le
  unfold lineRoom at h; unfold lnRoom; omega

theorem lnHistory_one (h : EdRel u l ⟨⟨a, b⟩, s, [], []⟩) (d : Bool) :
    lnHistory u l d = .ok l := by
  have := h.hist; dsimp only at this
  rw [lnHistory, if_neg (by rw [this]; simp)]

/-- the entry being edited gets the text of the line -/
theorem hist_set (h : EdRel u l ⟨⟨a, b⟩, s, o, n⟩) :
    l.hist.set (l.hist.length - 1 - l.idx) (lnStr l.buf) =
      (o.reverse ++ [a ++ b] ++ n).map uniText := by
  have hh := h.hist; have hi := h.idx; have hb := h.buf; have hl := h.line
  dsimp only at hh hi hb hl
  rw [hb, lnStr_uniText hl.1, hh, hi]
  simp only [List.map_append, List.length_append, List.length_map, List.length_reverse,
    List.map_cons, List.map_nil, List.length_cons, List.length_nil]
  have e : o.length + (0 + 1) + n.length - 1 - n.length = (o.reverse.map uniText).length := by
    simp only [List.length_map, List.length_reverse]; omega
  rw [e, List.append_assoc, List.set_append_right _ _ (Nat.le_refl _)]
  simp

theorem lnHistory_up {t : List Nat} (h : EdRel u l ⟨⟨a, b⟩, s, t :: o, n⟩)
    (ht : (uniText t).length < lineRoom) :
    ∃ l', lnHistory u l true = .ok l' ∧ EdRel u l' ⟨⟨t, []⟩, t, o, (a ++ b) :: n⟩ := by
  have hset := hist_set h
  have hh := h.hist; have hi := h.idx; have hl := h.line
  dsimp only at hh hi hl
  have hlen : l.hist.length = o.length + n.length + 2 := by rw [hh]; simp; omega
  have hte : LineOk u.comb t := h.entries t (by simp)
  rw [lnHistory, if_pos (by omega), if_neg (by omega)]
  simp only [if_true]
  rw [if_neg (by omega), hset]
  have hget : ((List.map uniText ((t :: o).reverse ++ [a ++ b] ++ n))).getD
      (l.hist.length - 1 - (l.idx + 1)) [] = uniText t := by
    have : l.hist.length - 1 - (l.idx + 1) = o.length := by omega
    rw [this]; simp
  rw [hget, lnLoad_text ht]
  apply rel_refresh
  refine ⟨by simp, rfl, ?_, ?_, h.cols, by simpa using hte, by intro c hc; simp at hc, ?_, hte, ?_⟩
  · simp
  · simp [hi]
  · intro t' ht'
    simp at ht'
    rcases ht' with ht' | ht' | ht'
    · exact h.entries t' (by simp [ht'])
    · subst ht'; exact hl
    · exact h.entries t' (by simp [ht'])
  · have := h.small; simp at this ⊢; omega

theorem lnHistory_down {t : List Nat} (h : EdRel u l ⟨⟨a, b⟩, s, o, t :: n⟩)
    (ht : (uniText t).length < lineRoom) :
    ∃ l', lnHistory u l false = .ok l' ∧ EdRel u l' ⟨⟨t, []⟩, t, (a ++ b) :: o, n⟩ := by
  have hset := hist_set h
  have hh := h.hist; have hi := h.idx; have hl := h.line
  dsimp only at hh hi hl
  have hlen : l.hist.length = o.length + n.length + 2 := by rw [hh]; simp; omega
  have hte : LineOk u.comb t := h.entries t (by simp)
  simp only [List.length_cons] at hi
  rw [lnHistory, if_pos (by omega), if_neg (by omega)]
  simp only [Bool.false_eq_true, if_false]
  rw [if_neg (by omega), hset]
  have hget : ((List.map uniText (o.reverse ++ [a ++ b] ++ t :: n))).getD
      (l.hist.length - 1 - (l.idx - 1)) [] = uniText t := by
    have : l.hist.length - 1 - (l.idx - 1) = o.length + 1 := by omega
    rw [this]
    simp [List.getElem?_append_right]
  rw [hget, lnLoad_text ht]
  apply rel_refresh
  refine ⟨by simp, rfl, ?_, ?_, h.cols, by simpa using hte, by intro c hc; simp at hc, ?_, hte, ?_⟩
  · simp
  · simp [hi]
  · intro t' ht'
    simp at ht'
    rcases ht' with ht' | ht' | ht'
    · subst ht'; exact hl
    · exact h.entries t' (by simp [ht'])
    · exact h.entries t' (by simp [ht'])
  · have := h.small; simp at this ⊢; omega

theorem lnHistory_top {t : List Nat} (h : EdRel u l ⟨⟨a, b⟩, s, [], t :: n⟩) :
    ∃ l', lnHistory u l true = .ok l' ∧ EdRel u l' ⟨⟨a, b⟩, a ++ b, [], t :: n⟩ := by
  have hset := hist_set h
  have hh := h.hist; have hi := h.idx
  dsimp only at hh hi
  have hlen : l.hist.length = n.length + 2 := by rw [hh]; simp
  simp only [List.length_cons] at hi
  rw [lnHistory, if_pos (by omega), if_neg (by omega)]
  simp only [if_true]
  rw [if_pos (by omega), hset]
  exact ⟨_, rfl, h.buf, h.pos, rfl, by simp [hlen], h.cols, h.line, h.after, h.entries, h.line, h.small⟩

theorem lnHistory_bottom {t : List Nat} (h : EdRel u l ⟨⟨a, b⟩, s, t :: o, []⟩) :
    ∃ l', lnHistory u l false = .ok l' ∧ EdRel u l' ⟨⟨a, b⟩, a ++ b, t :: o, []⟩ := by
  have hset := hist_set h
  have hh := h.hist; have hi := h.idx
  dsimp only at hh hi
  have hlen : l.hist.length = o.length + 2 := by rw [hh]; simp
  simp only [List.length_nil] at hi
  rw [lnHistory, if_pos (by omega), if_neg (by omega)]
  simp only [Bool.false_eq_true, if_false]
  rw [if_pos hi, hset]
  exact ⟨_, rfl, h.buf, h.pos, rfl, rfl, h.cols, h.line, h.after, h.entries, h.line, h.small⟩

end PBat
