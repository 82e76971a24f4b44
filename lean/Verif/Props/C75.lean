import Verif.Lemmas.LineRun

/-!
C75: whatever bytes arrive, the line editor stays inside its buffer and its history.
-/

namespace PBat
open Spec

namespace Spec

/-- The size of the buffer of the line and the number of entries of the history. -/
def bufferSize : Nat := 4096

/-- The cursor is inside the text, the text and its terminator are inside the buffer; the entry
being edited is one of the history, and the history is inside its array. -/
def InBounds (pos len idx entries : Nat) : Prop :=
  pos ≤ len ∧ len + 1 ≤ bufferSize ∧ idx < entries ∧ entries ≤ 100

end Spec

/-- The states the editor goes through, key by key. -/
inductive LnReach (u : CharTables) (complete : List Nat → Reply) :
    LnState → List Nat → LnState → List Nat → Prop
  | start {l inp} : LnReach u complete l inp l inp
  | step {l inp l1 inp1 l2 inp2} : LnReach u complete l inp l1 inp1 →
      lnKey u complete l1 inp1 = .ok (.more l2 inp2) → LnReach u complete l inp l2 inp2

/-- the bounds of a state -/
def Bounded (l : LnState) : Prop := InBounds l.pos l.buf.length l.idx l.hist.length

theorem utf8Code_len {s : List Nat} {n c : Nat} (h : utf8Code s = some (n, c)) :
    1 ≤ n ∧ n ≤ s.length := by
  cases s with
  | nil => simp [utf8Code] at h
  | cons b r =>
    simp only [utf8Code] at h
    split at h
    · simp at h; simp; omega
    split at h
    · cases r with
      | nil => simp at h
      | cons b1 r => simp at h; simp; omega
    split at h
    · match r, h with
      | b1 :: b2 :: r, h => simp at h; simp; omega
    split at h
    · match r, h with
      | b1 :: b2 :: b3 :: r, h => simp at h; simp; omega
    · simp at h

theorem skipMarks_len {u : CharTables} : ∀ {fuel acc : Nat} {s : List Nat} {k : Nat},
    skipMarks u fuel acc s = .ok k → k ≤ acc + s.length := by
  intro fuel
  induction fuel with
  | zero => intro acc s k h; simp [skipMarks] at h; omega
  | succ fuel ih =>
    intro acc s k h
    rw [skipMarks] at h
    split at h
    · simp at h; omega
    split at h
    · simp at h
    · rename_i n c hc
      have := utf8Code_len hc
      split at h
      · have := ih h; rw [List.length_drop] at this; omega
      · simp at h; omega

theorem nextGlyph_len {u : CharTables} {s : List Nat} {p : Nat × Option Nat}
    (h : nextGlyph u s = .ok p) : p.1 ≤ s.length := by
  rw [nextGlyph] at h
  split at h
  · simp at h
  · rename_i n c hc
    have := utf8Code_len hc
    split at h
    · simp at h; subst h; simp
    · rw [res_bind_eq_ok] at h
      obtain ⟨k, hk, h⟩ := h
      have := skipMarks_len hk
      simp at h; subst h
      rw [List.length_drop] at this
      dsimp only; omega

theorem prevBytes_len : ∀ {s : List Nat} {n : Nat}, prevBytes s = some n → 1 ≤ n ∧ n ≤ s.length := by
  intro s
  induction s with
  | nil => intro n h; simp [prevBytes] at h
  | cons b r ih =>
    intro n h
    rw [prevBytes] at h
    split at h
    · simp only [Option.map_eq_some_iff] at h
      obtain ⟨m, hm, rfl⟩ := h
      have := ih hm; simp; omega
    · simp at h; subst h; simp

theorem prevGlyph_len {u : CharTables} : ∀ {fuel acc : Nat} {s : List Nat} {k : Nat},
    prevGlyph u fuel acc s = .ok k → k ≤ acc + s.length := by
  intro fuel
  induction fuel with
  | zero => intro acc s k h; simp [prevGlyph] at h; omega
  | succ fuel ih =>
    intro acc s k h
    rw [prevGlyph] at h
    split at h
    · simp at h; omega
    split at h
    · simp at h
    · rename_i n hn
      have h1 := prevBytes_len hn
      rw [List.length_reverse] at h1
      split at h
      · simp at h
      · split at h
        · have := ih h; rw [List.length_take] at this; omega
        · simp at h; omega

/-- the state after showing the line is bounded when the one before is -/
theorem refresh_bounded {u : CharTables} {l l' : LnState} (h : refresh u l = .ok l')
    (hb : Bounded l) : Bounded l' := by
  obtain ⟨h1, h2, h3, h4, -⟩ := refresh_same h
  unfold Bounded at *
  rw [h1, h2, h3, h4]; exact hb

/-- what one operation of the editor keeps -/
def Keeps (f : LnState → Res LnState) : Prop := ∀ l l', Bounded l → f l = .ok l' → Bounded l'

theorem keeps_insert (u : CharTables) (c : List Nat) : Keeps (lnInsert u · c) := by
  intro l l' hb h
  dsimp only at h
  rw [lnInsert] at h
  obtain ⟨h1, h2, h3, h4⟩ := hb
  unfold bufferSize at h2
  split at h
  · rename_i hr
    unfold lnRoom at hr
    split at h
    · refine refresh_bounded h ⟨?_, ?_, h3, h4⟩ <;> simp [bufferSize] <;> omega
    · refine refresh_bounded h ⟨?_, ?_, h3, h4⟩ <;> simp [bufferSize] <;> omega
  · simp at h; subst h; exact ⟨h1, h2, h3, h4⟩

theorem keeps_left (u : CharTables) : Keeps (lnLeft u) := by
  intro l l' hb h
  rw [lnLeft] at h
  split at h
  · rw [res_bind_eq_ok] at h
    obtain ⟨n, -, h⟩ := h
    obtain ⟨h1, h2, h3, h4⟩ := hb
    exact refresh_bounded h ⟨by dsimp only; omega, h2, h3, h4⟩
  · simp at h; subst h; exact hb

theorem keeps_right (u : CharTables) : Keeps (lnRight u) := by
  intro l l' hb h
  rw [lnRight] at h
  split at h
  · rw [res_bind_eq_ok] at h
    obtain ⟨n, hn, h⟩ := h
    have := nextGlyph_len hn
    rw [List.length_drop] at this
    obtain ⟨h1, h2, h3, h4⟩ := hb
    exact refresh_bounded h ⟨by dsimp only; omega, h2, h3, h4⟩
  · simp at h; subst h; exact hb

theorem keeps_home (u : CharTables) : Keeps (lnHome u) := by
  intro l l' hb h
  rw [lnHome] at h
  split at h
  · obtain ⟨h1, h2, h3, h4⟩ := hb
    exact refresh_bounded h ⟨Nat.zero_le _, h2, h3, h4⟩
  · simp at h; subst h; exact hb

theorem keeps_end (u : CharTables) : Keeps (lnEnd u) := by
  intro l l' hb h
  rw [lnEnd] at h
  split at h
  · obtain ⟨h1, h2, h3, h4⟩ := hb
    exact refresh_bounded h ⟨Nat.le_refl _, h2, h3, h4⟩
  · simp at h; subst h; exact hb

theorem keeps_history (u : CharTables) (d : Bool) : Keeps (lnHistory u · d) := by
  intro l l' hb h
  obtain ⟨h1, h2, h3, h4⟩ := hb
  have load : ∀ e : List Nat, (lnLoad e).length + 1 ≤ bufferSize := by
    intro e; unfold lnLoad lnRoom bufferSize; rw [List.length_take]; omega
  dsimp only at h
  rw [lnHistory] at h
  split at h
  · rw [if_neg (by omega)] at h
    dsimp only at h
    split at h
    · split at h
      · simp at h; subst h
        refine ⟨h1, h2, ?_, by simpa using h4⟩
        simp; omega
      · refine refresh_bounded h ⟨Nat.le_refl _, load _, ?_, by simpa using h4⟩
        simp; omega
    · split at h
      · simp at h; subst h
        refine ⟨h1, h2, ?_, by simpa using h4⟩
        simp; omega
      · refine refresh_bounded h ⟨Nat.le_refl _, load _, ?_, by simpa using h4⟩
        simp; omega
  · simp at h; subst h; exact ⟨h1, h2, h3, h4⟩

theorem keeps_delete (u : CharTables) : Keeps (lnDelete u) := by
  intro l l' hb h
  rw [lnDelete] at h
  split at h
  · rw [res_bind_eq_ok] at h
    obtain ⟨n, hn, h⟩ := h
    have := nextGlyph_len hn
    rw [List.length_drop] at this
    obtain ⟨h1, h2, h3, h4⟩ := hb
    refine refresh_bounded h ⟨?_, ?_, h3, h4⟩ <;> simp <;> omega
  · simp at h; subst h; exact hb

theorem keeps_backspace (u : CharTables) : Keeps (lnBackspace u) := by
  intro l l' hb h
  rw [lnBackspace] at h
  split at h
  · rw [res_bind_eq_ok] at h
    obtain ⟨n, hn, h⟩ := h
    have := prevGlyph_len hn
    rw [List.length_take] at this
    obtain ⟨h1, h2, h3, h4⟩ := hb
    refine refresh_bounded h ⟨?_, ?_, h3, h4⟩ <;> simp <;> omega
  · simp at h; subst h; exact hb

theorem wordStart_le (s : List Nat) : wordStart s ≤ s.length := by
  have : ∀ (p : Nat → Bool) (l : List Nat), (l.dropWhile p).length ≤ l.length := by
    intro p l; exact (List.dropWhile_sublist p).length_le
  exact Nat.le_trans (this _ _) (this _ _)

theorem keeps_delWord (u : CharTables) : Keeps (lnDelWord u) := by
  intro l l' hb h
  rw [lnDelWord] at h
  have := wordStart_le (l.buf.take l.pos).reverse
  rw [List.length_reverse, List.length_take] at this
  obtain ⟨h1, h2, h3, h4⟩ := hb
  refine refresh_bounded h ⟨?_, ?_, h3, h4⟩ <;> simp <;> omega

theorem keeps_swap (u : CharTables) : Keeps (lnSwap u) := by
  intro l l' hb h
  rw [lnSwap] at h
  split at h
  · obtain ⟨h1, h2, h3, h4⟩ := hb
    refine refresh_bounded h ⟨?_, ?_, h3, h4⟩
    · dsimp only
      simp only [List.length_set]
      split <;> omega
    · simpa using h2
  · simp at h; subst h; exact hb

theorem keeps_kill (u : CharTables) : Keeps (lnKill u) := by
  intro l l' hb h
  obtain ⟨h1, h2, h3, h4⟩ := hb
  exact refresh_bounded h ⟨Nat.zero_le _, by simp [bufferSize], h3, h4⟩

theorem keeps_killEnd (u : CharTables) : Keeps (lnKillEnd u) := by
  intro l l' hb h
  obtain ⟨h1, h2, h3, h4⟩ := hb
  refine refresh_bounded h ⟨?_, ?_, h3, h4⟩ <;> simp <;> omega

theorem keeps_clear (u : CharTables) : Keeps (lnClear u) := by
  intro l l' hb h
  exact refresh_bounded h hb

theorem keeps_complete (u : CharTables) (complete : List Nat → Reply) :
    Keeps (lnComplete u complete) := by
  intro l l' hb h
  rw [lnComplete] at h
  obtain ⟨h1, h2, h3, h4⟩ := hb
  split at h
  · exact refresh_bounded h ⟨h1, h2, h3, h4⟩
  · rw [res_bind_eq_ok] at h
    obtain ⟨l1, hl, h⟩ := h
    obtain ⟨g1, g2, g3, g4, -⟩ := refresh_same hl
    refine refresh_bounded h ⟨?_, ?_, ?_, ?_⟩ <;> dsimp only
    · rw [g1]; exact h1
    · rw [g1]; exact h2
    · rw [g3, g4]; exact h3
    · rw [g3]; exact h4
  · split at h
    · exact refresh_bounded h ⟨h1, h2, h3, h4⟩
    · rename_i hr
      unfold lnRoom at hr
      unfold bufferSize at h2
      split at h
      · simp at h
      · refine refresh_bounded h ⟨?_, ?_, h3, h4⟩ <;> simp [bufferSize] <;> omega

theorem keeps_escape {u : CharTables} {l : LnState} {inp : List Nat} {p : LnState × List Nat}
    (hb : Bounded l) (h : lnEscape u l inp = .ok p) : Bounded p.1 ∧ p.2.length < inp.length := by
  match inp with
  | [] => simp [lnEscape] at h
  | [x] => simp [lnEscape] at h
  | s0 :: s1 :: r =>
    simp only [lnEscape] at h
    split at h
    · split at h
      · cases r with
        | nil => simp at h
        | cons s2 r =>
          simp only at h
          split at h
          · rw [res_bind_eq_ok] at h
            obtain ⟨l2, h2, h⟩ := h
            simp at h; subst h
            exact ⟨keeps_delete u _ _ hb h2, by simp; omega⟩
          · simp at h; subst h
            exact ⟨hb, by simp; omega⟩
      · rw [res_bind_eq_ok] at h
        obtain ⟨l2, h2, h⟩ := h
        simp at h; subst h
        refine ⟨?_, by simp; omega⟩
        split at h2
        · exact keeps_history u true _ _ hb h2
        split at h2
        · exact keeps_history u false _ _ hb h2
        split at h2
        · exact keeps_right u _ _ hb h2
        split at h2
        · exact keeps_left u _ _ hb h2
        split at h2
        · exact keeps_home u _ _ hb h2
        split at h2
        · exact keeps_end u _ _ hb h2
        · simp at h2; subst h2; exact hb
    split at h
    · rw [res_bind_eq_ok] at h
      obtain ⟨l2, h2, h⟩ := h
      simp at h; subst h
      refine ⟨?_, by simp; omega⟩
      split at h2
      · exact keeps_home u _ _ hb h2
      split at h2
      · exact keeps_end u _ _ hb h2
      · simp at h2; subst h2; exact hb
    · simp at h; subst h
      exact ⟨hb, by simp; omega⟩

theorem readCode_len {inp bytes rest : List Nat} {c : Nat}
    (h : readCode inp = .ok (.got bytes c rest)) : rest.length < inp.length := by
  cases inp with
  | nil => simp [readCode] at h
  | cons b r =>
    have key : ∀ k : Nat, (if r = [] ∧ 0 < k then Res.ok (ReadCode.stop [])
        else if r.length < k then .ub
        else match utf8Code (b :: r.take k) with
          | none => .ub
          | some (n, c) => .ok (.got ((b :: r.take k).take n) c (r.drop k))) =
        .ok (.got bytes c rest) → rest.length < (b :: r).length := by
      intro k h
      split at h
      · simp at h
      split at h
      · simp at h
      split at h
      · simp at h
      · simp only [Res.ok.injEq, ReadCode.got.injEq] at h
        rw [← h.2.2, List.length_drop]; simp; omega
    simp only [readCode] at h
    split at h
    · exact key 0 h
    split at h
    · exact key 1 h
    split at h
    · exact key 2 h
    split at h
    · exact key 3 h
    · simp at h

theorem goOn_more {rest : List Nat} {r : Res LnState} {l : LnState} {inp : List Nat}
    (h : goOn rest r = .ok (.more l inp)) : r = .ok l ∧ inp = rest := by
  cases r with
  | ok x => simp [goOn] at h; simp [h]
  | ub => simp [goOn] at h
  | hang => simp [goOn] at h

/-- one key: the bounds are kept and at least one byte is taken -/
theorem key_bounded {u : CharTables} {complete : List Nat → Reply} {l l' : LnState}
    {inp inp' : List Nat} (hb : Bounded l)
    (h : lnKey u complete l inp = .ok (.more l' inp')) :
    Bounded l' ∧ inp'.length < inp.length := by
  rw [lnKey, res_bind_eq_ok] at h
  obtain ⟨rc, hrc, h⟩ := h
  cases rc with
  | stop rest => simp at h
  | got bytes c rest =>
    have hlt := readCode_len hrc
    have use : ∀ f : LnState → Res LnState, Keeps f → goOn rest (f l) = .ok (.more l' inp') →
        Bounded l' ∧ inp'.length < inp.length := by
      intro f hf h
      obtain ⟨h1, rfl⟩ := goOn_more h
      exact ⟨hf _ _ hb h1, hlt⟩
    dsimp only at h
    by_cases hc : c = 9
    · rw [if_pos hc] at h
      exact use _ (keeps_complete u complete) h
    rw [if_neg hc] at h; clear hc
    by_cases hc : c = 13
    · rw [if_pos hc] at h
      rw [res_bind_eq_ok] at h
      obtain ⟨l2, -, h⟩ := h
      simp at h
    rw [if_neg hc] at h; clear hc
    by_cases hc : c = 3
    · rw [if_pos hc] at h
      simp at h
    rw [if_neg hc] at h; clear hc
    by_cases hc : c = 127 ∨ c = 8
    · rw [if_pos hc] at h
      exact use _ (keeps_backspace u) h
    rw [if_neg hc] at h; clear hc
    by_cases hc : c = 4
    · rw [if_pos hc] at h
      split at h
      · exact use _ (keeps_delete u) h
      · simp at h
    rw [if_neg hc] at h; clear hc
    by_cases hc : c = 20
    · rw [if_pos hc] at h
      exact use _ (keeps_swap u) h
    rw [if_neg hc] at h; clear hc
    by_cases hc : c = 2
    · rw [if_pos hc] at h
      exact use _ (keeps_left u) h
    rw [if_neg hc] at h; clear hc
    by_cases hc : c = 6
    · rw [if_pos hc] at h
      exact use _ (keeps_right u) h
    rw [if_neg hc] at h; clear hc
    by_cases hc : c = 16
    · rw [if_pos hc] at h
      exact use _ (keeps_history u true) h
    rw [if_neg hc] at h; clear hc
    by_cases hc : c = 14
    · rw [if_pos hc] at h
      exact use _ (keeps_history u false) h
    rw [if_neg hc] at h; clear hc
    by_cases hc : c = 27
    · rw [if_pos hc] at h
      rw [res_bind_eq_ok] at h
      obtain ⟨p, hp, h⟩ := h
      simp only [Res.ok.injEq, LnNext.more.injEq] at h
      obtain ⟨rfl, rfl⟩ := h
      have := keeps_escape hb hp
      exact ⟨this.1, by omega⟩
    rw [if_neg hc] at h; clear hc
    by_cases hc : c = 21
    · rw [if_pos hc] at h
      exact use _ (keeps_kill u) h
    rw [if_neg hc] at h; clear hc
    by_cases hc : c = 11
    · rw [if_pos hc] at h
      exact use _ (keeps_killEnd u) h
    rw [if_neg hc] at h; clear hc
    by_cases hc : c = 1
    · rw [if_pos hc] at h
      exact use _ (keeps_home u) h
    rw [if_neg hc] at h; clear hc
    by_cases hc : c = 5
    · rw [if_pos hc] at h
      exact use _ (keeps_end u) h
    rw [if_neg hc] at h; clear hc
    by_cases hc : c = 12
    · rw [if_pos hc] at h
      exact use _ (keeps_clear u) h
    rw [if_neg hc] at h; clear hc
    by_cases hc : c = 23
    · rw [if_pos hc] at h
      exact use _ (keeps_delWord u) h
    rw [if_neg hc] at h; clear hc
    exact use (lnInsert u · bytes) (keeps_insert u bytes) h

theorem histAdd_length {h : List (List Nat)} (hl : h.length ≤ 100) (x : List Nat) :
    (histAdd h x).length ≤ 100 ∧ 0 < (histAdd h x).length := by
  unfold histAdd
  split
  · rename_i h1
    refine ⟨hl, ?_⟩
    cases h with
    | nil => simp at h1
    | cons _ _ => simp
  split
  · simp [lnHistMax] at *; omega
  · rename_i h2; simp [lnHistMax] at *; omega

/-- Whatever bytes the terminal sends, well-formed or not, whatever the history holds and
whatever completion answers: in every state the editor reaches, the cursor is inside the text,
the text with its terminator inside the buffer, the entry being edited inside the history and
the history inside its array. -/
theorem C75_bounds_partial (u : CharTables) (complete : List Nat → Reply) (cols plen : Nat)
    {hist : List (List Nat)} (hlen : hist.length ≤ 100) {inp rest : List Nat} {l : LnState}
    (hr : LnReach u complete (lnStart hist cols plen) inp l rest) :
    InBounds l.pos l.buf.length l.idx l.hist.length := by
  have h0 : Bounded (lnStart hist cols plen) := by
    have := histAdd_length hlen []
    exact ⟨Nat.le_refl _, by simp [lnStart, bufferSize], by simpa [lnStart] using this.2,
      by simpa [lnStart] using this.1⟩
  generalize hl0 : lnStart hist cols plen = l0 at hr h0
  clear hl0
  induction hr with
  | start => exact h0
  | step _ hk ih => exact (key_bounded ih hk).1

/-- Every key takes at least one byte of the input: the editor never goes round without
reading. -/
theorem C75_progress (u : CharTables) (complete : List Nat → Reply) {l l' : LnState}
    {inp inp' : List Nat} (hb : InBounds l.pos l.buf.length l.idx l.hist.length)
    (h : lnKey u complete l inp = .ok (.more l' inp')) : inp'.length < inp.length :=
  (key_bounded hb h).2

theorem loop_bounded {u : CharTables} {complete : List Nat → Reply} :
    ∀ {fuel : Nat} {l : LnState} {inp : List Nat} {r : LnNext}, Bounded l → inp.length < fuel →
      lnLoop u complete fuel l inp = .ok r →
      (∃ l1 inp1, LnReach u complete l inp l1 inp1 ∧ lnKey u complete l1 inp1 = .ok r ∧
        (∀ l2 i2, r ≠ .more l2 i2)) := by
  intro fuel
  induction fuel with
  | zero => intro l inp r hb hf; omega
  | succ fuel ih =>
    intro l inp r hb hf h
    rw [lnLoop, res_bind_eq_ok] at h
    obtain ⟨nx, hk, h⟩ := h
    cases nx with
    | more l2 i2 =>
      have := key_bounded hb hk
      obtain ⟨l1, i1, g1, g2, g3⟩ := ih this.1 (by omega) h
      refine ⟨l1, i1, ?_, g2, g3⟩
      clear g2 g3 h ih
      have first : LnReach u complete l inp l2 i2 := .step .start hk
      induction g1 with
      | start => exact first
      | step _ hk2 ih => exact .step ih hk2
    | done l2 i2 => simp at h; subst h; exact ⟨l, inp, .start, hk, by simp⟩
    | fail l2 i2 => simp at h; subst h; exact ⟨l, inp, .start, hk, by simp⟩

/-- The line handed over has at most 4095 bytes and none of them is zero; the history handed on
fits its array. -/
theorem C75_line_partial (u : CharTables) (complete : List Nat → Reply) (cols plen : Nat)
    {hist : List (List Nat)} (hlen : hist.length ≤ 100) {inp rest line : List Nat}
    {hist' : List (List Nat)}
    (h : lnRead u complete cols plen hist inp = .ok (some line, hist', rest)) :
    line.length < bufferSize ∧ 0 ∉ line ∧ hist'.length ≤ 100 := by
  have h0 : Bounded (lnStart hist cols plen) := by
    have := histAdd_length hlen []
    exact ⟨Nat.le_refl _, by simp [lnStart, bufferSize], by simpa [lnStart] using this.2,
      by simpa [lnStart] using this.1⟩
  rw [lnRead, res_bind_eq_ok] at h
  obtain ⟨r, hr, h⟩ := h
  obtain ⟨l1, i1, g1, g2, g3⟩ := loop_bounded h0 (Nat.lt_succ_self _) hr
  have hb1 : Bounded l1 := C75_bounds_partial u complete cols plen hlen g1
  cases r with
  | more l2 i2 => exact absurd rfl (g3 l2 i2)
  | fail l2 i2 => simp at h
  | done l2 i2 =>
    simp only [Res.ok.injEq, Prod.mk.injEq, Option.some.injEq] at h
    obtain ⟨rfl, rfl, rfl⟩ := h
    have hl2 : l2.buf.length + 1 ≤ bufferSize ∧ l2.hist.length ≤ 100 := by
      rw [lnKey, res_bind_eq_ok] at g2
      obtain ⟨rc, -, g2⟩ := g2
      have no : ∀ {rest : List Nat} {x : Res LnState}, goOn rest x ≠ .ok (.done l2 i2) := by
        intro rest x; cases x <;> simp [goOn]
      cases rc with
      | stop rest => simp at g2; obtain ⟨rfl, rfl⟩ := g2; exact ⟨hb1.2.1, hb1.2.2.2⟩
      | got bytes c rest =>
        dsimp only at g2
        by_cases hc : c = 9
        · rw [if_pos hc] at g2
          exact absurd g2 no
        rw [if_neg hc] at g2; clear hc
        by_cases hc : c = 13
        · rw [if_pos hc] at g2
          rw [res_bind_eq_ok] at g2
          obtain ⟨l3, h3, g2⟩ := g2
          simp only [Res.ok.injEq, LnNext.done.injEq] at g2
          obtain ⟨rfl, rfl⟩ := g2
          obtain ⟨b1, b2, b3, b4⟩ := hb1
          rw [lnEnd] at h3
          split at h3
          · obtain ⟨q1, -, q3, -⟩ := refresh_same h3
            rw [q1, q3]; simp; omega
          · simp at h3; subst h3; simp; omega
        rw [if_neg hc] at g2; clear hc
        by_cases hc : c = 3
        · rw [if_pos hc] at g2
          simp at g2
        rw [if_neg hc] at g2; clear hc
        by_cases hc : c = 127 ∨ c = 8
        · rw [if_pos hc] at g2
          exact absurd g2 no
        rw [if_neg hc] at g2; clear hc
        by_cases hc : c = 4
        · rw [if_pos hc] at g2
          split at g2
          · exact absurd g2 no
          · simp at g2
        rw [if_neg hc] at g2; clear hc
        by_cases hc : c = 20
        · rw [if_pos hc] at g2
          exact absurd g2 no
        rw [if_neg hc] at g2; clear hc
        by_cases hc : c = 2
        · rw [if_pos hc] at g2
          exact absurd g2 no
        rw [if_neg hc] at g2; clear hc
        by_cases hc : c = 6
        · rw [if_pos hc] at g2
          exact absurd g2 no
        rw [if_neg hc] at g2; clear hc
        by_cases hc : c = 16
        · rw [if_pos hc] at g2
          exact absurd g2 no
        rw [if_neg hc] at g2; clear hc
        by_cases hc : c = 14
        · rw [if_pos hc] at g2
          exact absurd g2 no
        rw [if_neg hc] at g2; clear hc
        by_cases hc : c = 27
        · rw [if_pos hc] at g2
          rw [res_bind_eq_ok] at g2
          obtain ⟨p, -, g2⟩ := g2
          simp at g2
        rw [if_neg hc] at g2; clear hc
        by_cases hc : c = 21
        · rw [if_pos hc] at g2
          exact absurd g2 no
        rw [if_neg hc] at g2; clear hc
        by_cases hc : c = 11
        · rw [if_pos hc] at g2
          exact absurd g2 no
        rw [if_neg hc] at g2; clear hc
        by_cases hc : c = 1
        · rw [if_pos hc] at g2
          exact absurd g2 no
        rw [if_neg hc] at g2; clear hc
        by_cases hc : c = 5
        · rw [if_pos hc] at g2
          exact absurd g2 no
        rw [if_neg hc] at g2; clear hc
        by_cases hc : c = 12
        · rw [if_pos hc] at g2
          exact absurd g2 no
        rw [if_neg hc] at g2; clear hc
        by_cases hc : c = 23
        · rw [if_pos hc] at g2
          exact absurd g2 no
        rw [if_neg hc] at g2; clear hc
        exact absurd g2 no
    refine ⟨?_, ?_, (histAdd_length hl2.2 _).1⟩
    · have : (lnStr l2.buf).length ≤ l2.buf.length := (List.takeWhile_sublist _).length_le
      omega
    · intro h0
      have : ∀ l : List Nat, 0 ∉ l.takeWhile (· ≠ 0) := by
        intro l; induction l with
        | nil => simp
        | cons b l ih =>
          rw [List.takeWhile_cons]
          split
          · rename_i hb
            simp at hb
            simp only [List.mem_cons, not_or]
            exact ⟨fun h => hb h.symm, ih⟩
          · simp
      exact this _ h0

/-! ### Violation -/

/-- The first byte of a character of two bytes followed by an ordinary character is taken as one
character; Backspace then takes half of it, and what is left is looked at although it cannot be
decoded: the code of the character is read before it is set. -/
theorem C75_garbled (u : CharTables) (complete : List Nat → Reply) {cols : Nat} (hc : 0 < cols)
    (plen : Nat) (hist : List (List Nat)) (rest : List Nat) (h1 : u.comb 0xE8 = false)
    (h2 : u.comb 0x28 = false) :
    lnRead u complete cols plen hist (0xC3 :: 0x28 :: 127 :: rest) = .ub := by
  have hcol : ∀ p q : Nat, ∃ v, columns u cols p 2 [0xC3, 0x28] 0 0 q = .ok v := by
    intro p q
    have hn : nextGlyph u [0xC3, 0x28] = .ok (2, some (if u.wide 0xE8 then 2 else 1)) := by
      simp [nextGlyph, utf8Code, h1, skipMarks]
    simp only [columns, hn]
    by_cases hp : 0 ≥ p
    · simp [hp]
    · simp [hp]
  have hkey1 : ∃ l, lnKey u complete (lnStart hist cols plen) (0xC3 :: 0x28 :: 127 :: rest) =
      .ok (.more l (127 :: rest)) ∧ l.buf = [0xC3, 0x28] ∧ l.pos = 2 := by
    have hread : readCode (0xC3 :: 0x28 :: 127 :: rest) = .ok (.got [0xC3, 0x28] 0xE8 (127 :: rest)) := by
      simp [readCode, utf8Code]
    obtain ⟨v, hv⟩ := hcol 2 plen
    have hc' : cols ≠ 0 := by omega
    simp [lnKey, hread, lnInsert, lnStart, lnRoom, refresh, hv, hc', goOn]
  obtain ⟨l, hl, hb, hp⟩ := hkey1
  have hkey2 : lnKey u complete l (127 :: rest) = .ub := by
    simp [lnKey, readCode_byte, lnBackspace, hb, hp, prevGlyph, prevBytes, utf8Code, h2, refresh,
      columns, nextGlyph, goOn]
  simp [lnRead, lnLoop, hl, hkey2]

/-! ### Examples -/

/-- two keys: `a` and the arrow to the left -/
example : ∃ l, LnReach ⟨fun _ => false, fun _ => false⟩ (fun _ => .none) (lnStart [] 80 0)
    [97, 27, 91, 68, 255] l [255] :=
  ⟨_, .step (.step .start rfl) rfl⟩

/-- a line is read from bytes in any order -/
example : lnRead ⟨fun _ => false, fun _ => false⟩ (fun _ => .none) 80 0 [[120]]
    [97, 98, 2, 20, 16, 14, 0, 99, 255] = .ok (some [98, 97], [[120], [98, 97]], []) := by
  decide +kernel

end PBat
