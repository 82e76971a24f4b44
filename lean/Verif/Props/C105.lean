import Verif.Lemmas.Screen
import Verif.Props.C75
/-
C105: while a line is edited the terminal shows it, with the cursor in its place.
-/
namespace PBat
open Spec Spec.Scr Scr

/-- The states reached by the second part of the keys are reached by both. -/
theorem lnReach_cons {u : CharTables} {complete : List Nat → Reply} {l l1 l2 : LnState} {inp inp1 inp2 : List Nat}
    (h : lnKey u complete l inp = .ok (.more l1 inp1)) (hr : LnReach u complete l1 inp1 l2 inp2) : LnReach u complete l inp l2 inp2 := by
  induction hr with
  | start => exact .step .start h
  | step _ hk ih => exact .step ih hk

/-- The keys of the theorem below: those of C74, while nothing but characters that are shown is in the line. -/
def Spec.Scr.AbleShown (mark : Nat → Bool) (e : Ed) (k : Key) : Prop := Able mark e k ∧ ∀ c ∈ e.line.text, Printable c

theorem redraw_bytes {k : Key} {bs : List Nat} (h : KeyBytes k bs) : k = .redraw ↔ bs = [12] := by
  constructor
  · rintro rfl; cases h; rfl
  · rintro rfl
    generalize hb : [12] = bs at h
    cases h with
    | redraw => rfl
    | @char c hs hk =>
      exfalso
      unfold uni at hb
      split at hb
      · simp at hb; subst hb; simp [controlKeys] at hk
      · split at hb
        · simp at hb
        · split at hb <;> simp at hb
    | _ => simp at hb

theorem run_shows {u : CharTables} (complete : List Nat → Reply) {e e' : Ed} {keys : List (List Nat)} (hr : EdRun u.comb (AbleShown u.comb) e keys e')
    (hpr : ∀ c ∈ e'.line.text, Printable c) {t0 t : Term} {l : LnState} {R : Nat} {A : Nat → Nat → Cell} (h : Agree u t0 t l e R A) (rest : List Nat) :
    ∃ l' t', LnReach u complete l (keys.flatten ++ rest) l' rest ∧ l'.plen = l.plen ∧
      Agree u t0 t' l' e' (if [12] ∈ keys then 0 else R) (if [12] ∈ keys then fun _ _ => none else A) := by
  induction hr generalizing t l R A with
  | nil => exact ⟨l, t, .start, rfl, by simpa using h⟩
  | @cons e e1 e2 k bs keys ht ha hs hrest ih =>
    obtain ⟨⟨l1, h1, h2⟩, h3⟩ := keyFun_step h.rel ha.1 hs (typed_char ht)
    have hp1 : ∀ c ∈ e1.line.text, Printable c := by
      cases hrest with
      | nil => exact hpr
      | cons _ ha _ _ => exact ha.2
    have hkey : lnKey u complete l ((bs :: keys).flatten ++ rest) = .ok (.more l1 (keys.flatten ++ rest)) := by
      rw [List.flatten_cons, List.append_assoc, lnKey_typed u complete ht l _ h3, h1]
      rfl
    have hplen : l1.plen = l.plen := by
      rcases keyFun_shows h1 with ⟨-, hs, -⟩ | ⟨-, m, hr, hs, -⟩ | ⟨-, m, hr, hs, -⟩
      · exact hs.2.1
      · exact (refresh_same hr).2.2.2.2.2.trans hs.2.1
      · exact (refresh_same hr).2.2.2.2.2.trans hs.2.1
    rcases agree_key h h1 h2 hp1 with ⟨hn, t1, ag⟩ | ⟨hn, t1, ag⟩
    · obtain ⟨l', t', g1, g2, g3⟩ := ih hpr ag
      refine ⟨l', t', lnReach_cons hkey g1, g2.trans hplen, ?_⟩
      have hb : ([12] : List Nat) ≠ bs := fun hb => hn ((redraw_bytes ht).2 hb.symm)
      simpa only [List.mem_cons, hb, false_or] using g3
    · obtain ⟨l', t', g1, g2, g3⟩ := ih hpr ag
      refine ⟨l', t', lnReach_cons hkey g1, g2.trans hplen, ?_⟩
      have hb : bs = [12] := (redraw_bytes ht).1 hn
      have hm : ([12] : List Nat) ∈ bs :: keys := by rw [hb]; exact List.mem_cons_self
      rw [if_pos hm, if_pos hm]
      rwa [ite_self, ite_self] at g3

theorem start_agree (u : CharTables) {t0 : Term} (hc : 3 ≤ t0.cols) (hp : t0.col < t0.cols)
    (hb : ∀ x y, t0.row < x ∨ x = t0.row ∧ t0.col ≤ y → t0.cell x y = none) {hist : List (List Nat)} (hh : ∀ t ∈ hist, LineOk u.comb t) (hlen : hist.length ≤ 100) :
    Agree u t0 t0 (lnStart (hist.map uniText) t0.cols t0.col) (Ed.start hist) t0.row t0.cell := by
  refine ⟨start_rel u (by omega) _ hh hlen, hc, hp, ⟨rfl, ?_, ?_, fun _ _ _ => rfl, ?_⟩, .nil, ?_⟩
  · show t0.row = t0.row + (t0.col + 0) / t0.cols
    rw [Nat.add_zero, Nat.div_eq_of_lt hp, Nat.add_zero]
  · show (t0.col + 0) / t0.cols + 1 ≤ max 0 1
    rw [show t0.col + 0 = t0.col from rfl, Nat.div_eq_of_lt hp]
    exact Nat.le_refl _
  · intro x y hx
    have : t0.row + max 0 1 ≤ x := hx
    exact hb x y (by omega)
  · rintro before behind ⟨c1, c2, c3⟩
    have e1 : before = [] := cut_unique (mark := u.comb) (fun c hc => c3 c (by simp [hc])) (by simp) c1.symm
    have e2 : behind = [] := cut_unique (mark := u.comb) (fun c hc => c3 c (by simp [hc])) (by simp) c2.symm
    subst e1 e2
    refine ⟨?_, fun x y _ => ?_⟩
    · show (t0.row, t0.col) = spot t0.cols (t0.row, t0.col) 1
      rw [spot, if_neg (by simp only; omega)]
    · show t0.cell x y = if x < t0.row ∨ x = t0.row ∧ y < t0.col then t0.cell x y else none
      split
      · rfl
      · exact hb x y (by omega)

/-- Whatever keys are typed, and however many rows the line takes, the terminal shows the line behind what was there when the editing began, and nothing
of earlier states of the line; the cursor is on the character behind it, or where the next one will be.  This holds for every table of marks and of
characters of two columns.  Ctrl-L clears the screen first, and the line then begins in the top row, in its old column (which is a violation, see
`C105_prompt`).  Missing: control characters in the line (`C105_bell`), terminals of less than three columns (`C105_narrow`), the list of files that Tab shows,
scrolling. -/
theorem C105_screen_partial (u : CharTables) (complete : List Nat → Reply) {t0 : Term} (hc : 3 ≤ t0.cols) (hp : t0.col < t0.cols)
    (hb : ∀ x y, t0.row < x ∨ x = t0.row ∧ t0.col ≤ y → t0.cell x y = none) {hist : List (List Nat)} (hh : ∀ t ∈ hist, LineOk u.comb t) (hlen : hist.length ≤ 100)
    {keys : List (List Nat)} {e : Ed} (hr : EdRun u.comb (AbleShown u.comb) (Ed.start hist) keys e) (hpr : ∀ c ∈ e.line.text, Printable c) (rest : List Nat) :
    ∃ l t before behind, LnReach u complete (lnStart (hist.map uniText) t0.cols t0.col) (keys.flatten ++ rest) l rest ∧
      Draws u t0 l.out t ∧ (∀ t', Draws u t0 l.out t' → t' = t) ∧ Cut u.comb e.line before behind ∧
      Shows u.wide t (if [12] ∈ keys then fun _ _ => none else t0.cell) (if [12] ∈ keys then 0 else t0.row, t0.col) before behind := by
  obtain ⟨l, t, g1, g2, g3⟩ := run_shows complete hr hpr (start_agree u hc hp hb hh hlen) rest
  obtain ⟨before, behind, hcut⟩ := exists_cut g3.rel.line.2.1 g3.rel.after
  refine ⟨l, t, before, behind, g1, g3.drawn, fun t' ht' => draws_unique ht' g3.drawn, hcut, ?_⟩
  have := g3.shows before behind hcut
  rwa [g2] at this

theorem refresh_hist {u : CharTables} {l l' : LnState} (h : refresh u l = .ok l') (hist : List (List Nat)) :
    refresh u { l with hist := hist } = .ok { l' with hist := hist } := by
  unfold refresh at h
  rw [res_bind_eq_ok] at h
  obtain ⟨v, hv, h⟩ := h
  dsimp only at h
  by_cases hc : l.cols = 0
  · rw [if_pos hc] at h; simp at h
  · rw [if_neg hc, res_bind_eq_ok] at h
    obtain ⟨v2, hv2, h⟩ := h
    unfold refresh
    dsimp only
    rw [hv, Res.ok_bind, if_neg hc, hv2, Res.ok_bind]
    simp only [Res.ok.injEq] at h
    subst h
    rfl

theorem lnEnd_hist {u : CharTables} {l l' : LnState} (h : lnEnd u l = .ok l') (hist : List (List Nat)) :
    lnEnd u { l with hist := hist } = .ok { l' with hist := hist } := by
  unfold lnEnd at h ⊢
  dsimp only
  split at h
  · rename_i hx
    rw [if_pos hx]
    exact refresh_hist h hist
  · rename_i hx
    rw [if_neg hx]
    cases h
    rfl

/-- Enter leaves the whole line on the screen, with the cursor behind its last character: what is printed next begins there. -/
theorem C105_enter_partial (u : CharTables) (complete : List Nat → Reply) {t0 : Term} (hc : 3 ≤ t0.cols) (hp : t0.col < t0.cols)
    (hb : ∀ x y, t0.row < x ∨ x = t0.row ∧ t0.col ≤ y → t0.cell x y = none) {hist : List (List Nat)} (hh : ∀ t ∈ hist, LineOk u.comb t) (hlen : hist.length ≤ 100)
    {keys : List (List Nat)} {e : Ed} (hr : EdRun u.comb (AbleShown u.comb) (Ed.start hist) keys e) (hpr : ∀ c ∈ e.line.text, Printable c) (rest : List Nat) :
    ∃ l l' t chs, LnReach u complete (lnStart (hist.map uniText) t0.cols t0.col) (keys.flatten ++ 13 :: rest) l (13 :: rest) ∧
      lnKey u complete l (13 :: rest) = .ok (.done l' rest) ∧ Draws u t0 l'.out t ∧ (∀ t', Draws u t0 l'.out t' → t' = t) ∧
      e.line.text = chs.flatten ∧ (∀ ch ∈ chs, OneChar u.comb ch) ∧
      Shows u.wide t (if [12] ∈ keys then fun _ _ => none else t0.cell) (if [12] ∈ keys then 0 else t0.row, t0.col) chs [] := by
  obtain ⟨l, t, g1, g2, g3⟩ := run_shows complete hr hpr (start_agree u hc hp hb hh hlen) (13 :: rest)
  obtain ⟨⟨a, b⟩, s, o, n⟩ := e
  obtain ⟨l2, k1, k2⟩ := lnEnd_rel g3.rel
  have k1' : keyFun u .end l = .ok l2 := k1
  rcases agree_key g3 k1' k2 (by simpa [EdLine.text] using hpr) with ⟨-, t', ag⟩ | ⟨hn, -⟩
  · obtain ⟨before, behind, c1, c2, c3⟩ := exists_cut ag.rel.line.2.1 ag.rel.after
    have e2 : behind = [] := cut_unique (mark := u.comb) (fun c hc => c3 c (by simp [hc])) (by simp) (by simpa using c2.symm)
    subst e2
    have hplen : l2.plen = l.plen := by
      rcases keyFun_shows k1' with ⟨-, hs, -⟩ | ⟨-, m, hr, hs, -⟩ | ⟨-, m, hr, hs, -⟩
      · exact hs.2.1
      · exact (refresh_same hr).2.2.2.2.2.trans hs.2.1
      · exact (refresh_same hr).2.2.2.2.2.trans hs.2.1
    refine ⟨l, { l2 with hist := l.hist.dropLast }, t', before, g1, ?_, ag.drawn, fun _ h => draws_unique h ag.drawn, c1, by simpa using c3, ?_⟩
    · simp [lnKey, readCode_byte, Res.ok_bind, lnEnd_hist k1 l.hist.dropLast]
    · have := ag.shows before [] ⟨c1, c2, c3⟩
      rwa [hplen, g2] at this
  · simp at hn

/-! ### Violations -/

/-- After Ctrl-L the prompt is gone: nothing is shown on the whole screen, although the cursor is in the column behind the prompt. -/
theorem C105_prompt (u : CharTables) (complete : List Nat → Reply) {t0 : Term} (hc : 3 ≤ t0.cols) (hp : t0.col < t0.cols)
    (hb : ∀ x y, t0.row < x ∨ x = t0.row ∧ t0.col ≤ y → t0.cell x y = none) {hist : List (List Nat)} (hh : ∀ t ∈ hist, LineOk u.comb t) (hlen : hist.length ≤ 100)
    (rest : List Nat) :
    ∃ l t, LnReach u complete (lnStart (hist.map uniText) t0.cols t0.col) (12 :: rest) l rest ∧ Draws u t0 l.out t ∧
      (∀ x y, y < t.cols → t.cell x y = none) ∧ t.row = 0 ∧ t.col = t0.col := by
  have hr : EdRun u.comb (AbleShown u.comb) (Ed.start hist) [[12]] (Ed.start hist) :=
    .cons .redraw ⟨trivial, by simp [Ed.start, EdLine.text]⟩ (.edit .redraw) .nil
  have hpr : ∀ c ∈ (Ed.start hist).line.text, Printable c := by simp [Ed.start, EdLine.text]
  obtain ⟨l, t, g1, g2, g3⟩ := run_shows complete hr hpr (start_agree u hc hp hb hh hlen) rest
  have hs := g3.shows [] [] ⟨rfl, rfl, by simp⟩
  have hcols : t0.col < t.cols := by
    have := g3.plen
    rw [g2] at this
    have h2 := g3.inv.cols
    rw [h2]; exact this
  refine ⟨l, t, g1, g3.drawn, fun x y hy => ?_, ?_⟩
  · rw [hs.cells x y hy]
    simp [seen]
  · have hcur := hs.cursor
    rw [g2] at hcur
    simp only [List.mem_singleton, if_true] at hcur
    have : Spec.Scr.cursor u.wide t.cols (0, t0.col) [] [] = (0, t0.col) := by
      show spot t.cols (0, t0.col) 1 = _
      rw [spot, if_neg (by simp only; omega)]
    rw [show (lnStart (hist.map uniText) t0.cols t0.col).plen = t0.col from rfl, this] at hcur
    exact ⟨congrArg Prod.fst hcur, congrArg Prod.snd hcur⟩

theorem oneChar_plain (c : Nat) : OneChar (fun _ => false) [c] := ⟨c, [], rfl, rfl, by simp⟩

/-- the terminal at the prompt `>` -/
def promptTerm (cols : Nat) : Term := ⟨cols, fun x y => if x = 0 ∧ y = 0 then some ([62], 0) else none, 0, 1⟩

/-- A bell in the line (the key Ctrl-G) is given a column by the editor: the letter typed after it is shown in column 1, and the cursor is not
behind it in column 2 but in column 3. -/
theorem C105_bell : ∃ l t, LnReach ⟨fun _ => false, fun _ => false⟩ (fun _ => .none) (lnStart [] 80 1) [7, 97] l [] ∧
    Draws ⟨fun _ => false, fun _ => false⟩ (promptTerm 80) l.out t ∧ t.cell 0 1 = some ([97], 0) ∧ t.cell 0 2 = none ∧ (t.row, t.col) = (0, 3) := by
  refine ⟨⟨[7, 97], 2, [[]], 0, 80, 1, 2, 1,
    [.cr, .right 1, .clear, .text (uniText [[7]].flatten), .cr, .right 2, .cr, .right 1, .clear, .text (uniText [[7], [97]].flatten), .cr, .right 3]⟩, _,
    .step (.step .start (by rfl)) (by rfl), .cons .cr (.cons .right (.cons .clear (.cons (.text _ (by simp [oneChar_plain]) (by simp [Scalar])) (.cons .cr (.cons .right (.cons .cr (.cons .right (.cons .clear
      (.cons (.text _ (by simp [oneChar_plain]) (by simp [Scalar])) (.cons .cr (.cons .right .nil))))))))))), ?_, ?_, ?_⟩
  · rfl
  · rfl
  · rfl

/-- On a terminal of two columns a character of two columns that does not fit beside another makes the count wrong: the cursor goes to row 3, although
the letter typed last is alone in row 2. -/
theorem C105_narrow : ∃ l t, LnReach ⟨fun _ => false, (· == 0x4E00)⟩ (fun _ => .none) (lnStart [] 2 0) [97, 0xE4, 0xB8, 0x80, 98] l [] ∧
    Draws ⟨fun _ => false, (· == 0x4E00)⟩ ⟨2, fun _ _ => none, 0, 0⟩ l.out t ∧ t.cell 2 0 = some ([98], 0) ∧ (t.row, t.col) = (3, 0) ∧
    Spec.Scr.cursor (· == 0x4E00) 2 (0, 0) [[97], [0x4E00], [98]] [] = (2, 1) := by
  refine ⟨⟨uniText [97, 0x4E00, 98], 5, [[]], 0, 2, 0, 6, 4,
    [.cr, .clear, .text (uniText [[97]].flatten), .cr, .right 1, .cr, .clear, .text (uniText [[97], [0x4E00]].flatten), .nl, .cr, .cr, .cr, .clear, .up 1, .cr,
      .clear, .up 1, .cr, .clear, .text (uniText [[97], [0x4E00], [98]].flatten), .nl, .cr, .cr]⟩, _,
    .step (.step (.step .start (by rfl)) (by rfl)) (by rfl), .cons .cr (.cons .clear (.cons (.text _ (by simp [oneChar_plain]) (by simp [Scalar])) (.cons .cr (.cons .right (.cons .cr (.cons .clear
      (.cons (.text _ (by simp [oneChar_plain]) (by simp [Scalar])) (.cons .nl (.cons .cr (.cons .cr (.cons .cr (.cons .clear (.cons .up (.cons .cr (.cons .clear (.cons .up
      (.cons .cr (.cons .clear (.cons (.text _ (by simp [oneChar_plain]) (by simp [Scalar])) (.cons .nl (.cons .cr (.cons .cr .nil)))))))))))))))))))))), ?_, ?_, ?_⟩
  · rfl
  · rfl
  · rfl

/-! ### Examples -/

/-- The hypotheses of the theorems: a prompt, and a line in which the cursor goes back over a character of two columns. -/
example : (∀ x y, (promptTerm 80).row < x ∨ x = (promptTerm 80).row ∧ (promptTerm 80).col ≤ y → (promptTerm 80).cell x y = none) ∧
    EdRun (fun _ => false) (AbleShown (fun _ => false)) (Ed.start [[100]]) [[97], uni 0x4E00, [2]] ⟨⟨[97], [0x4E00]⟩, [], [[100]], []⟩ := by
  refine ⟨fun x y h => ?_, ?_⟩
  · show (if x = 0 ∧ y = 0 then _ else none) = none
    rw [if_neg (by simp only [promptTerm] at h; omega)]
  · exact .cons (k := .char 97) (.char (by simp [Scalar]) (by decide)) ⟨by simp [Able], by simp [Ed.start, EdLine.text]⟩ (.edit (.type (by decide)))
      (.cons (k := .char 0x4E00) (.char (by simp [Scalar]) (by decide)) ⟨by simp [Able], by simp [EdLine.text, Printable]⟩ (.edit (.type (by decide)))
        (.cons .left1 ⟨trivial, by simp [EdLine.text, Printable]⟩ (.edit (.left (a := [97]) (ch := [0x4E00]) ⟨0x4E00, [], rfl, rfl, by simp⟩)) .nil))

/-- A line of three rows on a terminal of three columns, behind a prompt of one: `a` and a character of two columns that does not fit, and `b`, `c`. -/
example : after (· == 0x4E00) 3 (0, 1) [[97], [0x4E00], [98], [99]] = (2, 1) ∧
    Spec.Scr.cursor (· == 0x4E00) 3 (0, 1) [[97]] [[0x4E00], [98], [99]] = (1, 0) ∧
    Spec.Scr.cursor (· == 0x4E00) 3 (0, 1) [[97], [0x4E00], [98]] [] = (2, 0) ∧
    seen (· == 0x4E00) 3 (0, 1) [[97], [0x4E00], [98], [99]] 1 1 = some ([0x4E00], 1) ∧
    seen (· == 0x4E00) 3 (0, 1) [[97], [0x4E00], [98], [99]] 0 2 = none := by decide

end PBat
