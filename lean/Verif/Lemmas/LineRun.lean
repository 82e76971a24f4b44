import Verif.Lemmas.LineKeys
import Verif.Lemmas.Expand

namespace PBat
open Spec

/-- what the program does for a key -/
def keyFun (u : CharTables) : Key → LnState → Res LnState
  | .char c, l => lnInsert u l (uni c)
  | .left, l => lnLeft u l
  | .right, l => lnRight u l
  | .home, l => lnHome u l
  | .end, l => lnEnd u l
  | .backspace, l => lnBackspace u l
  | .delete, l => lnDelete u l
  | .ctrlD, l => lnDelete u l
  | .killLine, l => lnKill u l
  | .killEnd, l => lnKillEnd u l
  | .delWord, l => lnDelWord u l
  | .swap, l => lnSwap u l
  | .redraw, l => lnClear u l
  | .up, l => lnHistory u l true
  | .down, l => lnHistory u l false
  | .ignored, l => .ok l

theorem goOn_bind (r : Res LnState) (rest : List Nat) :
    ((do let l ← r; Res.ok (l, rest)) >>= fun p : LnState × List Nat => Res.ok (LnNext.more p.1 p.2)) =
      goOn rest r := by
  cases r <;> rfl

theorem lnKey_typed (u : CharTables) (complete : List Nat → Reply) {k : Key} {bs : List Nat}
    (ht : KeyBytes k bs) (l : LnState) (rest : List Nat)
    (hd : k = .ctrlD → 0 < l.buf.length) :
    lnKey u complete l (bs ++ rest) = goOn rest (keyFun u k l) := by
  cases ht with
  | @char c hc hk =>
    simp only [controlKeys, List.mem_cons, List.not_mem_nil, or_false, not_or] at hk
    simp only [lnKey, readCode_uni c hc.2, Res.ok_bind, hk, if_false, or_self, keyFun]
  | ctrlD =>
    have := hd rfl
    simp [lnKey, readCode_byte, Res.ok_bind, keyFun, this]
  | left1 => simp [lnKey, readCode_byte, Res.ok_bind, keyFun]
  | right1 => simp [lnKey, readCode_byte, Res.ok_bind, keyFun]
  | home1 => simp [lnKey, readCode_byte, Res.ok_bind, keyFun]
  | end1 => simp [lnKey, readCode_byte, Res.ok_bind, keyFun]
  | backspace1 => simp [lnKey, readCode_byte, Res.ok_bind, keyFun]
  | backspace2 => simp [lnKey, readCode_byte, Res.ok_bind, keyFun]
  | killLine => simp [lnKey, readCode_byte, Res.ok_bind, keyFun]
  | killEnd => simp [lnKey, readCode_byte, Res.ok_bind, keyFun]
  | delWord => simp [lnKey, readCode_byte, Res.ok_bind, keyFun]
  | swap => simp [lnKey, readCode_byte, Res.ok_bind, keyFun]
  | redraw => simp [lnKey, readCode_byte, Res.ok_bind, keyFun]
  | up1 => simp [lnKey, readCode_byte, Res.ok_bind, keyFun]
  | down1 => simp [lnKey, readCode_byte, Res.ok_bind, keyFun]
  | left2 =>
    simp [lnKey, readCode_byte, Res.ok_bind, keyFun, lnEscape]; exact goOn_bind _ _
  | right2 =>
    simp [lnKey, readCode_byte, Res.ok_bind, keyFun, lnEscape]; exact goOn_bind _ _
  | home2 =>
    simp [lnKey, readCode_byte, Res.ok_bind, keyFun, lnEscape]; exact goOn_bind _ _
  | home3 =>
    simp [lnKey, readCode_byte, Res.ok_bind, keyFun, lnEscape]; exact goOn_bind _ _
  | end2 =>
    simp [lnKey, readCode_byte, Res.ok_bind, keyFun, lnEscape]; exact goOn_bind _ _
  | end3 =>
    simp [lnKey, readCode_byte, Res.ok_bind, keyFun, lnEscape]; exact goOn_bind _ _
  | delete =>
    simp [lnKey, readCode_byte, Res.ok_bind, keyFun, lnEscape]; exact goOn_bind _ _
  | up2 =>
    simp [lnKey, readCode_byte, Res.ok_bind, keyFun, lnEscape]; exact goOn_bind _ _
  | down2 =>
    simp [lnKey, readCode_byte, Res.ok_bind, keyFun, lnEscape]; exact goOn_bind _ _
  | @other1 a b h1 h2 =>
    simp [lnKey, readCode_byte, Res.ok_bind, keyFun, lnEscape, h1, h2, goOn]
  | @other2 b h1 h2 =>
    have : ¬ (48 ≤ b ∧ b ≤ 57) := by omega
    simp only [List.mem_cons, List.not_mem_nil, or_false, not_or] at h1
    simp [lnKey, readCode_byte, Res.ok_bind, keyFun, lnEscape, this, h1, goOn]
  | @other3 b h1 =>
    simp only [List.mem_cons, List.not_mem_nil, or_false, not_or] at h1
    simp [lnKey, readCode_byte, Res.ok_bind, keyFun, lnEscape, h1, goOn]
  | @other4 a b h1 h2 h3 =>
    have h4 : ¬ (b = 126 ∧ a = 51) := fun h => h3 ⟨h.2, h.1⟩
    simp only [lnKey, List.cons_append, List.nil_append, readCode_byte 27 (by omega), Res.ok_bind,
      keyFun, lnEscape, h1, h2, h4, goOn]
    simp

theorem typed_ne {k : Key} {bs : List Nat} (h : KeyBytes k bs) : bs ≠ [] := by
  cases h <;> simp [uni_ne]

theorem keyFun_edit {u : CharTables} {l : LnState} {L L' : EdLine} {s : List Nat}
    {o n : List (List Nat)} {k : Key} (h : EdRel u l ⟨L, s, o, n⟩)
    (ha : Able u.comb ⟨L, s, o, n⟩ k) (he : Edit u.comb L k L')
    (hk : ∀ c, k = .char c → Scalar c) :
    (∃ l', keyFun u k l = .ok l' ∧ EdRel u l' ⟨L', s, o, n⟩) ∧
      (k = .ctrlD → 0 < l.buf.length) := by
  cases he with
  | @type a b c hr => exact ⟨lnInsert_rel h (hk c rfl) ha hr, by simp⟩
  | full hr => exact ⟨⟨l, lnInsert_full h hr, h⟩, by simp⟩
  | left hc => exact ⟨lnLeft_rel hc h, by simp⟩
  | left0 => exact ⟨⟨l, (lnLeft_begin h).1, h⟩, by simp⟩
  | right hc hb => exact ⟨lnRight_rel hc hb h, by simp⟩
  | right0 => exact ⟨⟨l, (lnRight_end h).1, h⟩, by simp⟩
  | home => exact ⟨lnHome_rel h, by simp⟩
  | «end» => exact ⟨lnEnd_rel h, by simp⟩
  | backspace hc => exact ⟨lnBackspace_rel hc h, by simp⟩
  | backspace0 => exact ⟨⟨l, (lnLeft_begin h).2, h⟩, by simp⟩
  | delete hc hb => exact ⟨lnDelete_rel hc hb h, by simp⟩
  | delete0 => exact ⟨⟨l, (lnRight_end h).2, h⟩, by simp⟩
  | ctrlD hc hb =>
    refine ⟨lnDelete_rel hc hb h, fun _ => ?_⟩
    have := (nextChar_pos hc hb h).1; omega
  | @ctrlD0 a hne =>
    refine ⟨⟨l, (lnRight_end h).2, h⟩, fun _ => ?_⟩
    rw [h.buf]
    exact List.length_pos_iff.2 (by rw [ne_eq, uniText_eq_nil]; simpa using hne)
  | killLine => exact ⟨lnKill_rel h, by simp⟩
  | killEnd => exact ⟨lnKillEnd_rel h, by simp⟩
  | delWord h1 h2 h3 h4 => exact ⟨lnDelWord_rel h h1 h2 h3 h4, by simp⟩
  | @swap a x y b hx hy hb hbn =>
    refine ⟨?_, by simp⟩
    obtain ⟨x0, xs, rfl, hx0, hxs⟩ := hx
    obtain ⟨y0, ys, rfl, hy0, hys⟩ := hy
    rcases List.eq_nil_or_concat xs with rfl | ⟨xs', m, rfl⟩
    · have hab := ha a x0 y0 (ys ++ b) rfl rfl
      have hys0 : ys = [] := by
        cases ys with
        | nil => rfl
        | cons m ys =>
          have h1 := hab.2.2.2 m (by simp)
          rw [hys m (by simp)] at h1; simp at h1
      subst hys0
      have := lnSwap_rel hab.1 hab.2.1 hx0 hb h
      rw [if_neg hbn] at this
      simpa [keyFun] using this
    · rw [List.concat_eq_append] at *
      have hab := ha (a ++ x0 :: xs') m y0 (ys ++ b) (by simp) rfl
      rw [hxs m (by simp)] at hab
      simp at hab
  | @swapLast a x y hx hy =>
    refine ⟨?_, by simp⟩
    obtain ⟨x0, xs, rfl, hx0, hxs⟩ := hx
    obtain ⟨y0, ys, rfl, hy0, hys⟩ := hy
    rcases List.eq_nil_or_concat xs with rfl | ⟨xs', m, rfl⟩
    · have hab := ha a x0 y0 ys rfl rfl
      have hys0 : ys = [] := by
        cases ys with
        | nil => rfl
        | cons m ys =>
          have h1 := hab.2.2.2 m (by simp)
          rw [hys m (by simp)] at h1; simp at h1
      subst hys0
      have := lnSwap_rel (b := []) hab.1 hab.2.1 hx0 (by intro c hc; simp at hc) h
      simpa [keyFun] using this
    · rw [List.concat_eq_append] at *
      have hab := ha (a ++ x0 :: xs') m y0 ys (by simp) rfl
      rw [hxs m (by simp)] at hab
      simp at hab
  | swap0 => exact ⟨⟨l, lnSwap_edge h (.inl rfl), h⟩, by simp⟩
  | swap1 => exact ⟨⟨l, lnSwap_edge h (.inr rfl), h⟩, by simp⟩
  | redraw => exact ⟨lnClear_rel h, by simp⟩
  | ignored => exact ⟨⟨l, rfl, h⟩, by simp⟩

theorem keyFun_step {u : CharTables} {l : LnState} {e e' : Ed} {k : Key} (h : EdRel u l e)
    (ha : Able u.comb e k) (he : EdStep u.comb e k e') (hk : ∀ c, k = .char c → Scalar c) :
    (∃ l', keyFun u k l = .ok l' ∧ EdRel u l' e') ∧ (k = .ctrlD → 0 < l.buf.length) := by
  cases he with
  | edit he => exact keyFun_edit h ha he hk
  | @up L s t o n => exact ⟨lnHistory_up h (ha t (by simp)), by simp⟩
  | up0 => exact ⟨lnHistory_top h, by simp⟩
  | up1 => exact ⟨⟨l, lnHistory_one h true, h⟩, by simp⟩
  | @down L s t o n => exact ⟨lnHistory_down h (ha t (by simp)), by simp⟩
  | down0 => exact ⟨lnHistory_bottom h, by simp⟩
  | down1 => exact ⟨⟨l, lnHistory_one h false, h⟩, by simp⟩

theorem typed_char {k : Key} {bs : List Nat} (h : KeyBytes k bs) :
    ∀ c, k = .char c → Scalar c := by
  intro c hc
  cases h <;> simp at hc
  subst hc; assumption

theorem lnLoop_run {u : CharTables} (complete : List Nat → Reply) {e e' : Ed}
    {keys : List (List Nat)} (hr : EdRun u.comb (Able u.comb) e keys e') {l : LnState}
    (h : EdRel u l e) (rest : List Nat) (fuel : Nat)
    (hf : (keys.flatten ++ rest).length < fuel) :
    ∃ l' fuel', EdRel u l' e' ∧ rest.length < fuel' ∧
      lnLoop u complete fuel l (keys.flatten ++ rest) = lnLoop u complete fuel' l' rest := by
  induction hr generalizing l fuel with
  | nil => exact ⟨l, fuel, h, by simpa using hf, by simp⟩
  | @cons e e1 e2 k bs keys ht ha hs _ ih =>
    obtain ⟨⟨l1, h1, h2⟩, h3⟩ := keyFun_step h ha hs (typed_char ht)
    cases fuel with
    | zero => omega
    | succ fuel =>
      have hlen : 0 < bs.length := List.length_pos_iff.2 (typed_ne ht)
      obtain ⟨l', fuel', h4, h5, h6⟩ := ih h2 fuel (by
        simp only [List.flatten_cons, List.append_assoc, List.length_append] at hf ⊢; omega)
      refine ⟨l', fuel', h4, h5, ?_⟩
      rw [← h6, lnLoop, List.flatten_cons, List.append_assoc,
        lnKey_typed u complete ht l _ h3, h1]
      rfl

theorem uniText_inj {a b : List Nat} (ha : ∀ c ∈ a, Scalar c) (hb : ∀ c ∈ b, Scalar c)
    (h : uniText a = uniText b) : a = b := by
  induction a generalizing b with
  | nil =>
    have : uniText b = [] := h.symm
    exact (uniText_eq_nil.1 this).symm
  | cons c a ih =>
    cases b with
    | nil => exact absurd (uniText_eq_nil.1 h) (by simp)
    | cons d b =>
      rw [uniText_cons, uniText_cons] at h
      have h1 := utf8Code_uni c (ha c (by simp)).2 (uniText a)
      rw [h, utf8Code_uni d (hb d (by simp)).2] at h1
      simp only [Option.some.injEq, Prod.mk.injEq] at h1
      obtain ⟨-, rfl⟩ := h1
      rw [ih (fun x hx => ha x (by simp [hx])) (fun x hx => hb x (by simp [hx]))
        (List.append_cancel_left h)]

/-- adding to the history, on encoded lines -/
theorem histAdd_text {h : List (List Nat)} {t : List Nat} (hh : ∀ x ∈ h, ∀ c ∈ x, Scalar c)
    (ht : ∀ c ∈ t, Scalar c) (hlen : h.length ≤ 99) :
    histAdd (h.map uniText) (uniText t) = (remember h t).map uniText := by
  have hiff : (h.map uniText).getLast? = some (uniText t) ↔ h.getLast? = some t := by
    rw [List.getLast?_map]
    cases hl : h.getLast? with
    | none => simp
    | some x =>
      have hx := hh x (List.mem_of_getLast? hl)
      simp only [Option.map_some, Option.some.injEq]
      exact ⟨fun e => uniText_inj hx ht e, fun e => by rw [e]⟩
  unfold histAdd remember
  by_cases hl : h.getLast? = some t
  · rw [if_pos (hiff.2 hl), if_pos hl]
  · rw [if_neg fun e => hl (hiff.1 e), if_neg hl, if_neg (by
      rw [List.length_map]; unfold lnHistMax; omega)]
    simp

theorem start_rel (u : CharTables) {cols : Nat} (hc : 0 < cols) (plen : Nat)
    {hist : List (List Nat)} (hh : ∀ t ∈ hist, LineOk u.comb t) (hlen : hist.length ≤ 100) :
    EdRel u (lnStart (hist.map uniText) cols plen) (Ed.start hist) := by
  have hnil : LineOk u.comb [] := ⟨by simp, by intro c hc; simp at hc, by simp [uniText]⟩
  have hiff : (hist.map uniText).getLast? = some [] ↔ hist.getLast? = some [] := by
    rw [List.getLast?_map]
    cases hl : hist.getLast? with
    | none => simp
    | some x => simp [uniText_eq_nil]
  refine ⟨rfl, rfl, ?_, rfl, hc, hnil, by intro c hc; simp [Ed.start] at hc, ?_, hnil, ?_⟩
  · simp only [Ed.start, lnStart, List.reverse_reverse, List.append_nil]
    unfold histAdd recallable
    by_cases hl : hist.getLast? = some []
    · rw [if_pos (hiff.2 hl), if_pos hl]
      have : lastN 99 hist.dropLast = hist.dropLast := by
        unfold lastN
        have : hist.dropLast.length - 99 = 0 := by rw [List.length_dropLast]; omega
        rw [this, List.drop_zero]
      rw [this]
      have : hist = hist.dropLast ++ [[]] := by
        obtain ⟨l', rfl⟩ := List.getLast?_eq_some_iff.1 hl
        simp
      exact congrArg (List.map uniText) this
    · rw [if_neg fun e => hl (hiff.1 e), if_neg hl]
      unfold lastN
      split
      · rename_i h100
        rw [List.length_map] at h100
        unfold lnHistMax at h100
        rw [h100]
        simp [uniText, List.map_drop]
      · rename_i h100
        rw [List.length_map] at h100
        unfold lnHistMax at h100
        have : hist.length - 99 = 0 := by omega
        rw [this]
        simp [uniText]
  · intro t ht
    simp only [Ed.start, List.append_nil, List.mem_reverse] at ht
    unfold recallable lastN at ht
    have := List.mem_of_mem_drop ht
    split at this
    · exact hh t (List.dropLast_subset _ this)
    · exact hh t this
  · simp only [Ed.start, List.length_reverse, List.length_nil]
    unfold recallable lastN
    rw [List.length_drop]; omega

/-- a list is cut before the longest end whose elements satisfy `p` -/
theorem split_back (p : Nat → Bool) (a : List Nat) :
    ∃ q w, a = q ++ w ∧ (∀ c ∈ w, p c = true) ∧ ∀ c ∈ q.getLast?, p c = false := by
  induction hn : a.length generalizing a with
  | zero =>
    obtain rfl := List.eq_nil_of_length_eq_zero hn
    exact ⟨[], [], rfl, by simp, by simp⟩
  | succ m ih =>
    rcases List.eq_nil_or_concat a with rfl | ⟨a', c, rfl⟩
    · simp at hn
    · rw [List.concat_eq_append] at *
      by_cases hc : p c = true
      · obtain ⟨q, sp, e, g1, g2⟩ := ih a' (by simpa using hn)
        refine ⟨q, sp ++ [c], by simp [e], ?_, g2⟩
        intro x hx; simp at hx
        rcases hx with hx | hx
        · exact g1 x hx
        · rw [hx]; exact hc
      · exact ⟨a' ++ [c], [], by simp, by simp, by simpa using hc⟩

/-- Showing the line changes nothing but what is on the screen. -/
theorem refresh_same {u : CharTables} {l l' : LnState} (h : refresh u l = .ok l') :
    l'.buf = l.buf ∧ l'.pos = l.pos ∧ l'.hist = l.hist ∧ l'.idx = l.idx ∧ l'.cols = l.cols ∧
      l'.plen = l.plen := by
  unfold refresh at h
  rw [res_bind_eq_ok] at h
  obtain ⟨v, -, h⟩ := h
  dsimp only at h
  by_cases hc : l.cols = 0
  · rw [if_pos hc] at h; simp at h
  · rw [if_neg hc, res_bind_eq_ok] at h
    obtain ⟨v2, -, h⟩ := h
    simp only [Res.ok.injEq] at h
    subst h
    exact ⟨rfl, rfl, rfl, rfl, rfl, rfl⟩

end PBat
