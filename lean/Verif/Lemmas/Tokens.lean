import Verif.Lemmas.For
import Verif.Lemmas.Num
/-
Lemmas on the `tokens=` option.
-/
namespace PBat
open Spec

theorem tokLoop_end {st st1 : TokSt} {p : List Char} (h1 : tokNumber st (skipSpTab p) = some st1)
    (h2 : skipSpTab (strtol0 (skipSpTab p)).2 = []) :
    tokLoop st p = if st1.start = -1 then .ok none else tokFinish st1 := by
  rw [tokLoop, h1]
  simp only
  split
  · rfl
  · next h => rw [h2] at h; cases h

theorem tokLoop_step {st st1 : TokSt} {p r : List Char} {c : Char} (h1 : tokNumber st (skipSpTab p) = some st1)
    (h2 : skipSpTab (strtol0 (skipSpTab p)).2 = c :: r) :
    tokLoop st p =
      if st1.start = -1 ∧ c ≠ '*' then .ok none
      else if c = ',' then
        match tokFinish { st1 with prev := c } with
        | .ok (some st') => tokLoop st' r
        | .ok none => .ok none
        | .ub => .ub
        | .hang => .hang
      else if c = '-' ∨ c = '.' then
        if st1.stop ≠ -1 then .ok none
        else tokLoop { st1 with prev := c, op := some (if c = '-' then .list else .cat) } r
      else if c = '*' then
        match tokStar { st1 with prev := c } with
        | .ok (some st') => tokLoop st' r
        | .ok none => .ok none
        | .ub => .ub
        | .hang => .hang
      else .ok none := by
  rw [tokLoop, h1]
  simp only
  split
  · next h => rw [h2] at h; cases h
  · next h =>
    rw [h2] at h
    cases h
    rfl

/-- What may follow a number. -/
def TokRest (r : List Char) : Prop := r = [] ∨ ∃ r', r = ',' :: r' ∨ r = '-' :: r' ∨ r = '.' :: r' ∨ r = '*' :: r'

theorem skipSpTab_blanks {a r : List Char} (h : Blanks a) : skipSpTab (a ++ r) = skipSpTab r := by
  induction a with
  | nil => rfl
  | cons c a ih =>
    have hc := h c (by simp)
    unfold skipSpTab
    rw [List.cons_append, List.dropWhile_cons_of_pos (by rcases hc with rfl | rfl <;> decide)]
    exact ih (fun x hx => h x (by simp [hx]))

theorem skipSpTab_stop {c : Char} {r : List Char} (h1 : c ≠ ' ') (h2 : c ≠ '\t') : skipSpTab (c :: r) = c :: r := by
  unfold skipSpTab
  rw [List.dropWhile_cons_of_neg (by simp [h1, h2])]

theorem skipSpTab_rest {r : List Char} (h : TokRest r) : skipSpTab r = r := by
  rcases h with rfl | ⟨r', rfl | rfl | rfl | rfl⟩
  · rfl
  all_goals exact skipSpTab_stop (by decide) (by decide)

theorem numEnd_rest {b r : List Char} (hb : Blanks b) (h : TokRest r) : NumEnd (b ++ r) := by
  intro c hc
  cases b with
  | nil =>
    rcases h with rfl | ⟨r', rfl | rfl | rfl | rfl⟩ <;> simp at hc <;> subst hc <;> decide
  | cons x b =>
    simp at hc
    subst hc
    rcases hb x (by simp) with rfl | rfl <;> decide

theorem number_head {t : List Char} {v : Int} (h : Number t v) : ∃ c t', t = c :: t' ∧ c ≠ ' ' ∧ c ≠ '\t' := by
  have hd : ∀ c ∈ "123456789".toList, c ≠ ' ' ∧ c ≠ '\t' := by decide
  cases h with
  | plain h =>
    cases h with
    | dec hc _ => exact ⟨_, _, rfl, (hd _ hc).1, (hd _ hc).2⟩
    | oct => exact ⟨_, _, rfl, by decide, by decide⟩
    | hex => exact ⟨_, _, rfl, by decide, by decide⟩
  | plus => exact ⟨_, _, rfl, by decide, by decide⟩
  | minus => exact ⟨_, _, rfl, by decide, by decide⟩

/-- A number read: `tokNumber` and the rest of the text. -/
theorem tok_number {a t b r : List Char} {n : Nat} (ha : Blanks a) (ht : Number t (n : Nat)) (hb : Blanks b) (hr : TokRest r)
    (hn : n < 2 ^ 31) (st : TokSt) (hp : st.prev ≠ '*') (hs : st.op ≠ none → st.start ≠ -1) :
    tokNumber st (skipSpTab (a ++ t ++ b ++ r)) =
      some (if st.op ≠ none then { st with stop := (n : Int) } else { st with start := (n : Int) }) ∧
    skipSpTab (strtol0 (skipSpTab (a ++ t ++ b ++ r))).2 = r := by
  have e1 : skipSpTab (a ++ t ++ b ++ r) = t ++ (b ++ r) := by
    rw [List.append_assoc, List.append_assoc, skipSpTab_blanks ha]
    obtain ⟨c, t', rfl, h1, h2⟩ := number_head ht
    exact skipSpTab_stop h1 h2
  have e2 := strtol0_number ht (b ++ r) (numEnd_rest hb hr) (by omega) (by omega)
  have e3 : longToInt (n : Int) = n := longToInt_id (by omega) (by omega)
  obtain ⟨c, t', rfl, _, _⟩ := number_head ht
  rw [e1]
  constructor
  · unfold tokNumber
    rw [e2]
    simp only [e3]
    rw [if_neg (by simp; omega), if_neg hp]
    split
    · next h => rw [if_neg (hs h)]
    · rfl
  · rw [e2, skipSpTab_blanks hb, skipSpTab_rest hr]

/-- No number is read. -/
theorem tok_none {a r : List Char} (ha : Blanks a) (hr : r = [] ∨ ∃ r', r = ',' :: r' ∨ r = '*' :: r') (st : TokSt) :
    tokNumber st (skipSpTab (a ++ r)) = some st ∧ skipSpTab (strtol0 (skipSpTab (a ++ r))).2 = r := by
  have hr2 : TokRest r := by
    rcases hr with rfl | ⟨r', rfl | rfl⟩
    · exact .inl rfl
    · exact .inr ⟨r', .inl rfl⟩
    · exact .inr ⟨r', .inr (.inr (.inr rfl))⟩
  rw [skipSpTab_blanks ha, skipSpTab_rest hr2]
  have e : strtol0 r = (0, r) := by
    have h : (strtolVal r) = (0, r) := by
      rcases hr with rfl | ⟨r', rfl | rfl⟩
      · rfl
      · have : (',' :: r').dropWhile isSpace = ',' :: r' := List.dropWhile_cons_of_neg (by decide)
        unfold strtolVal
        rw [this]
        have : scanNumber (',' :: r') = none := by
          rw [scanNumber]
          · rw [if_neg (by decide)]
          · decide
        simp [this]
      · have : ('*' :: r').dropWhile isSpace = '*' :: r' := List.dropWhile_cons_of_neg (by decide)
        unfold strtolVal
        rw [this]
        have : scanNumber ('*' :: r') = none := by
          rw [scanNumber]
          · rw [if_neg (by decide)]
          · decide
        simp [this]
    unfold strtol0
    rw [h]
    simp
  constructor
  · unfold tokNumber
    rw [e]
    simp only [if_true]
    rw [if_neg]
    rcases hr with rfl | ⟨r', rfl | rfl⟩ <;> simp
  · rw [e, skipSpTab_rest hr2]

/-- The word of a selection. -/
def selWord (s : Selection) : Nat := s.1 * 2 ^ 16 + s.2.getD 65535

/-- The table with words added from index `i` on. -/
def orWords (table : List Nat) (i : Nat) : List Nat → List Nat
  | [] => table
  | w :: ws => orWords (table.modify i (· ||| w)) (i + 1) ws

theorem orWords_append (table : List Nat) (i : Nat) (u v : List Nat) :
    orWords table i (u ++ v) = orWords (orWords table i u) (i + u.length) v := by
  induction u generalizing table i with
  | nil => rfl
  | cons w u ih => simp only [List.cons_append, orWords, List.length_cons]; rw [ih]; congr 1; omega

/-- A selection which can be written. -/
def SelOk (s : Selection) : Prop := s.1 < 2 ^ 15 ∧ ∀ m, s.2 = some m → m < 2 ^ 16

theorem tokWrite_sel (st : TokSt) (n : Nat) (stop : Int) (e : Option Nat) (hi : st.i < 96) (h : SelOk (n, e))
    (hs : stop = (e.getD 65535 : Nat)) :
    tokWrite st (n : Int) stop = .ok (some { st with table := orWords st.table st.i [selWord (n, e)], i := st.i + 1 }) := by
  unfold tokWrite
  have h1 := h.1
  simp only at h1
  rw [if_neg (by unfold tokenMax; omega), if_pos (by omega)]
  have : (stop % 2 ^ 16).toNat = e.getD 65535 := by
    rw [hs]
    cases e with
    | none => rfl
    | some m =>
      have := h.2 m rfl
      simp only [Option.getD_some]
      omega
  rw [this]
  rfl

theorem tokWriteList_sel (n : Nat) : ∀ (st : TokSt) (a : Nat), st.i + n ≤ 96 → (∀ k < n, a + k < 2 ^ 15) →
    tokWriteList st (a : Int) n = .ok (some { st with
      table := orWords st.table st.i ((List.range n).map (fun k => selWord (a + k, some (a + k)))), i := st.i + n }) := by
  induction n with
  | zero => intro st a _ _; rfl
  | succ n ih =>
    intro st a hi hb
    have hw := tokWrite_sel st a a (some a) (by omega) ⟨hb 0 (by omega), fun m h => by
      have := hb 0 (by omega); simp at h; omega⟩ rfl
    rw [tokWriteList, hw]
    simp only [Res.ok_bind]
    have e1 : ((a : Int) + 1) = ((a + 1 : Nat) : Int) := by simp
    rw [e1, ih _ (a + 1) (by simp; omega) (fun k hk => by have := hb (k + 1) (by omega); omega)]
    simp only [Res.ok.injEq, Option.some.injEq]
    have e2 : (List.range (n + 1)).map (fun k => selWord (a + k, some (a + k))) =
        [selWord (a, some a)] ++ (List.range n).map (fun k => selWord (a + 1 + k, some (a + 1 + k))) := by
      rw [List.range_succ_eq_map]
      simp only [List.map_cons, List.map_map, Nat.add_zero, List.singleton_append, List.cons.injEq, true_and]
      apply List.map_congr_left
      intro k _
      simp only [Function.comp_apply]
      congr 2 <;> simp <;> omega
    rw [e2, orWords_append]
    simp
    omega

end PBat

namespace PBat
open Spec

theorem tokFinish_one (st : TokSt) (n : Nat) (ho : st.op = none) (hs : st.start = n) (hi : st.i < 96) (h : SelOk (n, some n)) :
    tokFinish st = .ok (some { st with
      table := orWords st.table st.i [selWord (n, some n)], i := st.i + 1, last := n, op := none, start := -1, stop := -1 }) := by
  unfold tokFinish
  rw [ho]
  simp only
  rw [hs, tokWrite_sel st n n (some n) hi h rfl]
  rfl

theorem tokFinish_cat (st : TokSt) (n : Nat) (e : Option Nat) (ho : st.op = some .cat) (hs : st.start = n)
    (he : st.stop = (e.getD 65535 : Nat)) (hi : st.i < 96) (h : SelOk (n, e)) :
    tokFinish st = .ok (some { st with
      table := orWords st.table st.i [selWord (n, e)], i := st.i + 1, last := (e.getD 65535 : Nat), op := none, start := -1,
      stop := -1 }) := by
  unfold tokFinish
  rw [ho]
  simp only
  rw [he, if_neg (by omega), hs, tokWrite_sel st n _ e hi h rfl]
  rfl

theorem tokFinish_list (st : TokSt) (n m : Nat) (ho : st.op = some .list) (hs : st.start = n) (he : st.stop = (m : Nat))
    (hi : st.i + (m + 1 - n) ≤ 96) (h : ∀ k < m + 1 - n, n + k < 2 ^ 15) :
    tokFinish st = .ok (some { st with
      table := orWords st.table st.i ((List.range (m + 1 - n)).map (fun k => selWord (n + k, some (n + k)))),
      i := st.i + (m + 1 - n), last := m, op := none, start := -1, stop := -1 }) := by
  unfold tokFinish
  rw [ho]
  simp only
  have : ((m : Int) - n + 1).toNat = m + 1 - n := by omega
  rw [he, if_neg (by omega), hs, this, tokWriteList_sel _ _ _ hi h]
  rfl

/-- The last part of an item, followed by a comma or by nothing. -/
theorem tok_finish_both {st st1 st2 : TokSt} {q : List Char}
    (hnum : ∀ r, (r = [] ∨ ∃ r', r = ',' :: r') → tokNumber st (skipSpTab (q ++ r)) = some st1 ∧
      skipSpTab (strtol0 (skipSpTab (q ++ r))).2 = r)
    (hs : st1.start ≠ -1) (hf : ∀ c, tokFinish { st1 with prev := c } = .ok (some { st2 with prev := c })) :
    tokLoop st q = .ok (some { st2 with prev := st1.prev }) ∧
    ∀ ts, tokLoop st (q ++ ',' :: ts) = tokLoop { st2 with prev := ',' } ts := by
  constructor
  · have h := hnum [] (.inl rfl)
    rw [List.append_nil] at h
    rw [tokLoop_end h.1 h.2, if_neg hs]
    exact hf st1.prev
  · intro ts
    have h := hnum (',' :: ts) (.inr ⟨ts, rfl⟩)
    rw [tokLoop_step h.1 h.2, if_neg (by simp [hs]), if_pos rfl, hf ',']

/-- The state at the start of an item. -/
structure Fresh (st : TokSt) (l : Option Nat) : Prop where
  start : st.start = -1
  stop : st.stop = -1
  op : st.op = none
  prev : st.prev ≠ '*'
  last : ∀ l', l = some l' → st.last = (l' : Nat)

/-- The numbers of an item are positive and fit an `int`; a range goes upwards. -/
def ItemOk : TokItem → Prop
  | .one n | .fromOn n | .andRest n => 1 ≤ n ∧ n < 2 ^ 31
  | .list n m => 1 ≤ n ∧ n < 2 ^ 31 ∧ 1 ≤ m ∧ m < 2 ^ 31
  | .range n m => 1 ≤ n ∧ n ≤ m ∧ m < 2 ^ 31
  | .rest => True

theorem comma_rest {r : List Char} (h : r = [] ∨ ∃ r', r = ',' :: r') : TokRest r := by
  rcases h with rfl | ⟨r', rfl⟩
  · exact .inl rfl
  · exact .inr ⟨r', .inl rfl⟩

theorem comma_rest' {r : List Char} (h : r = [] ∨ ∃ r', r = ',' :: r') : r = [] ∨ ∃ r', r = ',' :: r' ∨ r = '*' :: r' := by
  rcases h with rfl | ⟨r', rfl⟩
  · exact .inl rfl
  · exact .inr ⟨r', .inl rfl⟩

/-- One item. -/
theorem tok_item {it : TokItem} {t : List Char} (h : ItemText it t) (hit : ItemOk it) {l : Option Nat} {its : List TokItem}
    {sels : List Selection} (hsel : select l (it :: its) = some sels) (hok : ∀ s ∈ sels, SelOk s) (st : TokSt)
    (hst : Fresh st l) (hi : st.i + sels.length ≤ 96) :
    ∃ (l' : Option Nat) (sels1 sels2 : List Selection) (st2 : TokSt), sels = sels1 ++ sels2 ∧ select l' its = some sels2 ∧
      Fresh { st2 with prev := ',' } l' ∧ st2.i = st.i + sels1.length ∧
      st2.table = orWords st.table st.i (sels1.map selWord) ∧
      (∃ c, tokLoop st t = .ok (some { st2 with prev := c })) ∧
      ∀ ts, tokLoop st (t ++ ',' :: ts) = tokLoop { st2 with prev := ',' } ts := by
  cases h with
  | @one n a t b ha ht hb =>
    simp only [select, Option.map_eq_some_iff] at hsel
    obtain ⟨sels2, h2, rfl⟩ := hsel
    have hi' : st.i < 96 := by simp at hi; omega
    have hk : SelOk (n, some n) := hok _ (by simp)
    have hnum : ∀ r, (r = [] ∨ ∃ r', r = ',' :: r') →
        tokNumber st (skipSpTab (a ++ t ++ b ++ r)) = some { st with start := (n : Int) } ∧
        skipSpTab (strtol0 (skipSpTab (a ++ t ++ b ++ r))).2 = r := by
      intro r hr
      have := tok_number ha ht hb (comma_rest hr) hit.2 st hst.prev (by simp [hst.op])
      rwa [if_neg (by simp [hst.op])] at this
    have hfin := tok_finish_both (st2 := { st with
      table := orWords st.table st.i [selWord (n, some n)], i := st.i + 1, last := n, op := none, start := -1, stop := -1 })
      hnum (by simp) (fun c => tokFinish_one _ n hst.op rfl hi' hk)
    exact ⟨some n, [(n, some n)], sels2, _, rfl, h2, ⟨rfl, rfl, rfl, (by decide : ',' ≠ '*'), by simp⟩, rfl, rfl, ⟨_, hfin.1⟩, hfin.2⟩
  | @list n m a t b a' t' b' ha ht hb ha' ht' hb' =>
    simp only [select, Option.map_eq_some_iff] at hsel
    obtain ⟨sels2, h2, rfl⟩ := hsel
    obtain ⟨h1n, hn, h1m, hm⟩ := hit
    have hi' : st.i + (m + 1 - n) ≤ 96 := by simp at hi; omega
    have hk : ∀ k < m + 1 - n, n + k < 2 ^ 15 := fun k hk => (hok (n + k, some (n + k)) (by
      rw [List.mem_append]
      left
      exact List.mem_map.2 ⟨k, List.mem_range.2 hk, rfl⟩)).1
    have hstep : ∀ r, tokLoop st (a ++ t ++ b ++ '-' :: r) = tokLoop { st with start := (n : Int), prev := '-', op := some .list } r := by
      intro r
      have h := tok_number (r := '-' :: r) ha ht hb (.inr ⟨r, .inr (.inl rfl)⟩) hn st hst.prev (by simp [hst.op])
      rw [if_neg (by simp [hst.op])] at h
      rw [tokLoop_step h.1 h.2, if_neg (by simp), if_neg (by decide), if_pos (by simp), if_neg (by simp [hst.stop])]
      rfl
    have hnum : ∀ r, (r = [] ∨ ∃ r', r = ',' :: r') →
        tokNumber { st with start := (n : Int), prev := '-', op := some TokOp.list } (skipSpTab (a' ++ t' ++ b' ++ r)) =
          some { st with start := (n : Int), prev := '-', op := some TokOp.list, stop := (m : Int) } ∧
        skipSpTab (strtol0 (skipSpTab (a' ++ t' ++ b' ++ r))).2 = r := by
      intro r hr
      have := tok_number ha' ht' hb' (comma_rest hr) hm { st with start := (n : Int), prev := '-', op := some TokOp.list } (by simp) (by simp)
      rwa [if_pos (by simp)] at this
    have hfin := tok_finish_both (st2 := { st with
      table := orWords st.table st.i ((List.range (m + 1 - n)).map (fun k => selWord (n + k, some (n + k)))),
      i := st.i + (m + 1 - n), last := m, op := none, start := -1, stop := -1 })
      hnum (by simp) (fun c => tokFinish_list _ n m rfl rfl rfl hi' hk)
    refine ⟨some m, (List.range (m + 1 - n)).map (fun k => (n + k, some (n + k))), sels2, _, rfl, h2,
      ⟨rfl, rfl, rfl, (by decide : ',' ≠ '*'), by simp⟩, by simp, ?_, ⟨_, (hstep _).trans hfin.1⟩, ?_⟩
    · rw [List.map_map]; rfl
    · intro ts
      rw [List.append_assoc, List.cons_append, hstep]
      exact hfin.2 ts
  | @range n m a t b a' t' b' ha ht hb ha' ht' hb' =>
    simp only [select, Option.map_eq_some_iff] at hsel
    obtain ⟨sels2, h2, rfl⟩ := hsel
    obtain ⟨h1n, hnm, hm⟩ := hit
    have hi' : st.i < 96 := by simp at hi; omega
    have hk : SelOk (n, some m) := hok _ (by simp)
    have hstep : ∀ r, tokLoop st (a ++ t ++ b ++ '.' :: r) = tokLoop { st with start := (n : Int), prev := '.', op := some .cat } r := by
      intro r
      have h := tok_number (r := '.' :: r) ha ht hb (.inr ⟨r, .inr (.inr (.inl rfl))⟩) (by omega) st hst.prev (by simp [hst.op])
      rw [if_neg (by simp [hst.op])] at h
      rw [tokLoop_step h.1 h.2, if_neg (by simp), if_neg (by decide), if_pos (by simp), if_neg (by simp [hst.stop])]
      rfl
    have hnum : ∀ r, (r = [] ∨ ∃ r', r = ',' :: r') →
        tokNumber { st with start := (n : Int), prev := '.', op := some TokOp.cat } (skipSpTab (a' ++ t' ++ b' ++ r)) =
          some { st with start := (n : Int), prev := '.', op := some TokOp.cat, stop := (m : Int) } ∧
        skipSpTab (strtol0 (skipSpTab (a' ++ t' ++ b' ++ r))).2 = r := by
      intro r hr
      have := tok_number ha' ht' hb' (comma_rest hr) hm { st with start := (n : Int), prev := '.', op := some TokOp.cat } (by simp) (by simp)
      rwa [if_pos (by simp)] at this
    have hfin := tok_finish_both (st2 := { st with
      table := orWords st.table st.i [selWord (n, some m)], i := st.i + 1, last := m, op := none, start := -1, stop := -1 })
      hnum (by simp) (fun c => tokFinish_cat _ n (some m) rfl rfl rfl hi' hk)
    refine ⟨some m, [(n, some m)], sels2, _, rfl, h2, ⟨rfl, rfl, rfl, (by decide : ',' ≠ '*'), by simp⟩, rfl, rfl, ⟨_, (hstep _).trans hfin.1⟩, ?_⟩
    intro ts
    rw [List.append_assoc, List.cons_append, hstep]
    exact hfin.2 ts
  | @fromOn n a t b a' b' ha ht hb ha' hb' =>
    simp only [select, Option.map_eq_some_iff] at hsel
    obtain ⟨sels2, h2, rfl⟩ := hsel
    have hi' : st.i < 96 := by simp at hi; omega
    have hk : SelOk (n, none) := hok _ (by simp)
    have hstep : ∀ r, tokLoop st (a ++ t ++ b ++ '.' :: (a' ++ '*' :: r)) =
        tokLoop { st with start := (n : Int), prev := '*', op := some .cat, stop := 0xFFFF } r := by
      intro r
      have h := tok_number (r := '.' :: (a' ++ '*' :: r)) ha ht hb (.inr ⟨_, .inr (.inr (.inl rfl))⟩) hit.2 st hst.prev (by simp [hst.op])
      rw [if_neg (by simp [hst.op])] at h
      rw [tokLoop_step h.1 h.2, if_neg (by simp), if_neg (by decide), if_pos (by simp), if_neg (by simp [hst.stop])]
      have h' := tok_none (r := '*' :: r) ha' (.inr ⟨r, .inr rfl⟩) { st with start := (n : Int), prev := '.', op := some TokOp.cat }
      simp only
      rw [if_neg (show ¬ '.' = '-' by decide)]
      rw [tokLoop_step h'.1 h'.2, if_neg (by simp), if_neg (by decide), if_neg (by decide), if_pos rfl]
      have : tokStar { st with start := (n : Int), prev := '*', op := some TokOp.cat } =
          .ok (some { st with start := (n : Int), prev := '*', op := some TokOp.cat, stop := 0xFFFF }) := by
        unfold tokStar
        simp only
        rw [if_neg (by omega)]
        rfl
      rw [this]
    have hnum : ∀ r, (r = [] ∨ ∃ r', r = ',' :: r') →
        tokNumber { st with start := (n : Int), prev := '*', op := some TokOp.cat, stop := 0xFFFF } (skipSpTab (b' ++ r)) =
          some { st with start := (n : Int), prev := '*', op := some TokOp.cat, stop := 0xFFFF } ∧
        skipSpTab (strtol0 (skipSpTab (b' ++ r))).2 = r := by
      intro r hr
      exact tok_none hb' (comma_rest' hr) _
    have hfin := tok_finish_both (st2 := { st with
      table := orWords st.table st.i [selWord (n, none)], i := st.i + 1, last := (65535 : Nat), op := none, start := -1, stop := -1 })
      hnum (by simp) (fun c => tokFinish_cat _ n none rfl rfl rfl hi' hk)
    refine ⟨none, [(n, none)], sels2, _, rfl, h2, ⟨rfl, rfl, rfl, (by decide : ',' ≠ '*'), by simp⟩, rfl, rfl, ⟨_, (hstep _).trans hfin.1⟩, ?_⟩
    intro ts
    have e : a ++ t ++ b ++ '.' :: (a' ++ '*' :: b') ++ ',' :: ts = a ++ t ++ b ++ '.' :: (a' ++ '*' :: (b' ++ ',' :: ts)) := by simp
    rw [e, hstep]
    exact hfin.2 ts
  | @andRest n a t b b' ha ht hb hb' =>
    simp only [select, Option.map_eq_some_iff] at hsel
    obtain ⟨sels2, h2, rfl⟩ := hsel
    have hi' : st.i + 1 < 96 := by simp at hi; omega
    have hk : SelOk (n, some n) := hok _ (by simp)
    have hk2 : SelOk (n + 1, none) := hok _ (by simp)
    have hstep : ∀ r, tokLoop st (a ++ t ++ b ++ '*' :: r) =
        tokLoop { st with start := ((n + 1 : Nat) : Int), prev := '*', op := some .cat, stop := 0xFFFF,
                          table := orWords st.table st.i [selWord (n, some n)], i := st.i + 1 } r := by
      intro r
      have h := tok_number (r := '*' :: r) ha ht hb (.inr ⟨_, .inr (.inr (.inr rfl))⟩) hit.2 st hst.prev (by simp [hst.op])
      rw [if_neg (by simp [hst.op])] at h
      rw [tokLoop_step h.1 h.2, if_neg (by simp), if_neg (by decide), if_neg (by decide), if_pos rfl]
      have : tokStar { st with start := (n : Int), prev := '*' } =
          .ok (some { st with start := ((n + 1 : Nat) : Int), prev := '*', op := some TokOp.cat, stop := 0xFFFF,
                              table := orWords st.table st.i [selWord (n, some n)], i := st.i + 1 }) := by
        unfold tokStar
        simp only
        rw [if_neg (by omega), hst.op]
        simp only
        rw [tokWrite_sel _ n n (some n) (by simp; omega) hk rfl]
        rfl
      rw [this]
    have hnum : ∀ r, (r = [] ∨ ∃ r', r = ',' :: r') →
        tokNumber { st with start := ((n + 1 : Nat) : Int), prev := '*', op := some .cat, stop := 0xFFFF,
                            table := orWords st.table st.i [selWord (n, some n)], i := st.i + 1 } (skipSpTab (b' ++ r)) =
          some { st with start := ((n + 1 : Nat) : Int), prev := '*', op := some .cat, stop := 0xFFFF,
                         table := orWords st.table st.i [selWord (n, some n)], i := st.i + 1 } ∧
        skipSpTab (strtol0 (skipSpTab (b' ++ r))).2 = r := by
      intro r hr
      exact tok_none hb' (comma_rest' hr) _
    have hfin := tok_finish_both (st2 := { st with
      table := orWords (orWords st.table st.i [selWord (n, some n)]) (st.i + 1) [selWord (n + 1, none)], i := st.i + 1 + 1,
      last := (65535 : Nat), op := none, start := -1, stop := -1 })
      hnum (by simp; omega) (fun c => tokFinish_cat _ (n + 1) none rfl rfl rfl (by simp; omega) hk2)
    refine ⟨none, [(n, some n), (n + 1, none)], sels2, _, rfl, h2, ⟨rfl, rfl, rfl, (by decide : ',' ≠ '*'), by simp⟩, rfl, rfl,
      ⟨_, (hstep _).trans hfin.1⟩, ?_⟩
    intro ts
    rw [List.append_assoc, List.cons_append, hstep]
    exact hfin.2 ts
  | @rest a b ha hb =>
    cases l with
    | none => simp [select] at hsel
    | some l0 =>
      simp only [select, Option.map_eq_some_iff] at hsel
      obtain ⟨sels2, h2, rfl⟩ := hsel
      have hi' : st.i < 96 := by simp at hi; omega
      have hk : SelOk (l0 + 1, none) := hok _ (by simp)
      have hl : st.last = (l0 : Nat) := hst.last l0 rfl
      have hstep : ∀ r, tokLoop st (a ++ '*' :: r) =
          tokLoop { st with start := ((l0 + 1 : Nat) : Int), prev := '*', op := some .cat, stop := 0xFFFF } r := by
        intro r
        have h' := tok_none (r := '*' :: r) ha (.inr ⟨r, .inr rfl⟩) st
        rw [tokLoop_step h'.1 h'.2, if_neg (by simp), if_neg (by decide), if_neg (by decide), if_pos rfl]
        have : tokStar { st with prev := '*' } =
            .ok (some { st with start := ((l0 + 1 : Nat) : Int), prev := '*', op := some TokOp.cat, stop := 0xFFFF }) := by
          unfold tokStar
          simp only
          rw [if_pos hst.start, hl]
          rfl
        rw [this]
      have hnum : ∀ r, (r = [] ∨ ∃ r', r = ',' :: r') →
          tokNumber { st with start := ((l0 + 1 : Nat) : Int), prev := '*', op := some TokOp.cat, stop := 0xFFFF } (skipSpTab (b ++ r)) =
            some { st with start := ((l0 + 1 : Nat) : Int), prev := '*', op := some TokOp.cat, stop := 0xFFFF } ∧
          skipSpTab (strtol0 (skipSpTab (b ++ r))).2 = r := by
        intro r hr
        exact tok_none hb (comma_rest' hr) _
      have hfin := tok_finish_both (st2 := { st with
        table := orWords st.table st.i [selWord (l0 + 1, none)], i := st.i + 1, last := (65535 : Nat), op := none, start := -1, stop := -1 })
        hnum (by simp; omega) (fun c => tokFinish_cat _ (l0 + 1) none rfl rfl rfl hi' hk)
      refine ⟨none, [(l0 + 1, none)], sels2, _, rfl, h2, ⟨rfl, rfl, rfl, (by decide : ',' ≠ '*'), by simp⟩, rfl, rfl, ⟨_, (hstep _).trans hfin.1⟩, ?_⟩
      intro ts
      rw [List.append_assoc, List.cons_append, hstep]
      exact hfin.2 ts

/-- All items. -/
theorem tok_items {its : List TokItem} {t : List Char} (h : ItemsText its t) : ∀ (l : Option Nat) (sels : List Selection) (st : TokSt),
    (∀ it ∈ its, ItemOk it) → select l its = some sels → (∀ s ∈ sels, SelOk s) → Fresh st l → st.i + sels.length ≤ 96 →
    ∃ st', tokLoop st t = .ok (some st') ∧ st'.i = st.i + sels.length ∧ st'.table = orWords st.table st.i (sels.map selWord) := by
  induction h with
  | @single it t h =>
    intro l sels st hit hsel hok hst hi
    obtain ⟨l', s1, s2, st2, e, h2, -, hi2, ht2, ⟨c, hc⟩, -⟩ := tok_item h (hit it (by simp)) hsel hok st hst hi
    simp only [select, Option.some.injEq] at h2
    subst h2
    rw [List.append_nil] at e
    subst e
    exact ⟨_, hc, hi2, ht2⟩
  | @cons it its t ts h _ ih =>
    intro l sels st hit hsel hok hst hi
    obtain ⟨l', s1, s2, st2, rfl, h2, hf, hi2, ht2, -, hn⟩ := tok_item h (hit it (by simp)) hsel hok st hst hi
    obtain ⟨st', h3, h4, h5⟩ := ih l' s2 _ (fun x hx => hit x (by simp [hx])) h2 (fun x hx => hok x (by simp [hx])) hf
      (by simp at hi ⊢; omega)
    refine ⟨st', (hn ts).trans h3, ?_, ?_⟩
    · rw [h4, hi2, List.length_append]; omega
    · rw [h5, List.map_append, orWords_append]
      simp only
      rw [ht2, hi2, List.length_map]

end PBat
