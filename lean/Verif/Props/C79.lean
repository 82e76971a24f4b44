import Verif.Lemmas.More
/-
C79: MORE.
-/
namespace PBat
open Spec

/-- MORE with its output not on a terminal, for every text (lines of characters, UTF-8 characters, tabulations and escape sequences, the last
line with or without newline), every tabulation width below 80, with or without /S, and every number of rows to be skipped: exactly the rows of
the lines, broken after 79 columns, are written, without the first `n`.
Partial: no empty line follows a line that fills its last row (`C79_lost`); the last column of a row holds no character of several bytes and is
followed by no escape sequence (`C79_split`); the last line, without newline, does not fill its last row; with /S, lines that show nothing are
empty; nothing is left from an earlier MORE (`C79_left_over`). -/
theorem C79_rows_partial (o : MoreOpts) (h0 : 0 < o.tab) (h80 : o.tab < 80) (ls : List CellLine) (last : CellLine)
    (hr : ∀ l ∈ ls, ∀ c ∈ l, Readable o c) (hrl : ∀ c ∈ last, Readable o c)
    (hf : ∀ l ∈ ls, RowFits o.tab.toNat 0 l) (hfl : RowFits o.tab.toNat 0 last) (hend : endColumn o.tab.toNat 0 last ≠ 79)
    (hsq : o.squeeze = true → ∀ l ∈ ls, l ≠ [] → endColumn o.tab.toNat 0 l ≠ 0)
    (hn : NoneLost o.tab.toNat false ls) (n : Nat) :
    ∃ t', moreFile o n {} (moreText ls last) =
      .ok (((ended (shownRows o.tab.toNat o.squeeze false ls) ++ endedButLast (rowsOf o.tab.toNat last)).drop n).flatten, t') := by
  obtain ⟨t', e⟩ := rows_text o h0 h80 ls last hr hrl hf hfl hend hsq {} false (fun _ => rfl) hn
  refine ⟨t', ?_⟩
  rw [moreFile_rows, rowsFrom_eq, e]
  rfl

/-- What the rows of a line are, for lines of plain characters: together they are the line, each row but the last has 79 characters, and the
last one is neither longer nor, unless the line is empty, empty. -/
theorem C79_plain_rows (w : Nat) (bs : List Nat) :
    let rs := rowsOf w (bs.map fun b => .char b [])
    rs.flatten = bs ∧ (∀ r ∈ rs.dropLast, r.length = 79) ∧ (∀ r, rs.getLast? = some r → r.length ≤ 79 ∧ (bs ≠ [] → r ≠ [])) := by
  have key : ∀ (bs : List Nat) (col : Nat), col ≤ 79 →
      let r := lay w col (bs.map fun b => .char b [])
      r.1 ++ r.2.flatten = bs ∧
        ((r.2 = [] ∧ col + r.1.length ≤ 79) ∨
         (r.2 ≠ [] ∧ col + r.1.length = 79 ∧ (∀ x ∈ r.2.dropLast, x.length = 79) ∧ ∀ x, r.2.getLast? = some x → x.length ≤ 79 ∧ x ≠ [])) := by
    intro bs
    induction bs with
    | nil => intro col hc; simp [lay, hc]
    | cons b bs ih =>
      intro col hc
      simp only [List.map_cons, lay]
      by_cases h : col = 79
      · rw [if_pos h]
        obtain ⟨e, h1⟩ := ih 1 (by omega)
        simp only at e h1 ⊢
        refine ⟨by simpa using e, .inr ⟨by simp, by simp [h], ?_, ?_⟩⟩
        · rcases h1 with ⟨h1, h2⟩ | ⟨h1, h2, h3, h4⟩
          · rw [h1]; simp
          · rw [List.dropLast_cons_of_ne_nil h1]
            intro x hx
            rcases List.mem_cons.1 hx with rfl | hx
            · simp; omega
            · exact h3 x hx
        · rcases h1 with ⟨h1, h2⟩ | ⟨h1, h2, h3, h4⟩
          · rw [h1]; intro x hx; simp at hx; subst hx; simp; omega
          · rw [List.getLast?_cons_of_ne_nil h1]; exact h4
      · rw [if_neg h]
        obtain ⟨e, h1⟩ := ih (col + 1) (by omega)
        simp only at e h1 ⊢
        refine ⟨by simpa using e, ?_⟩
        rcases h1 with ⟨h1, h2⟩ | ⟨h1, h2, h3, h4⟩
        · exact .inl ⟨h1, by simp; omega⟩
        · exact .inr ⟨h1, by simp; omega, h3, h4⟩
  obtain ⟨e, h⟩ := key bs 0 (by omega)
  simp only [rowsOf]
  refine ⟨by simpa using e, ?_⟩
  rcases h with ⟨h1, h2⟩ | ⟨h1, h2, h3, h4⟩
  · rw [h1] at e ⊢
    refine ⟨by simp, ?_⟩
    intro r hr
    simp at hr e
    subst hr
    exact ⟨by omega, fun hb => by rw [e]; exact hb⟩
  · rw [List.dropLast_cons_of_ne_nil h1, List.getLast?_cons_of_ne_nil h1]
    refine ⟨?_, fun r hr => ⟨(h4 r hr).1, fun _ => (h4 r hr).2⟩⟩
    intro r hr
    rcases List.mem_cons.1 hr with rfl | hr
    · omega
    · exact h3 r hr

theorem rows_pos {o : MoreOpts} {t t' : MoreState} {s : List Nat} {rows : List (List Nat)} (h : rowsFrom o t s = .ok (rows, t')) :
    0 < rows.length := by
  rw [rowsFrom.eq_1] at h
  cases hm : moreLoop o 0 t s with
  | ub => rw [hm] at h; cases h
  | hang => rw [hm] at h; cases h
  | ok r =>
    rw [hm] at h
    simp only [Res.ok_bind] at h
    split at h
    · split at h
      · obtain ⟨q, -, h⟩ := res_bind_eq_ok.1 h; cases h; simp
      · cases h
    · cases h; simp

/-- The rows of a file one by one. -/
theorem rows_next {o : MoreOpts} {t t' : MoreState} {s : List Nat} {rows : List (List Nat)} (h : rowsFrom o t s = .ok (rows, t')) :
    ∃ r, moreLoop o 0 t s = .ok r ∧ ((r.more = true ∧ ∃ q, rows = r.out :: q ∧ rowsFrom o r.st r.rest = .ok (q, t')) ∨
      (r.more = false ∧ rows = [r.out])) := by
  rw [rowsFrom.eq_1] at h
  cases hm : moreLoop o 0 t s with
  | ub => rw [hm] at h; cases h
  | hang => rw [hm] at h; cases h
  | ok r =>
    rw [hm] at h
    simp only [Res.ok_bind] at h
    refine ⟨r, rfl, ?_⟩
    by_cases hmore : r.more = true
    · rw [if_pos hmore, if_pos ((moreLoop_less o 0 t s r hm).2 (by omega) hmore)] at h
      obtain ⟨q, hq, h⟩ := res_bind_eq_ok.1 h
      cases h
      exact .inl ⟨hmore, q.1, rfl, hq⟩
    · rw [if_neg hmore] at h
      cases h
      exact .inr ⟨by simpa using hmore, rfl⟩

theorem page_rows (o : MoreOpts) (n begin : Nat) (t t' : MoreState) (s : List Nat) (rows : List (List Nat)) (h : rowsFrom o t s = .ok (rows, t')) :
    ∃ p, morePage o begin t s n = .ok p ∧ p.out = ((rows.take n).drop begin).flatten ∧ (p.ok = true ↔ n < rows.length) ∧
      (p.ok = true → p.begin = begin - n ∧ rowsFrom o p.st p.rest = .ok (rows.drop n, t')) := by
  induction n generalizing t s rows begin with
  | zero => exact ⟨_, rfl, by simp, by simpa using rows_pos h, fun _ => ⟨rfl, by simpa using h⟩⟩
  | succ n ih =>
    obtain ⟨r, hm, ⟨hmore, q, rfl, hq⟩ | ⟨hmore, rfl⟩⟩ := rows_next h
    · obtain ⟨p, e1, e2, e4, e5⟩ := ih (begin - 1) r.st r.rest q hq
      rw [morePage, hm]
      simp only [Res.ok_bind, if_pos hmore, e1]
      refine ⟨_, rfl, ?_, by simpa using e4, fun ho => ⟨by have := (e5 ho).1; simp only [this]; omega, by simpa using (e5 ho).2⟩⟩
      cases begin with
      | zero => simp [e2]
      | succ b => simp [e2]
    · rw [morePage, hm]
      simp only [Res.ok_bind, hmore]
      refine ⟨_, rfl, ?_, by simp, by simp⟩
      cases begin with
      | zero => simp
      | succ b => simp

theorem skip_rows (o : MoreOpts) (n : Nat) (t t' : MoreState) (s : List Nat) (rows : List (List Nat)) (h : rowsFrom o t s = .ok (rows, t'))
    (hn : n < rows.length) (hpos : 0 < n) : ∃ u x, moreSkip o t s n = .ok (true, 0, u, x) ∧ rowsFrom o u x = .ok (rows.drop n, t') := by
  induction n generalizing t s rows with
  | zero => omega
  | succ n ih =>
    obtain ⟨r, hm, ⟨hmore, q, rfl, hq⟩ | ⟨hmore, rfl⟩⟩ := rows_next h
    · rw [moreSkip, hm]
      simp only [Res.ok_bind, if_pos hmore]
      by_cases h0 : n = 0
      · subst h0
        exact ⟨_, _, rfl, hq⟩
      · obtain ⟨u, x, e, e'⟩ := ih r.st r.rest q hq (by simpa using hn) (by omega)
        rw [e]
        exact ⟨u, x, rfl, e'⟩
    · simp at hn

theorem moreNumber_digits (ds : List Nat) (hd : ∀ d ∈ ds, d < 10) (c : Nat) (hc : ¬ (48 ≤ c ∧ c ≤ 57)) (ks : List Nat) (n : Nat) :
    moreNumber n (ds.map (48 + ·) ++ c :: ks) = some (ds.foldl (fun n d => 10 * n + d) n, ks) := by
  induction ds generalizing n with
  | nil => simp [moreNumber, hc]
  | cons d ds ih =>
    have := hd d (by simp)
    rw [List.map_cons, List.cons_append, moreNumber, if_pos (by omega), ih (fun x hx => hd x (by simp [hx]))]
    simp only [List.foldl_cons]
    congr 3
    omega

theorem prompt_key (k : MoreKey) (hk : k.Valid) (ks : List Nat) :
    ∃ sk, morePrompt (k.bytes ++ ks) = some (.rows k.count sk, ks) ∧ ∀ old, sk.getD old = k.hidden old := by
  cases k with
  | enter => exact ⟨none, by cases ks <;> rfl, fun _ => rfl⟩
  | space => exact ⟨none, by cases ks <;> rfl, fun _ => rfl⟩
  | print ds c =>
    refine ⟨none, ?_, fun _ => rfl⟩
    simp only [MoreKey.bytes, List.cons_append, List.append_assoc, List.nil_append]
    have := moreNumber_digits ds hk.1 c hk.2 ks 0
    generalize List.map (48 + ·) ds ++ c :: ks = x at this ⊢
    cases x <;> simp [morePrompt, this] <;> rfl
  | skip ds c =>
    refine ⟨some (digitsValue ds), ?_, fun _ => rfl⟩
    simp only [MoreKey.bytes, List.cons_append, List.append_assoc, List.nil_append]
    have := moreNumber_digits ds hk.1 c hk.2 ks 0
    generalize List.map (48 + ·) ds ++ c :: ks = x at this ⊢
    cases x <;> simp [morePrompt, this] <;> exact ⟨rfl, rfl⟩

theorem screen_rows (o : MoreOpts) (ks : List MoreKey) (hk : ∀ k ∈ ks, k.Valid) (n : Nat) (hc : o.clear = true → n = 23)
    (hcs : o.clear = true → ∀ k ∈ ks, k.count = 23)
    (left : Option Nat) (hl : o.clear = false → left = some n) (begin : Nat) (t t' : MoreState) (s : List Nat) (rows : List (List Nat))
    (h : rowsFrom o t s = .ok (rows, t')) :
    moreScreen o left begin t (ks.flatMap MoreKey.bytes) s = .ok (screens rows begin n ks) := by
  have hn : (if o.clear = true then some 23 else left) = some n := by
    cases hcl : o.clear with
    | true => rw [hc hcl]; rfl
    | false => simpa using hl hcl
  induction ks generalizing n left begin t s rows with
  | nil =>
    obtain ⟨p, e1, e2, -, -⟩ := page_rows o n begin t t' s rows h
    rw [moreScreen.eq_1, hn]
    simp only [e1, Res.ok_bind, List.flatMap_nil, screens, ← e2]
    rfl
  | cons k ks ih =>
    obtain ⟨p, e1, e2, e4, e5⟩ := page_rows o n begin t t' s rows h
    obtain ⟨sk, hp, hsk⟩ := prompt_key k (hk k (by simp)) (ks.flatMap MoreKey.bytes)
    have hstep : moreScreen o left begin t ((k :: ks).flatMap MoreKey.bytes) s =
        if p.ok then do
          let q ← moreScreen o (some k.count) (k.hidden p.begin) p.st (ks.flatMap MoreKey.bytes) p.rest
          .ok (p.out :: q)
        else .ok [p.out] := by
      rw [moreScreen.eq_1, hn, List.flatMap_cons]
      simp only [e1, Res.ok_bind]
      split <;> rename_i heq <;> rw [hp] at heq <;> cases heq
      rw [hsk]
    rw [hstep, screens, ← e2]
    by_cases ho : p.ok = true
    · obtain ⟨f1, f2⟩ := e5 ho
      rw [if_pos ho, if_pos (e4.1 ho), f1,
        ih (fun x hx => hk x (by simp [hx])) k.count (fun hcl => hcs hcl k (by simp)) (fun hcl x hx => hcs hcl x (by simp [hx]))
          (some k.count) (fun _ => rfl) (k.hidden (begin - n)) p.st p.rest _ f2
          (by cases hcl : o.clear with
            | true => rw [hcs hcl k (by simp)]; rfl
            | false => rfl)]
      rfl
    · rw [if_neg ho, if_neg (mt e4.2 ho)]

/-- MORE /C on a terminal, for every text of `C79_rows_partial` and every sequence of Enter and `S`: the pages are those asked for, 23 rows
each.  Partial: see `C79_rows_partial`; without /C see `C79_unset`. -/
theorem C79_pages_partial (o : MoreOpts) (hc : o.clear = true) (h0 : 0 < o.tab) (h80 : o.tab < 80) (ls : List CellLine) (last : CellLine)
    (hr : ∀ l ∈ ls, ∀ c ∈ l, Readable o c) (hrl : ∀ c ∈ last, Readable o c)
    (hf : ∀ l ∈ ls, RowFits o.tab.toNat 0 l) (hfl : RowFits o.tab.toNat 0 last) (hend : endColumn o.tab.toNat 0 last ≠ 79)
    (hsq : o.squeeze = true → ∀ l ∈ ls, l ≠ [] → endColumn o.tab.toNat 0 l ≠ 0)
    (hn : NoneLost o.tab.toNat false ls)
    (ks : List MoreKey) (hk : ∀ k ∈ ks, k.Valid ∧ k.count = 23) :
    moreTty o 0 {} (ks.flatMap MoreKey.bytes) (moreText ls last) =
      .ok (screens (ended (shownRows o.tab.toNat o.squeeze false ls) ++ endedButLast (rowsOf o.tab.toNat last)) 0 23 ks) := by
  obtain ⟨t', e⟩ := rows_text o h0 h80 ls last hr hrl hf hfl hend hsq {} false (fun _ => rfl) hn
  have hrun : ∀ ks s, moreTty o 0 {} ks s = moreScreen o none 0 {} ks s := fun _ _ => rfl
  rw [hrun]
  exact screen_rows o ks (fun k h => (hk k h).1) 23 (fun _ => rfl) (fun _ k h => (hk k h).2) none (by simp [hc]) 0 {} t' _ _
    (by rw [rowsFrom_eq, e])

/-- MORE +n on a terminal, for every text of `C79_rows_partial` with more than `n` rows and every sequence of keys: a screen from row `n` on,
then what is asked for.  Partial: see `C79_rows_partial`; without `+n` see `C79_unset`. -/
theorem C79_keys_partial (o : MoreOpts) (hc : o.clear = false) (h0 : 0 < o.tab) (h80 : o.tab < 80) (ls : List CellLine) (last : CellLine)
    (hr : ∀ l ∈ ls, ∀ c ∈ l, Readable o c) (hrl : ∀ c ∈ last, Readable o c)
    (hf : ∀ l ∈ ls, RowFits o.tab.toNat 0 l) (hfl : RowFits o.tab.toNat 0 last) (hend : endColumn o.tab.toNat 0 last ≠ 79)
    (hsq : o.squeeze = true → ∀ l ∈ ls, l ≠ [] → endColumn o.tab.toNat 0 l ≠ 0)
    (hn : NoneLost o.tab.toNat false ls)
    (n : Nat) (hpos : 0 < n)
    (hlt : n < (ended (shownRows o.tab.toNat o.squeeze false ls) ++ endedButLast (rowsOf o.tab.toNat last)).length)
    (ks : List MoreKey) (hk : ∀ k ∈ ks, k.Valid) :
    moreTty o n {} (ks.flatMap MoreKey.bytes) (moreText ls last) =
      .ok (screens ((ended (shownRows o.tab.toNat o.squeeze false ls) ++ endedButLast (rowsOf o.tab.toNat last)).drop n) 0 23 ks) := by
  obtain ⟨t', e⟩ := rows_text o h0 h80 ls last hr hrl hf hfl hend hsq {} false (fun _ => rfl) hn
  obtain ⟨u, x, e1, e2⟩ := skip_rows o n {} t' _ _ (by rw [rowsFrom_eq, e]) hlt hpos
  rw [moreTty, e1]
  exact screen_rows o ks hk 23 (fun _ => rfl) (by simp [hc]) _ (fun _ => rfl) 0 u t' x _ e2

/-- Pressing Enter only: page `i` has the rows from `23 * i` on, and there are pages until Enter is not pressed again or the rows are over. -/
theorem C79_enter (rows : List (List Nat)) (k : Nat) :
    (∀ i, i < (screens rows 0 23 (List.replicate k .enter)).length →
      (screens rows 0 23 (List.replicate k .enter))[i]? = some ((rows.drop (23 * i)).take 23).flatten) ∧
    ((screens rows 0 23 (List.replicate k .enter)).length = k + 1 ∨
      (screens rows 0 23 (List.replicate k .enter)).length ≤ k + 1 ∧ rows.length ≤ 23 * (screens rows 0 23 (List.replicate k .enter)).length) := by
  induction k generalizing rows with
  | zero => simp [screens]
  | succ k ih =>
    simp only [List.replicate_succ, screens, List.drop_zero, MoreKey.hidden, MoreKey.count, Nat.zero_sub]
    by_cases h : 23 < rows.length
    · rw [if_pos h]
      obtain ⟨h1, h2⟩ := ih (rows.drop 23)
      refine ⟨?_, ?_⟩
      · intro i hi
        cases i with
        | zero => simp
        | succ i =>
          rw [List.getElem?_cons_succ, h1 i (by simpa using hi), List.drop_drop, show 23 + 23 * i = 23 * (i + 1) by omega]
      · simp only [List.length_drop, List.length_cons] at h2 ⊢
        omega
    · rw [if_neg h]
      refine ⟨?_, .inr ⟨by simp, by simp; omega⟩⟩
      intro i hi
      simp at hi
      subst hi
      simp

/-! ### Violations -/

/-- On a terminal, without /C and without `+n`, the number of rows to be shown has no value when it is used. -/
theorem C79_unset (o : MoreOpts) (h : o.clear = false) (t : MoreState) (keys s : List Nat) : moreTty o 0 t keys s = .ub := by
  have hrun : moreTty o 0 t keys s = moreScreen o none 0 t keys s := rfl
  rw [hrun, moreScreen.eq_1, h]
  rfl

/-- After a line that fills its last row, empty lines are lost, however many they are. -/
theorem C79_lost (o : MoreOpts) (h0 : 0 < o.tab) (h80 : o.tab < 80) (l : CellLine) (hl : l ≠ []) (hr : ∀ c ∈ l, Readable o c)
    (hf : RowFits o.tab.toNat 0 l) (he : endColumn o.tab.toNat 0 l = 79) (n k : Nat) (s : List Nat) :
    moreFile o n {} (l.bytes ++ 10 :: (List.replicate k 10 ++ s)) = moreFile o n {} (l.bytes ++ 10 :: s) := by
  have skip : ∀ k, contFrom o 0 ⟨false, true⟩ (List.replicate k 10 ++ s) = contFrom o 0 ⟨false, true⟩ s := by
    intro k
    induction k with
    | zero => rfl
    | succ k ih =>
      rw [← ih, List.replicate_succ, List.cons_append]
      apply contFrom_same
      rw [moreLoop.eq_2, if_pos (by omega), if_neg (by omega), if_neg (by omega), if_neg (by omega), if_pos rfl, if_pos rfl, if_neg (by simp), if_pos rfl]
  have step : ∀ x, contFrom o 0 {} (l.bytes ++ 10 :: x) = ((contFrom o 0 ⟨false, true⟩ x).rows ([10] :: ·)).rows
      (onto (lay o.tab.toNat 0 l).1 (lay o.tab.toNat 0 l).2) := by
    intro x
    rw [cont_line o h0 h80 l hr 0 (by omega) {} (by simp) (by simp) hf, he,
      cont_newline o 79 (by omega) (by omega) _ _ (afterCells_blank _ _ rfl) (afterCells_cr _ _ (.inr hl))]
    rfl
  rw [moreFile_rows, moreFile_rows, rowsFrom_eq, rowsFrom_eq, step, step, skip]

/-- A character of two bytes in the last column is broken: its second byte comes after the newline. -/
theorem C79_split : moreFile {} 0 {} (List.replicate 78 120 ++ [0xC3, 0xA9, 10]) =
    .ok (List.replicate 78 120 ++ [0xC3, 10, 0xA9, 10], ⟨true, false⟩) := by decide +kernel

/-- A tabulation width of 0 (or a negative one) with any tabulation at the beginning of a row is undefined. -/
theorem C79_tab_zero (o : MoreOpts) (h : o.tab ≤ 0) (n : Nat) (t : MoreState) (s : List Nat) : moreFile o n t (9 :: s) = .ub := by
  rw [moreFile.eq_1, moreLoop.eq_2, if_pos (by omega), if_pos rfl, if_pos h]
  rfl

/-- An escape sequence cut by the end of the file is completed with the byte 255. -/
theorem C79_cut : moreFile {} 0 {} [27, 91, 51] = .ok ([27, 91, 51, 255], {}) := by decide +kernel

/-- Documentation: `+n` shows the file from line `n` on.  `+1` does not show the first line. -/
theorem C79_plus : moreFile {} 1 {} [97, 10, 98, 10] = .ok ([98, 10], {}) := by decide +kernel

/-- The rows skipped are not lines: `+1` skips 79 characters of a longer line. -/
theorem C79_plus_rows : moreFile {} 1 {} (List.replicate 80 120 ++ [10]) = .ok ([120, 10], {}) := by decide +kernel

/-- Something is left from the file before: the empty line at the beginning of the second file is lost. -/
theorem C79_left_over : moreFiles {} 0 {} [List.replicate 79 120 ++ [10], [10, 97, 10]] =
    .ok (List.replicate 79 120 ++ [10, 97, 10], {}) ∧
    moreFiles {} 0 {} [[10, 97, 10]] = .ok ([10, 97, 10], {}) := by constructor <;> decide +kernel

/-! ### Examples -/

/-- A text of the theorem: a character of two bytes, a tabulation, an escape sequence, a line of two rows, a blank line, and a last line
without newline. -/
example : ∃ t', moreFile {} 0 {} (moreText [[.char 0xC3 [0xA9], .tab, .code [27, 91, 109], .char 97 []], (List.replicate 80 (.char 120 [])), []]
      [.char 98 []]) =
    .ok ([0xC3, 0xA9] ++ List.replicate 7 32 ++ [27, 91, 109, 97, 10] ++ List.replicate 79 120 ++ [10, 120, 10, 10, 98], t') :=
  ⟨{}, by decide +kernel⟩

example : RowFits 8 0 [.char 0xC3 [0xA9], .tab, .code [27, 91, 109], .char 97 []] ∧
    NoneLost 8 false [[.char 0xC3 [0xA9], .tab, .code [27, 91, 109], .char 97 []], []] := by
  constructor
  · simp [RowFits, tabWidth]
  · simp [NoneLost, endColumn, tabWidth]

example : Readable {} (.char 0xC3 [0xA9]) ∧ Readable {} (.code [27, 91, 109]) :=
  ⟨.char (by decide) (by decide) (by decide) (by decide) (by decide), .code rfl (.csi (p := []) (by simp) (by decide) (by decide))⟩

/-- `P2` and Enter, `S1` and Enter on a text of four lines, from the second row on. -/
example : moreTty {} 1 {} (([.print [2] 10, .skip [1] 10] : List MoreKey).flatMap MoreKey.bytes) [97, 10, 98, 10, 99, 10] =
    .ok (screens [[98, 10], [99, 10], []] 0 23 [.print [2] 10, .skip [1] 10]) := by decide +kernel

end PBat
