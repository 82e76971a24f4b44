import Verif.Spec.Estr
namespace PBat
open Spec

theorem sizeLoop_ge (r s : Nat) (hr : 0 < r) : s ≤ sizeLoop r s ∧ r ≤ sizeLoop r s := by
  fun_induction sizeLoop r s with
  | case1 r h ih => have := ih (by omega); omega
  | case2 r h => omega

theorem sizeLoop_le (r s k : Nat) (hr : ∃ i, r = 2 ^ i) (hs : s ≤ 2 ^ k) (hrk : r ≤ 2 ^ k) :
    sizeLoop r s ≤ 2 ^ k := by
  fun_induction sizeLoop r s with
  | case1 r h ih =>
    obtain ⟨i, rfl⟩ := hr
    apply ih ⟨i + 1, by rw [Nat.pow_succ]⟩
    have : (2 : Nat) ^ i < 2 ^ k := by omega
    have hik : i < k := (Nat.pow_lt_pow_iff_right (by decide)).1 this
    calc 2 ^ i * 2 = 2 ^ (i + 1) := by rw [Nat.pow_succ]
      _ ≤ 2 ^ k := Nat.pow_le_pow_right (by decide) hik
  | case2 r h => exact hrk

theorem estrSize_spec (s : Nat) (hs : s ≤ 2 ^ 30) :
    ∃ n : Nat, estrSize s = n ∧ s ≤ n ∧ 256 ≤ n ∧ n ≤ 2 ^ 30 := by
  have h1 := sizeLoop_ge 256 s (by decide)
  have h2 := sizeLoop_le 256 s 30 ⟨8, by decide⟩ hs (by decide)
  refine ⟨sizeLoop 256 s, ?_, h1.1, h1.2, h2⟩
  unfold estrSize toInt32
  have : sizeLoop 256 s % 2 ^ 32 = sizeLoop 256 s := Nat.mod_eq_of_lt (by omega)
  simp only [this]
  rw [if_pos (by omega)]

theorem toSize_nat (n : Nat) (h : n ≤ 2 ^ 30) : toSize (n : Int) = n := by
  unfold toSize
  omega

theorem toInt32_nat (n : Nat) (h : n ≤ 2 ^ 30) : toInt32 n = n := by
  unfold toInt32
  have : n % 2 ^ 32 = n := Nat.mod_eq_of_lt (by omega)
  simp only [this]
  rw [if_pos (by omega)]

theorem cstrlen_append (t rest : List Char) (h : NUL ∉ t) : cstrlen (t ++ NUL :: rest) = some t.length := by
  induction t with
  | nil => simp [cstrlen]
  | cons c cs ih =>
    have hc : c ≠ NUL := by intro e; exact h (by simp [e])
    have := ih (fun hm => h (by simp [hm]))
    simp [cstrlen, hc, this]

theorem Spec.Holds.cstrlen {e : Estr} {t : List Char} (h : Holds e t) : cstrlen e.str = some t.length := by
  obtain ⟨-, -, -, hn, rest, hr⟩ := h
  rw [hr, cstrlen_append _ _ hn]

theorem Spec.Holds.cstr {e : Estr} {t : List Char} (h : Holds e t) : PBat.cstr e.str = some t := by
  have hl := h.cstrlen
  obtain ⟨-, -, -, hn, rest, hr⟩ := h
  unfold PBat.cstr
  rw [hl]
  simp [hr]

theorem Spec.Holds.unique {e : Estr} {t u : List Char} (h : Holds e t) (h' : Holds e u) : t = u := by
  have := h.cstr
  rw [h'.cstr] at this
  exact (Option.some.inj this).symm

theorem Spec.Holds.lt {e : Estr} {t : List Char} (h : Holds e t) : t.length + 1 ≤ e.str.length := by
  obtain ⟨-, -, -, hn, rest, hr⟩ := h
  rw [hr]; simp

theorem resize_length (g : Nat → Char) (b : List Char) (n : Nat) : (resize g b n).length = n := by
  simp [resize]; omega

theorem Spec.Holds.resize {e : Estr} {t : List Char} (h : Holds e t) (g : Nat → Char) (n : Nat)
    (hn : e.str.length ≤ n) (hn2 : n ≤ 2 ^ 30) :
    Holds { str := resize g e.str n, len := n } t := by
  obtain ⟨h1, h2, h3, h4, rest, hr⟩ := h
  refine ⟨by simp [resize_length], by simp only; omega, by simp only; omega, h4, ?_⟩
  refine ⟨rest ++ (List.range (n - e.str.length)).map g, ?_⟩
  simp only [PBat.resize]
  rw [List.take_of_length_le hn, hr]
  simp

/-- Growing with an `int` size keeps the text and provides the room. -/
theorem growInt_spec {e : Estr} {t : List Char} (h : Holds e t) (al : Nat → Bool) (g : Nat → Char) (s : Nat)
    (hs : s ≤ 2 ^ 30) :
    (growInt al g e (estrSize s) = none ∧ ¬ ∀ n, al n = true) ∨
    ∃ e', growInt al g e (estrSize s) = some e' ∧ Holds e' t ∧ s ≤ e'.str.length := by
  obtain ⟨n, hn, h1, h2, h3⟩ := estrSize_spec s hs
  have h' := h
  obtain ⟨a1, a2, a3, a4, -⟩ := h'
  unfold growInt
  rw [hn, toSize_nat n h3]
  by_cases hl : e.len < n
  · rw [if_pos hl]
    by_cases ha : al n = true
    · rw [if_pos ha]
      exact Or.inr ⟨_, rfl, h.resize g n (by omega) h3, by simp [resize_length]; exact h1⟩
    · rw [if_neg ha]; exact Or.inl ⟨rfl, fun hh => ha (hh n)⟩
  · rw [if_neg hl]
    exact Or.inr ⟨e, rfl, h, by omega⟩

theorem growSize_spec {e : Estr} {t : List Char} (h : Holds e t) (al : Nat → Bool) (g : Nat → Char) (s : Nat)
    (hs : s ≤ 2 ^ 30) :
    (growSize al g e (toSize (estrSize s)) = none ∧ ¬ ∀ n, al n = true) ∨
    ∃ e', growSize al g e (toSize (estrSize s)) = some e' ∧ Holds e' t ∧ s ≤ e'.str.length := by
  obtain ⟨n, hn, h1, h2, h3⟩ := estrSize_spec s hs
  have h' := h
  obtain ⟨a1, a2, a3, a4, -⟩ := h'
  unfold growSize
  rw [hn, toSize_nat n h3]
  have hl' : toSize e.len = e.str.length := by rw [← a1]; exact toSize_nat _ (by omega)
  rw [hl']
  by_cases hl : e.str.length < n
  · rw [if_pos hl]
    by_cases ha : al n = true
    · rw [if_pos ha]
      refine Or.inr ⟨_, rfl, ?_, by simp [resize_length]; exact h1⟩
      rw [toInt32_nat n h3]
      exact h.resize g n (by omega) h3
    · rw [if_neg ha]; exact Or.inl ⟨rfl, fun hh => ha (hh n)⟩
  · rw [if_neg hl]
    exact Or.inr ⟨e, rfl, h, by omega⟩

theorem wr_some {b : List Char} {off : Nat} {bytes : List Char} (h : off + bytes.length ≤ b.length) :
    wr b off bytes = some (b.take off ++ bytes ++ b.drop (off + bytes.length)) := by
  simp [wr, h]

theorem wr_length {b b' : List Char} {off : Nat} {bytes : List Char} (h : wr b off bytes = some b') :
    b'.length = b.length := by
  unfold wr at h
  split at h
  · simp only [Option.some.injEq] at h; subst h; simp; omega
  · simp at h

/-- Overwriting a suffix of the text. -/
theorem Spec.Holds.write {e : Estr} {t : List Char} (h : Holds e t) (k : Nat) (hk : k ≤ t.length) (s : List Char)
    (hs : NUL ∉ s) (hroom : k + s.length + 1 ≤ e.str.length) :
    ∃ b, wr e.str k (s ++ [NUL]) = some b ∧ Holds { e with str := b } (t.take k ++ s) := by
  have hw := wr_some (b := e.str) (off := k) (bytes := s ++ [NUL]) (by simp; omega)
  refine ⟨_, hw, ?_⟩
  have hl := wr_length hw
  obtain ⟨h1, h2, h3, h4, rest, hr⟩ := h
  refine ⟨by simp only [hl]; exact h1, h2, h3, ?_, ⟨e.str.drop (k + (s ++ [NUL]).length), ?_⟩⟩
  · intro hm
    rcases List.mem_append.1 hm with hm | hm
    · exact h4 (List.mem_of_mem_take hm)
    · exact hs hm
  · have ht : e.str.take k = t.take k := by
      rw [hr, List.take_append_of_le_length hk]
    simp [ht]

theorem strncpy_holds {e : Estr} {t : List Char} (h : Holds e t) (s : List Char) (hs : NUL ∉ s) (n : Nat)
    (hn : n ≠ 0) (hroom : n + 1 ≤ e.str.length) :
    ∃ b b', wr e.str 0 (strncpyBytes s n) = some b ∧ wr b n [NUL] = some b' ∧
      Holds { e with str := b' } (s.take n) := by
  have hlen : (strncpyBytes s n).length = n := by simp [strncpyBytes]; omega
  have hw := wr_some (b := e.str) (off := 0) (bytes := strncpyBytes s n) (by omega)
  have hl := wr_length hw
  have hw2 := wr_some (b := e.str.take 0 ++ strncpyBytes s n ++ e.str.drop (0 + (strncpyBytes s n).length))
    (off := n) (bytes := [NUL]) (by rw [hl]; simp; omega)
  have hl2 := wr_length hw2
  refine ⟨_, _, hw, hw2, ?_⟩
  obtain ⟨h1, h2, h3, h4, rest, hr⟩ := h
  refine ⟨by simp only [hl2, hl]; exact h1, h2, h3, fun hm => hs (List.mem_of_mem_take hm), ?_⟩
  simp only [List.take_zero, List.nil_append, hlen, Nat.zero_add]
  rw [List.take_append_of_le_length (by omega), List.take_of_length_le (by omega)]
  by_cases hsn : n ≤ s.length
  · have : n - s.length = 0 := by omega
    simp only [strncpyBytes, this, List.replicate_zero, List.append_nil]
    exact ⟨_, by rw [List.append_assoc]; rfl⟩
  · obtain ⟨m, hm⟩ : ∃ m, n - s.length = m + 1 := ⟨n - s.length - 1, by omega⟩
    simp only [strncpyBytes, hm, List.replicate_succ]
    refine ⟨List.replicate m NUL ++ [NUL] ++ _, by simp only [List.append_assoc, List.cons_append]; rfl⟩

theorem esStep_spec {e : Estr} {t : List Char} (h : Holds e t) (op : EsOp) (hl : Legal op)
    (hn : ∀ n, Needs t op n → n ≤ 2 ^ 30) (al : Nat → Bool) (g : Nat → Char) :
    (esStep al g e op = some (-1, e) ∧ ¬ ∀ n, al n = true) ∨
    ∃ e' t', esStep al g e op = some (0, e') ∧ After t op t' ∧ Holds e' t' := by
  cases op with
  | cpy s =>
    simp only [esStep, esCpy]
    rcases growSize_spec h al g (s.length + 1) (hn _ rfl) with ⟨hg, ha⟩ | ⟨e', hg, h', hroom⟩
    · rw [hg]; exact Or.inl ⟨rfl, ha⟩
    · rw [hg]
      obtain ⟨b, hb, hh⟩ := h'.write 0 (by omega) s hl (by omega)
      right
      refine ⟨_, s, by simp only [hb, Option.map_some]; rfl, rfl, by simpa using hh⟩
  | cpyN s n =>
    simp only [esStep, esCpyN]
    rcases growSize_spec h al g (n + 1) (hn _ rfl) with ⟨hg, ha⟩ | ⟨e', hg, h', hroom⟩
    · rw [hg]; exact Or.inl ⟨rfl, ha⟩
    · rw [hg]
      right
      by_cases h0 : n = 0
      · subst h0
        obtain ⟨b, hb, hh⟩ := h'.write 0 (by omega) [] (by simp) (by simp; omega)
        simp only [List.nil_append] at hb
        exact ⟨_, [], by simp [hb]; rfl, by simp [After], by simpa using hh⟩
      · obtain ⟨b, b', h1, h2, h3⟩ := strncpy_holds h' s hl n h0 hroom
        exact ⟨_, s.take n, by simp [h0, h1, h2], rfl, h3⟩
  | cat s =>
    simp only [esStep, esCat, h.cstrlen]
    rcases growInt_spec h al g (t.length + s.length + 1) (hn _ rfl) with ⟨hg, ha⟩ | ⟨e', hg, h', hroom⟩
    · left; exact ⟨by simp [hg], ha⟩
    · right
      obtain ⟨b, hb, hh⟩ := h'.write t.length (by omega) s hl (by omega)
      exact ⟨_, t ++ s, by simp [hg, h'.cstrlen, hb]; rfl, rfl, by simpa using hh⟩
  | catN s n =>
    simp only [esStep, esCatN, h.cstrlen]
    rcases growInt_spec h al g (t.length + n + 1) (hn _ rfl) with ⟨hg, ha⟩ | ⟨e', hg, h', hroom⟩
    · left; exact ⟨by simp [hg], ha⟩
    · right
      obtain ⟨b, hb, hh⟩ := h'.write t.length (by omega) (s.take n)
        (fun hm => hl (List.mem_of_mem_take hm)) (by simp; omega)
      exact ⟨_, t ++ s.take n, by simp [hg, h'.cstrlen, hb]; rfl, rfl, by simpa using hh⟩
  | cpyE src =>
    obtain ⟨u, hu⟩ := hl
    simp only [esStep, esCpyE, hu.cstr]
    rcases growInt_spec h al g (u.length + 1) (hn _ ⟨u, hu, rfl⟩) with ⟨hg, ha⟩ | ⟨e', hg, h', hroom⟩
    · left; exact ⟨by simp [hg], ha⟩
    · right
      obtain ⟨b, hb, hh⟩ := h'.write 0 (by omega) u hu.2.2.2.1 (by omega)
      exact ⟨_, u, by simp [hg, hb]; rfl, hu, by simpa using hh⟩
  | catE src =>
    obtain ⟨u, hu⟩ := hl
    simp only [esStep, esCatE, hu.cstr, h.cstrlen]
    rcases growInt_spec h al g (t.length + u.length + 1) (hn _ ⟨u, hu, rfl⟩) with ⟨hg, ha⟩ | ⟨e', hg, h', hroom⟩
    · left; exact ⟨by simp [hg], ha⟩
    · right
      obtain ⟨b, hb, hh⟩ := h'.write t.length (by omega) u hu.2.2.2.1 (by omega)
      exact ⟨_, t ++ u, by simp [hg, h'.cstrlen, hb]; rfl, ⟨u, hu, rfl⟩, by simpa using hh⟩

theorem After_det {t : List Char} {op : EsOp} {a b : List Char} (h1 : After t op a) (h2 : After t op b) :
    a = b := by
  cases op with
  | cpy s => exact h1.trans h2.symm
  | cpyN s n => exact h1.trans h2.symm
  | cat s => exact h1.trans h2.symm
  | catN s n => exact h1.trans h2.symm
  | cpyE src => exact h1.unique h2
  | catE src =>
    obtain ⟨u, hu, rfl⟩ := h1
    obtain ⟨v, hv, rfl⟩ := h2
    rw [hu.unique hv]

theorem Holds_init (g : Nat → Char) : Holds (esInit g) [] := by
  refine ⟨by simp [esInit], by simp [esInit], by simp [esInit], by simp, ⟨_, rfl⟩⟩

theorem Reach_holds {e : Estr} {t : List Char} (h : Reach e t) : Holds e t := by
  induction h with
  | init g => exact Holds_init g
  | @step e t op al g rc e' t' hr hl hn hs h0 h1 ih =>
    rcases esStep_spec ih op hl hn al g with ⟨hx, -⟩ | ⟨e2, t2, hx, hA, hH⟩
    · rw [hx] at hs
      simp only [Option.some.injEq, Prod.mk.injEq] at hs
      obtain ⟨rfl, rfl⟩ := hs
      rw [h1 (by decide)]; exact ih
    · rw [hx] at hs
      simp only [Option.some.injEq, Prod.mk.injEq] at hs
      obtain ⟨rfl, rfl⟩ := hs
      rw [After_det (h0 rfl) hA]; exact hH

end PBat
