import Verif.Spec.Cu8Write
/-
C95: the loops of the conversion.
-/
namespace PBat.Spec
open PBat.Cu8

theorem cuSrc_cons (i : CuItem) (t : List CuItem) : cuSrc (i :: t) = i.src ++ cuSrc t := rfl
theorem cuOut_cons (i : CuItem) (t : List CuItem) : cuOut (i :: t) = i.out ++ cuOut t := rfl

/-- Where iconv stops. -/
theorem iconv_items {cd : Coder} {tail : List Nat} (ht : Cut cd tail) (t : List CuItem) (hk : ∀ i ∈ t, i.Known cd) (room : Nat) :
    ∃ pre post, t = pre ++ post ∧ (iconv cd (cuSrc t ++ tail) room).1 = cuOut pre ∧
      (iconv cd (cuSrc t ++ tail) room).2.1 = cuSrc post ++ tail ∧ (cuOut pre).length ≤ room ∧
      (((iconv cd (cuSrc t ++ tail) room).2.2 = (if tail = [] then .done else .einval) ∧ post = []) ∨
       ((iconv cd (cuSrc t ++ tail) room).2.2 = .eilseq ∧ ∃ b post', post = .junk b :: post') ∨
       ((iconv cd (cuSrc t ++ tail) room).2.2 = .e2big ∧ ∃ s o post', post = .glyph s o :: post' ∧ room < (cuOut pre).length + o.length)) := by
  induction t generalizing room with
  | nil =>
    refine ⟨[], [], rfl, ?_⟩
    rcases ht with rfl | ⟨hne, hc⟩
    · rw [show cuSrc [] ++ [] = ([] : List Nat) from rfl, iconv]
      exact ⟨rfl, rfl, Nat.zero_le _, .inl ⟨rfl, rfl⟩⟩
    · rw [show cuSrc [] ++ tail = tail from rfl]
      cases tail with
      | nil => exact absurd rfl hne
      | cons b x =>
        rw [iconv, hc]
        exact ⟨rfl, rfl, Nat.zero_le _, .inl ⟨rfl, rfl⟩⟩
  | cons i t ih =>
    have hi := hk i (by simp)
    have ih := ih (fun x hx => hk x (by simp [hx]))
    cases i with
    | junk b =>
      refine ⟨[], .junk b :: t, rfl, ?_⟩
      rw [cuSrc_cons, CuItem.src, List.append_assoc, List.cons_append, List.nil_append, iconv, hi]
      exact ⟨rfl, rfl, Nat.zero_le _, .inr (.inl ⟨rfl, b, t, rfl⟩)⟩
    | glyph s o =>
      obtain ⟨hs, ho, hc⟩ := hi
      rw [cuSrc_cons, CuItem.src, List.append_assoc]
      cases s with
      | nil => exact absurd rfl hs
      | cons b x =>
        have := hc (cuSrc t ++ tail)
        rw [List.cons_append] at this ⊢
        rw [iconv, this]
        simp only
        by_cases hr : room < o.length
        · rw [if_pos hr]
          exact ⟨[], .glyph (b :: x) o :: t, rfl, rfl, by simp [cuSrc_cons, CuItem.src], Nat.zero_le _, .inr (.inr ⟨rfl, b :: x, o, t, rfl, by simpa [cuOut] using hr⟩)⟩
        · rw [if_neg hr]
          have e : (x ++ (cuSrc t ++ tail)).drop ((b :: x).length - 1) = cuSrc t ++ tail := by simp
          rw [e]
          obtain ⟨pre, post, e1, e2, e3, e4, e5⟩ := ih (room - o.length)
          refine ⟨.glyph (b :: x) o :: pre, post, by rw [e1]; rfl, by simp only [e2, cuOut_cons, CuItem.out], e3, ?_, ?_⟩
          · simp only [cuOut_cons, CuItem.out, List.length_append]; omega
          · rcases e5 with h | h | ⟨h, s', o', p', h1, h2⟩
            · exact .inl h
            · exact .inr (.inl h)
            · exact .inr (.inr ⟨h, s', o', p', h1, by simp only [cuOut_cons, CuItem.out, List.length_append]; omega⟩)

theorem cuSrc_append (a b : List CuItem) : cuSrc (a ++ b) = cuSrc a ++ cuSrc b := List.flatMap_append
theorem cuOut_append (a b : List CuItem) : cuOut (a ++ b) = cuOut a ++ cuOut b := List.flatMap_append

/-- The whole text is converted, whatever its length. -/
theorem convert_items {cd : Coder} {tail : List Nat} (ht : Cut cd tail) : ∀ (n m : Nat) (t : List CuItem) (chunk ret : List Nat),
    t.length ≤ n → chunk.length ≤ m → (∀ i ∈ t, i.Known cd) → chunk.length ≤ chunkSize →
    convertLoop cd (cuSrc t ++ tail) chunk ret = .ok (ret ++ (chunk ++ cuOut t), tail) := by
  intro n
  induction n with
  | zero =>
    intro m t chunk ret hn _ hk hc
    have : t = [] := List.length_eq_zero_iff.1 (by omega)
    subst this
    rw [convertLoop]
    obtain ⟨pre, post, e1, e2, e3, e4, e5⟩ := iconv_items ht [] (by simp) (chunkSize - chunk.length)
    obtain ⟨rfl, rfl⟩ := List.append_eq_nil_iff.1 e1.symm
    rcases e5 with ⟨h, _⟩ | ⟨_, b, p, h⟩ | ⟨_, s, o, p, h, _⟩
    · rw [h, e2, e3]
      by_cases hx : tail = []
      · simp [hx]
      · simp [hx, cuSrc]
    · cases h
    · cases h
  | succ n ihn =>
    intro m
    induction m with
    | zero =>
      intro t chunk ret hn hm hk hc
      have : chunk = [] := List.length_eq_zero_iff.1 (by omega)
      subst this
      rw [convertLoop]
      obtain ⟨pre, post, e1, e2, e3, e4, e5⟩ := iconv_items ht t hk (chunkSize - ([] : List Nat).length)
      have hlen : pre.length + post.length = t.length := by rw [e1]; simp
      have hkp : ∀ i ∈ post, i.Known cd := fun i hi => hk i (by rw [e1]; simp [hi])
      rcases e5 with ⟨h, rfl⟩ | ⟨h, b, p, rfl⟩ | ⟨h, s, o, p, rfl, hr⟩
      · rw [h, e2, e3]
        have : t = pre := by rw [e1]; simp
        by_cases hx : tail = []
        · simp [hx, this]
        · simp [hx, this, cuSrc]
      · simp only [h]
        have hle : (iconv cd (cuSrc t ++ tail) (chunkSize - ([] : List Nat).length)).2.1.length ≤ (cuSrc t ++ tail).length ∧
            0 < (iconv cd (cuSrc t ++ tail) (chunkSize - ([] : List Nat).length)).2.1.length := by
          rw [e3, e1, cuSrc_append]; simp [cuSrc_cons, CuItem.src]
        rw [dif_pos hle, e3, e2]
        have e : (cuSrc (CuItem.junk b :: p) ++ tail).drop 1 = cuSrc p ++ tail := by simp [cuSrc_cons, CuItem.src]
        rw [e, ihn chunkSize p _ ret (by simp at hlen; omega) (by simpa using e4) (fun i hi => hkp i (by simp [hi])) (by simpa using e4), e1,
          cuOut_append, cuOut_cons]
        simp [CuItem.out]
      · simp only [h]
        have hne : pre ≠ [] := by
          rintro rfl
          have := (hkp (.glyph s o) (by simp)).2.1
          simp [cuOut, chunkSize] at hr
          omega
        have hpre : 0 < pre.length := List.length_pos_iff.2 hne
        have hps : 0 < (cuSrc pre).length := by
          cases pre with
          | nil => exact absurd rfl hne
          | cons i pre =>
            rw [cuSrc_cons]
            have := hk i (by rw [e1]; simp)
            cases i with
            | junk b => simp [CuItem.src]
            | glyph s o => have := List.length_pos_iff.2 this.1; simp [CuItem.src]; omega
        rw [dif_pos (.inl (by rw [e3, e1, cuSrc_append]; simp; omega)), e3, e2]
        rw [ihn 0 (.glyph s o :: p) [] _ (by simp at hlen ⊢; omega) (by simp) hkp (by simp), e1, cuOut_append]
        simp
    | succ m ihm =>
      intro t chunk ret hn hm hk hc
      rw [convertLoop]
      obtain ⟨pre, post, e1, e2, e3, e4, e5⟩ := iconv_items ht t hk (chunkSize - chunk.length)
      have hlen : pre.length + post.length = t.length := by rw [e1]; simp
      have hkp : ∀ i ∈ post, i.Known cd := fun i hi => hk i (by rw [e1]; simp [hi])
      rcases e5 with ⟨h, rfl⟩ | ⟨h, b, p, rfl⟩ | ⟨h, s, o, p, rfl, hr⟩
      · rw [h, e2, e3]
        have : t = pre := by rw [e1]; simp
        by_cases hx : tail = []
        · simp [hx, this]
        · simp [hx, this, cuSrc]
      · simp only [h]
        have hle : (iconv cd (cuSrc t ++ tail) (chunkSize - chunk.length)).2.1.length ≤ (cuSrc t ++ tail).length ∧
            0 < (iconv cd (cuSrc t ++ tail) (chunkSize - chunk.length)).2.1.length := by
          rw [e3, e1, cuSrc_append]; simp [cuSrc_cons, CuItem.src]
        rw [dif_pos hle, e3, e2]
        have e : (cuSrc (CuItem.junk b :: p) ++ tail).drop 1 = cuSrc p ++ tail := by simp [cuSrc_cons, CuItem.src]
        have hcs : (chunk ++ cuOut pre).length ≤ chunkSize := by simp; omega
        rw [e, ihn chunkSize p _ ret (by simp at hlen; omega) hcs (fun i hi => hkp i (by simp [hi])) hcs, e1,
          cuOut_append, cuOut_cons]
        simp [CuItem.out]
      · simp only [h]
        by_cases hne : pre = []
        · subst hne
          have hch : chunk ≠ [] := by
            rintro rfl
            have := (hkp (.glyph s o) (by simp)).2.1
            simp [cuOut, chunkSize] at hr
            omega
          rw [dif_pos (.inr ⟨by rw [e3, e1]; rfl, hch⟩), e3, e2]
          have hmm := ihm (.glyph s o :: p) [] (ret ++ (chunk ++ cuOut [])) (by simp at hlen ⊢; omega) (by simp) hkp (by simp)
          rw [hmm, e1, cuOut_append]
          simp [cuOut]
        · have hpre : 0 < pre.length := List.length_pos_iff.2 hne
          have hps : 0 < (cuSrc pre).length := by
            cases pre with
            | nil => exact absurd rfl hne
            | cons i pre =>
              rw [cuSrc_cons]
              have := hk i (by rw [e1]; simp)
              cases i with
              | junk b => simp [CuItem.src]
              | glyph s o => have := List.length_pos_iff.2 this.1; simp [CuItem.src]; omega
          rw [dif_pos (.inl (by rw [e3, e1, cuSrc_append]; simp; omega)), e3, e2]
          rw [ihn 0 (.glyph s o :: p) [] _ (by simp at hlen ⊢; omega) (by simp) hkp (by simp), e1, cuOut_append]
          simp

theorem convertLoop_items {cd : Coder} {tail : List Nat} (ht : Cut cd tail) (t : List CuItem) (hk : ∀ i ∈ t, i.Known cd) :
    convertLoop cd (cuSrc t ++ tail) [] [] = .ok (cuOut t, tail) := by
  simpa using convert_items ht t.length 0 t [] [] (Nat.le_refl _) (by simp) hk (by simp)

/-! ### UTF-8 and UTF-16 -/

theorem toU16_known (c : Nat) (hc : scalar c = true) : (CuItem.glyph (utf8 c) (utf16 c)).Known toU16 := by
  have hc' : c < 55296 ∨ (57344 ≤ c ∧ c < 1114112) := by simpa [scalar] using hc
  refine ⟨by unfold utf8; (repeat' split) <;> simp, by unfold utf16; split <;> simp, fun rest => ?_⟩
  unfold utf8
  split
  · rename_i h
    simp [toU16, h]
  · split
    · rename_i h1 h2
      have a1 : ¬ (192 + c / 64 < 128) := by omega
      have a2 : ¬ (192 + c / 64 < 194) := by omega
      have a3 : 192 + c / 64 < 224 := by omega
      have a4 : follows (128 + c % 64) = true := by simp [follows]; omega
      have a5 : (192 + c / 64 - 192) * 64 + (128 + c % 64 - 128) = c := by omega
      simp only [toU16, List.cons_append, List.nil_append, a1, a2, a3, a4, a5, ↓reduceIte, List.length_cons, List.length_nil]
    · split
      · rename_i h1 h2 h3
        have a1 : ¬ (224 + c / 4096 < 128) := by omega
        have a2 : ¬ (224 + c / 4096 < 194) := by omega
        have a3 : ¬ (224 + c / 4096 < 224) := by omega
        have a3' : 224 + c / 4096 < 240 := by omega
        have a4 : follows (128 + c % 64) = true := by simp [follows]; omega
        have a5 : follows (128 + c / 64 % 64) = true := by simp [follows]; omega
        have a6 : ((224 + c / 4096 - 224) * 64 + (128 + c / 64 % 64 - 128)) * 64 + (128 + c % 64 - 128) = c := by omega
        have a7 : 2048 ≤ c := by omega
        simp only [toU16, List.cons_append, List.nil_append, a1, a2, a3, a3', a4, a5, a6, a7, hc, decide_true, Bool.and_self, ↓reduceIte,
          List.length_cons, List.length_nil]
      · rename_i h1 h2 h3
        have a1 : ¬ (240 + c / 262144 < 128) := by omega
        have a2 : ¬ (240 + c / 262144 < 194) := by omega
        have a3 : ¬ (240 + c / 262144 < 224) := by omega
        have a3' : ¬ (240 + c / 262144 < 240) := by omega
        have a3'' : 240 + c / 262144 < 248 := by omega
        have a4 : follows (128 + c % 64) = true := by simp [follows]; omega
        have a5 : follows (128 + c / 64 % 64) = true := by simp [follows]; omega
        have a5' : follows (128 + c / 4096 % 64) = true := by simp [follows]; omega
        have a6 : (((240 + c / 262144 - 240) * 64 + (128 + c / 4096 % 64 - 128)) * 64 + (128 + c / 64 % 64 - 128)) * 64 + (128 + c % 64 - 128) = c := by
          omega
        have a7 : 65536 ≤ c := by omega
        simp only [toU16, List.cons_append, List.nil_append, a1, a2, a3, a3', a3'', a4, a5, a5', a6, a7, hc, decide_true, Bool.and_self, ↓reduceIte,
          List.length_cons, List.length_nil]

theorem fromU16_known (c : Nat) (hc : scalar c = true) : (CuItem.glyph (utf16 c) (utf8 c)).Known fromU16 := by
  have hc' : c < 55296 ∨ (57344 ≤ c ∧ c < 1114112) := by simpa [scalar] using hc
  refine ⟨by unfold utf16; split <;> simp, by unfold utf8; (repeat' split) <;> simp, fun rest => ?_⟩
  unfold utf16
  split
  · rename_i h
    have a1 : c % 256 + 256 * (c / 256) = c := by omega
    simp only [fromU16, List.cons_append, List.nil_append, a1, hc, ↓reduceIte, List.length_cons, List.length_nil]
  · rename_i h
    have hm : (c - 65536) / 1024 < 1024 := by omega
    have hm2 : (c - 65536) % 1024 < 1024 := by omega
    generalize hq : (c - 65536) / 1024 = q at hm
    generalize hr : (c - 65536) % 1024 = r at hm2
    have a1 : (55296 + q) % 256 + 256 * ((55296 + q) / 256) = 55296 + q := by omega
    have a2 : (56320 + r) % 256 + 256 * ((56320 + r) / 256) = 56320 + r := by omega
    have a3 : scalar (55296 + q) = false := by simp [scalar]; omega
    have a4 : 55296 + q < 56320 := by omega
    have a5 : (decide (56320 ≤ 56320 + r) && decide (56320 + r < 57344)) = true := by simp; omega
    have a6 : 65536 + (55296 + q - 55296) * 1024 + (56320 + r - 56320) = c := by omega
    simp only [fromU16, List.cons_append, List.nil_append, a1, a2, a3, a4, a5, a6, Bool.false_eq_true, ↓reduceIte,
      List.length_cons, List.length_nil]

end PBat.Spec
