import Verif.Lemmas.Tea
/-
C87: the lines of the program TEA.
-/
namespace PBat
open Spec

theorem takeWhile_whole {s : List Char} (hs : ∀ c ∈ s, WordChar c) : s.takeWhile teaWordChar = s := by
  induction s with
  | nil => rfl
  | cons c s ih =>
    have := hs c (by simp)
    rw [List.takeWhile_cons_of_pos (by simp [teaWordChar, this.1, this.2]), ih fun d hd => hs d (by simp [hd])]

theorem wordLen_ge {s : List Char} (hs : ∀ c ∈ s, WordChar c) (rest : List (List Char)) : s.length ≤ teaWordLenT s rest := by
  induction rest with
  | nil => rw [teaWordLenT, takeWhile_whole hs]; exact Nat.le_refl _
  | cons r rs ih =>
    rw [teaWordLenT, if_pos (by rw [takeWhile_whole hs])]
    split
    · exact ih
    · omega

/-- A word that is not shorter than the line fills it. -/
theorem long_word {width margin firstLine : Nat} (st : TeaState) (s : List Char) (hn : st.noMargin = false)
    (h0 : 0 < width - (if st.first = true then firstLine else margin)) (hl : width - (if st.first = true then firstLine else margin) ≤ s.length) (hs : ∀ c ∈ s, WordChar c)
    (hk : ∀ st', TeaState.noMargin st' = false → TeaState.first st' = false →
      teaNodeLoop margin firstLine width st' (s.drop (width - (if st.first = true then firstLine else margin))) [] = .ub) :
    teaNodeLoop margin firstLine width st s [] = .ub := by
  rw [teaNodeLoop]
  generalize hm : (if st.first = true then firstLine else margin) = m at *
  have hnl : s.head? ≠ some '\n' := by
    intro h
    cases s with
    | nil => cases h
    | cons c s => cases h; exact absurd (hs '\n' (by simp)) (by decide)
  have e : teaStart margin firstLine width st s = ((if st.first then [] else ['\n']) ++ List.replicate m ' ', s, ⟨false, false, width - m, width - m⟩) := by
    unfold teaStart
    rw [if_neg (by simp [hn]), hm, if_neg hnl]
  have e2 : teaLine [] s (width - m) = ([], some s, width - m) := by
    cases s with
    | nil => simp at hl; omega
    | cons c s => rw [teaLine, if_pos (Nat.le_trans hl (wordLen_ge hs []))]
  have e3 : (s.drop (width - m)).dropWhile (· == ' ') = s.drop (width - m) := by
    cases hd : s.drop (width - m) with
    | nil => rfl
    | cons c t =>
      have hm : c ∈ s.drop (width - m) := by rw [hd]; simp
      have := hs c (List.mem_of_mem_drop hm)
      rw [List.dropWhile_cons_of_neg (by simp [this.1])]
  simp only [e, e2, if_true]
  rw [if_neg (by omega), dif_pos (by rw [List.length_drop]; omega), e3, hk _ rfl rfl]
  rfl

/-- Titles and code are laid out if no word is as long as a line.  Partial: `C87_forever`. -/
theorem C87_static_partial {width margin nl : Nat} (hnl : nl ≤ margin) (hmw : margin < width) (s : List Char) (hj : joint ∉ s) (hs : ShortWords (width - nl) s) :
    ∃ o, teaStatic margin nl width s = .ok (some o) ∧ StaticLaid width margin nl margin (lessNl s) o := by
  obtain ⟨o, h1, h2⟩ := static_loop hnl hmw true s hj hs
  refine ⟨o, ?_, by simpa [lessNl] using h2⟩
  unfold teaStatic
  rw [if_neg (by omega), h1]
  rfl

/-- VIOLATION: with a word as long as a line, wherever it is, the program writes empty lines for ever. -/
theorem C87_forever {width margin nl : Nat} (hnl : nl ≤ margin) (hmw : margin < width) (a u b : List Char) (hu : ∀ c ∈ u, WordChar c) (hl : width - nl ≤ u.length) :
    teaStatic margin nl width (a ++ u ++ b) = .hang := by
  unfold teaStatic
  rw [if_neg (by omega), static_hang hnl hmw true _ fun h => by have := h a u b rfl hu; omega]
  rfl

/-- Paragraphs are laid out if no word, with one more for each place in it where parts meet, is as long as a line.  Partial: `C87_exact_word`, `C87_long_word`. -/
theorem C87_paragraph_partial {width margin firstLine : Nat} (hfl : firstLine ≤ margin) (hmw : margin < width) (s : List Char) (cs : List (List Char))
    (hc : Parts (s :: cs)) (hsw : ShortWords (width - margin) (joined (s :: cs))) :
    ∃ out, teaPar margin firstLine width (s :: cs) = .ok (some out) ∧ Wrapped width margin firstLine (joined (s :: cs)) out :=
  par_laid hfl hmw s cs hc hsw

/-- VIOLATION: a paragraph of one word, cut in lines, makes the program read through a null pointer when it ends exactly at the end of a line. -/
theorem C87_exact_word {width margin firstLine : Nat} (hfl : firstLine ≤ margin) (hmw : margin < width) (s : List Char) (hs : ∀ c ∈ s, WordChar c)
    (k : Nat) (hl : s.length = (width - firstLine) + k * (width - margin)) : teaPar margin firstLine width [s] = .ub := by
  have key : ∀ (k : Nat) (st : TeaState) (s : List Char), st.noMargin = false → st.first = false → (∀ c ∈ s, WordChar c) → s.length = k * (width - margin) →
      teaNodeLoop margin firstLine width st s [] = .ub := by
    intro k
    induction k with
    | zero =>
      intro st s h1 h2 _ h3
      have : s = [] := List.eq_nil_of_length_eq_zero (by omega)
      subst this
      rw [teaNodeLoop]
      simp [teaStart, h1, h2, teaLine]
    | succ k ih =>
      intro st s h1 h2 h3 h4
      exact long_word st s h1 (by rw [if_neg (by simp [h2])]; omega) (by rw [if_neg (by simp [h2]), h4, Nat.succ_mul]; omega) h3 fun st' h5 h6 =>
        ih st' _ h5 h6 (fun c hc => h3 c (List.mem_of_mem_drop hc)) (by rw [List.length_drop, if_neg (by simp [h2]), h4, Nat.succ_mul]; omega)
  have h0 := long_word (margin := margin) (firstLine := firstLine) (width := width) ⟨true, false, 0, 0⟩ s rfl (by rw [if_pos rfl]; omega) (by rw [if_pos rfl]; omega) hs fun st' h5 h6 =>
    key k st' _ h5 h6 (fun c hc => hs c (List.mem_of_mem_drop hc)) (by rw [List.length_drop, if_pos rfl]; omega)
  unfold teaPar
  rw [if_neg (by omega), teaParLoop, h0]
  rfl

/-- VIOLATION: a word in two parts, of which the first is shorter than the line and both together are not, makes the program read beyond the end of the first. -/
theorem C87_long_word {width margin firstLine : Nat} (hfl : firstLine ≤ margin) (hmw : margin < width) (a b : List Char) (cs : List (List Char))
    (ha : ∀ c ∈ a, WordChar c) (ha0 : a ≠ []) (hb : ∀ c ∈ b, WordChar c) (hb0 : b ≠ []) (h1 : a.length < width - firstLine) (h2 : width - firstLine ≤ a.length + 1 + b.length) :
    teaPar margin firstLine width (a :: b :: cs) = .ub := by
  have hw : width - firstLine ≤ teaWordLenT a (b :: cs) := by
    rw [teaWordLenT, if_pos (by rw [takeWhile_whole ha]), if_neg hb0]
    have : b.length ≤ teaWordLenT b cs := wordLen_ge hb cs
    omega
  have h0 : teaNodeLoop margin firstLine width ⟨true, false, 0, 0⟩ a (b :: cs) = .ub := by
    rw [teaNodeLoop]
    have e : teaStart margin firstLine width ⟨true, false, 0, 0⟩ a = (List.replicate firstLine ' ', a, ⟨false, false, width - firstLine, width - firstLine⟩) := by
      unfold teaStart
      rw [if_neg (by simp), if_pos rfl, if_pos rfl, if_neg (by intro h; cases a with | nil => cases h | cons c a => cases h; exact absurd (ha '\n' (by simp)) (by decide))]
      rfl
    have e2 : teaLine (b :: cs) a (width - firstLine) = ([], some a, width - firstLine) := by
      cases a with
      | nil => exact absurd rfl ha0
      | cons c a => rw [teaLine, if_pos hw]
    simp only [e, e2, if_pos h1, if_true]
  unfold teaPar
  rw [if_neg (by omega), teaParLoop, h0]
  rfl

/-- VIOLATION: what is in a list of too many levels ends the program. -/
theorem C87_levels (b : TeaBlock) (ns : List TeaNode) (bs : List (TeaBlock × List TeaNode)) (h : (b.kind = .par ∧ 19 ≤ b.level) ∨ (b.kind = .code ∧ 18 ≤ b.level)) :
    teaText ((b, ns) :: bs) = .ok none := by
  have h1 : teaBlockText (b, ns) = .ok none := by
    unfold teaBlockText
    rcases h with ⟨h1, h2⟩ | ⟨h1, h2⟩
    · simp only [h1]
      unfold teaPar
      rw [if_pos (by omega)]
    · simp only [h1]
      unfold teaStatic
      rw [if_pos (by omega)]
  rw [teaText, h1]
  rfl

/-! ### What being laid out means -/

/-- No line is longer than the width. -/
def LinesFit (width : Nat) (out : List Char) : Prop := ∀ a l b, out = a ++ l ++ b → '\n' ∉ l → l.length ≤ width

/-- The characters of words. -/
def letters (t : List Char) : List Char := t.filter fun c => decide (WordChar c)

theorem linesFit_length {width : Nat} {out : List Char} (h : out.length ≤ width) : LinesFit width out := by
  intro a l b e _
  have : out.length = a.length + l.length + b.length := by rw [e]; simp; omega
  omega

theorem nl_split {x y a u b : List Char} (h : x ++ '\n' :: y = a ++ u ++ b) (hu : '\n' ∉ u) : (∃ b', x = a ++ u ++ b') ∨ (∃ a', y = a' ++ u ++ b) := by
  rw [List.append_assoc, List.append_eq_append_iff] at h
  rcases h with ⟨a', rfl, h2⟩ | ⟨c', rfl, h2⟩
  · cases a' with
    | nil =>
      cases u with
      | nil => exact .inl ⟨[], by simp⟩
      | cons e u =>
        have h3 : '\n' :: y = e :: (u ++ b) := by simpa using h2
        injection h3 with h4 h5
        exact absurd (by rw [h4]; simp) hu
    | cons e a' =>
      have h3 : '\n' :: y = e :: (a' ++ (u ++ b)) := by simpa using h2
      injection h3 with h4 h5
      exact .inr ⟨a', by rw [h5, List.append_assoc]⟩
  · rw [List.append_eq_append_iff] at h2
    rcases h2 with ⟨a', rfl, h3⟩ | ⟨c'', rfl, h3⟩
    · exact .inl ⟨a', by simp⟩
    · cases c'' with
      | nil => exact .inl ⟨[], by simp⟩
      | cons e c'' =>
        have h4 : '\n' :: y = e :: (c'' ++ b) := by simpa using h3
        injection h4 with h5 h6
        exact absurd (by rw [h5]; simp) hu

theorem linesFit_append {width : Nat} {x y : List Char} (hx : LinesFit width x) (hy : LinesFit width y) : LinesFit width (x ++ '\n' :: y) := by
  intro a u b h hu
  rcases nl_split h hu with ⟨b', h1⟩ | ⟨a', h1⟩
  · exact hx a u b' h1 hu
  · exact hy a' u b h1 hu

theorem letters_append (a b : List Char) : letters (a ++ b) = letters a ++ letters b := by simp [letters]

theorem letters_blanks (n : Nat) : letters (List.replicate n ' ') = [] := by
  unfold letters
  rw [List.filter_eq_nil_iff]
  intro c hc
  rw [List.eq_of_mem_replicate hc]
  decide

theorem letters_nl (t : List Char) : letters ('\n' :: t) = letters t := rfl

/-- Every line fits, and every character of every word is shown, in order. -/
theorem C87_wrapped {width nl m : Nat} {t o : List Char} (h : Wrapped width nl m t o) : LinesFit width o ∧ letters o = letters (seen t) := by
  induction h with
  | last h => exact ⟨linesFit_length (by simpa using h), by rw [letters_append, letters_blanks, List.nil_append]⟩
  | @cut m l rest out h1 h2 h3 _ ih =>
    refine ⟨linesFit_append (linesFit_length (by simpa using h1)) ih.1, ?_⟩
    rw [letters_append, letters_append, letters_blanks, List.nil_append, letters_nl, ih.2, seen_append, letters_append]

theorem C87_static_laid {width margin nl m : Nat} {t o : List Char} (h : StaticLaid width margin nl m t o) : LinesFit width o ∧ letters o = letters (seen t) := by
  induction h with
  | one _ h => exact C87_wrapped h
  | @more m t o ts os _ h2 _ ih =>
    obtain ⟨h3, h4⟩ := C87_wrapped h2
    refine ⟨linesFit_append h3 ih.1, ?_⟩
    have e : seen (t ++ '\n' :: ts) = seen t ++ '\n' :: seen ts := by
      rw [seen_append]
      rfl
    rw [letters_append, letters_nl, h4, ih.2, e, letters_append, letters_nl]

/-! ### Pages -/

/-- The block of a page. -/
def docOf (b : TeaBlock × List TeaNode) : DocBlock :=
  match b.1.kind with
  | .heading => .heading b.1.content
  | .code => .code b.1.level b.1.content
  | .par => .par b.1.level (!b.1.noMark) (b.2.map TeaNode.content)

/-- A block that can be shown. -/
inductive Showable : DocBlock → Prop
  | heading {t} : joint ∉ t → ShortWords 79 t → Showable (.heading t)
  | code {l t} : l ≤ 17 → joint ∉ t → ShortWords (73 - 4 * l) t → Showable (.code l t)
  | par {l mark parts} : l ≤ 18 → parts ≠ [] → Parts parts → ShortWords (75 - 4 * l) (joined parts) → Showable (.par l mark parts)

theorem upper_eq {c d : Char} (hd : d.toNat < 65) : c.toUpper = d ↔ c = d := by
  unfold Char.toUpper
  split
  · rename_i h
    have h1 : 97 ≤ c.toNat ∧ c.toNat ≤ 122 := ⟨UInt32.le_iff_toNat_le.1 h.1, UInt32.le_iff_toNat_le.1 h.2⟩
    constructor
    · intro e
      have : d.toNat = c.toNat - 32 := by
        rw [← e]
        show (c.val + ('A'.val - 'a'.val)).toNat = _
        rw [UInt32.toNat_add]
        have h2 : c.val.toNat = c.toNat := rfl
        have h3 : ('A'.val - 'a'.val).toNat = 4294967264 := by decide
        rw [h2, h3]
        omega
      omega
    · rintro rfl
      omega
  · exact Iff.rfl

theorem word_upper (c : Char) : WordChar c.toUpper ↔ WordChar c := by
  unfold WordChar
  rw [Ne, Ne, Ne, Ne, upper_eq (by decide), upper_eq (by decide)]

theorem joint_upper {t : List Char} (h : joint ∉ t) : joint ∉ t.map Char.toUpper := by
  intro h1
  obtain ⟨c, hc, e⟩ := List.mem_map.1 h1
  rw [upper_eq (by decide)] at e
  exact h (e ▸ hc)

theorem short_upper {n : Nat} {t : List Char} (h : ShortWords n t) : ShortWords n (t.map Char.toUpper) := by
  intro a u b e hu
  rw [List.map_eq_append_iff] at e
  obtain ⟨x, b', rfl, e, rfl⟩ := e
  rw [List.map_eq_append_iff] at e
  obtain ⟨a', u', rfl, rfl, rfl⟩ := e
  rw [List.length_map]
  exact h a' u' b' rfl fun c hc => (word_upper c).1 (hu _ (List.mem_map_of_mem hc))

/-- A page is shown block by block.  Partial: words as long as a line (`C87_forever`, `C87_exact_word`), and levels from 18 or 19 on, for which the program ends. -/
theorem C87_page_partial (bs : List (TeaBlock × List TeaNode)) (h : ∀ b ∈ bs, Showable (docOf b)) :
    ∃ out, teaText bs = .ok (some out) ∧ PageLaid (bs.map docOf) out := by
  induction bs with
  | nil => exact ⟨[], rfl, .nil⟩
  | cons b bs ih =>
    obtain ⟨os, h1, h2⟩ := ih fun x hx => h x (by simp [hx])
    have hb : ∃ o, teaBlockText b = .ok (some o) ∧ BlockLaid (docOf b) o := by
      have hs := h b (by simp)
      unfold teaBlockText
      unfold docOf at hs ⊢
      cases hk : b.1.kind with
      | heading =>
        rw [hk] at hs
        simp only at hs ⊢
        cases hs with
        | heading g1 g2 =>
          obtain ⟨o, h3, h4⟩ := C87_static_partial (width := 79) (margin := 0) (nl := 0) (Nat.le_refl _) (by decide) (b.1.content.map Char.toUpper) (joint_upper g1) (short_upper g2)
          exact ⟨o, h3, .heading h4⟩
      | code =>
        rw [hk] at hs
        simp only at hs ⊢
        cases hs with
        | code g1 g2 g3 =>
          obtain ⟨o, h3, h4⟩ := C87_static_partial (width := 79) (margin := 8 + 4 * b.1.level) (nl := 6 + 4 * b.1.level) (by omega) (by omega) b.1.content g2
            (by rw [show 79 - (6 + 4 * b.1.level) = 73 - 4 * b.1.level by omega]; exact g3)
          exact ⟨o, h3, .code h4⟩
      | par =>
        rw [hk] at hs
        simp only at hs ⊢
        cases hs with
        | par g1 g2 g3 g4 =>
          cases hp : b.2.map TeaNode.content with
          | nil => exact absurd hp g2
          | cons s cs =>
            rw [hp] at g3 g4
            obtain ⟨o, h3, h4⟩ := C87_paragraph_partial (width := 79) (margin := 4 * (b.1.level + 1))
              (firstLine := 4 * (b.1.level + 1) - (if b.1.level ≠ 0 ∧ b.1.noMark = false then 2 else 0)) (by omega) (by omega) s cs g3
              (by rw [show 79 - 4 * (b.1.level + 1) = 75 - 4 * b.1.level by omega]; exact g4)
            refine ⟨o, h3, .par ?_⟩
            have e : (if b.1.level ≠ 0 ∧ (!b.1.noMark) = true then 2 else 0) = (if b.1.level ≠ 0 ∧ b.1.noMark = false then 2 else 0) := by
              cases b.1.noMark <;> simp
            rw [e]
            exact h4
    obtain ⟨o, h3, h4⟩ := hb
    refine ⟨o ++ '\n' :: '\n' :: os, ?_, .cons h4 h2⟩
    rw [teaText, h3, Res.ok_bind]
    simp only [h1, Res.ok_bind, Option.map_some]
    simp

/-! ### Examples -/

/-- Words are short if the pieces between blanks are. -/
def shortB (n : Nat) (k : Nat) : List Char → Bool
  | [] => decide (k < n)
  | c :: t => if WordChar c then shortB n (k + 1) t else decide (k < n) && shortB n 0 t

theorem shortB_short {n k : Nat} {t : List Char} (h : shortB n k t = true) :
    (∀ u b, t = u ++ b → (∀ c ∈ u, WordChar c) → k + u.length < n) ∧ ShortWords n t := by
  induction t generalizing k with
  | nil =>
    have h1 : k < n := by simpa [shortB] using h
    refine ⟨fun u b e _ => ?_, fun a u b e _ => ?_⟩
    · obtain ⟨rfl, _⟩ := List.append_eq_nil_iff.1 e.symm
      simpa using h1
    · have : u = [] := by simp at e; exact e.2.1
      subst this
      simp; omega
  | cons c t ih =>
    rw [shortB] at h
    split at h
    · rename_i hc
      obtain ⟨h1, h2⟩ := ih h
      refine ⟨fun u b e hu => ?_, fun a u b e hu => ?_⟩
      · cases u with
        | nil => have := h1 [] t rfl (by simp); simp at this ⊢; omega
        | cons d u =>
          injection e with e1 e2
          have := h1 u b e2 fun x hx => hu x (by simp [hx])
          simp; omega
      · cases a with
        | nil =>
          cases u with
          | nil => have := h1 [] t rfl (by simp); simp at this ⊢; omega
          | cons d u =>
            injection e with e1 e2
            have := h1 u b e2 fun x hx => hu x (by simp [hx])
            simp; omega
        | cons d a =>
          injection e with e1 e2
          exact h2 a u b e2 hu
    · rename_i hc
      simp only [Bool.and_eq_true, decide_eq_true_eq] at h
      obtain ⟨h1, h2⟩ := ih h.2
      refine ⟨fun u b e hu => ?_, fun a u b e hu => ?_⟩
      · cases u with
        | nil => simpa using h.1
        | cons d u =>
          injection e with e1 e2
          exact absurd (e1 ▸ hu d (by simp)) hc
      · cases a with
        | nil =>
          cases u with
          | nil => simp; omega
          | cons d u =>
            injection e with e1 e2
            exact absurd (e1 ▸ hu d (by simp)) hc
        | cons d a =>
          injection e with e1 e2
          exact h2 a u b e2 hu

/-- A page with a title, a paragraph in three parts, an item of a list and code in it. -/
def samplePage : List (TeaBlock × List TeaNode) :=
  [(⟨.heading, 0, false, "Copy files".toList⟩, []),
   (⟨.par, 0, false, []⟩, [⟨.plain, "The command ".toList, []⟩, ⟨.emph, "_copy_".toList, []⟩, ⟨.plain, " makes copies of files, and asks before it replaces a file that is there already.".toList, []⟩]),
   (⟨.par, 1, false, []⟩, [⟨.plain, "- With /Y it does not ask.".toList, []⟩]),
   (⟨.code, 1, false, "\ncopy /Y a.txt b.txt\ncopy a.txt b.txt".toList⟩, [])]

example : ∀ b ∈ samplePage, Showable (docOf b) := by
  intro b hb
  simp only [samplePage, List.mem_cons, List.not_mem_nil, or_false] at hb
  rcases hb with rfl | rfl | rfl | rfl
  · exact .heading (by decide +kernel) (shortB_short (k := 0) (by decide +kernel)).2
  · exact .par (by decide) (by decide) ⟨by decide +kernel, by decide +kernel, by decide +kernel⟩ (shortB_short (k := 0) (by decide +kernel)).2
  · exact .par (by decide) (by decide) ⟨by decide +kernel, by decide +kernel, by decide +kernel⟩ (shortB_short (k := 0) (by decide +kernel)).2
  · exact .code (by decide) (by decide +kernel) (shortB_short (k := 0) (by decide +kernel)).2

example : joint ∉ "two words".toList ∧ ShortWords (79 - 6) "two words".toList := ⟨by decide +kernel, (shortB_short (k := 0) (by decide +kernel)).2⟩

example : teaPar 4 4 79 [List.replicate 75 'x'] = .ub := C87_exact_word (by decide) (by decide) _ (fun c hc => by rw [List.eq_of_mem_replicate hc]; decide) 0 (by rw [List.length_replicate])

example : teaPar 4 4 79 [List.replicate 40 'x', List.replicate 40 'y'] = .ub :=
  C87_long_word (by decide) (by decide) _ _ _ (fun c hc => by rw [List.eq_of_mem_replicate hc]; decide) (by decide) (fun c hc => by rw [List.eq_of_mem_replicate hc]; decide) (by decide) (by decide) (by decide)

example : teaBlockText (⟨.heading, 0, false, List.replicate 79 'x'⟩, []) = .hang := by
  have := C87_forever (width := 79) (margin := 0) (nl := 0) (by decide) (by decide) [] (List.replicate 79 'X') [] (fun c hc => by rw [List.eq_of_mem_replicate hc]; decide) (by decide)
  simpa [teaBlockText] using this

end PBat
