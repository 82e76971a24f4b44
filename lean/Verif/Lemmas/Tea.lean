import Verif.Model.Tea
import Verif.Spec.Tea
namespace PBat
open Spec

theorem teaWordChar_iff (c : Char) : teaWordChar c = true ↔ WordChar c := by simp [teaWordChar, WordChar]

theorem teaWordChar_eq : teaWordChar = fun c => decide (WordChar c) := by
  funext c
  rw [Bool.eq_iff_iff, teaWordChar_iff]
  simp

theorem firstWord_eq (t : List Char) : firstWord t = (t.takeWhile teaWordChar).length := by rw [firstWord, teaWordChar_eq]

theorem teaWord_fit {s : List Char} {left : Nat} (h : (s.takeWhile teaWordChar).length ≤ left) :
    teaWord s left = (s.takeWhile teaWordChar, s.dropWhile teaWordChar, left - (s.takeWhile teaWordChar).length) := by
  induction s generalizing left with
  | nil => cases left <;> rfl
  | cons c s ih =>
    by_cases hc : teaWordChar c = true
    · rw [List.takeWhile_cons_of_pos hc] at h ⊢
      rw [List.dropWhile_cons_of_pos hc]
      cases left with
      | zero => simp at h
      | succ left =>
        rw [teaWord, if_pos hc, ih (by simpa using h)]
        simp
    · rw [List.takeWhile_cons_of_neg hc, List.dropWhile_cons_of_neg hc]
      cases left with
      | zero => rfl
      | succ left => rw [teaWord, if_neg hc]; rfl

/-- What comes after a part. -/
def tailJoined (rest : List (List Char)) : List Char := (rest.map (joint :: ·)).flatten

theorem joined_cons (s : List Char) (rest : List (List Char)) : joined (s :: rest) = s ++ tailJoined rest := by
  induction rest generalizing s with
  | nil => simp [joined, tailJoined, List.intercalate]
  | cons r rs ih =>
    have : joined (s :: r :: rs) = s ++ joint :: joined (r :: rs) := by simp [joined, List.intercalate]
    rw [this, ih r]
    simp [tailJoined]

theorem takeWhile_full {p : Char → Bool} {s : List Char} (h : (s.takeWhile p).length = s.length) : s.takeWhile p = s :=
  List.IsPrefix.eq_of_length (List.takeWhile_prefix p) h

theorem takeWhile_append_all {p : Char → Bool} {s t : List Char} (h : s.takeWhile p = s) : (s ++ t).takeWhile p = s ++ t.takeWhile p := by
  induction s with
  | nil => rfl
  | cons c s ih =>
    by_cases hc : p c = true
    · rw [List.takeWhile_cons_of_pos hc] at h
      rw [List.cons_append, List.takeWhile_cons_of_pos hc, ih (by injection h), List.cons_append]
    · rw [List.takeWhile_cons_of_neg hc] at h; cases h

theorem takeWhile_append_some {p : Char → Bool} {s t : List Char} (h : s.takeWhile p ≠ s) : (s ++ t).takeWhile p = s.takeWhile p := by
  induction s with
  | nil => exact absurd rfl h
  | cons c s ih =>
    by_cases hc : p c = true
    · rw [List.takeWhile_cons_of_pos hc] at h
      rw [List.cons_append, List.takeWhile_cons_of_pos hc, List.takeWhile_cons_of_pos hc, ih (fun e => h (by rw [e]))]
    · rw [List.cons_append, List.takeWhile_cons_of_neg hc, List.takeWhile_cons_of_neg hc]

theorem wordLenT_eq (s : List Char) (rest : List (List Char)) (hr : ∀ r ∈ rest, r ≠ []) : teaWordLenT s rest = firstWord (s ++ tailJoined rest) := by
  rw [firstWord_eq]
  induction rest generalizing s with
  | nil => simp [teaWordLenT, tailJoined]
  | cons r rs ih =>
    rw [teaWordLenT]
    split
    · next h =>
      have h' := takeWhile_full h
      rw [if_neg (hr r (by simp)), ih r (fun x hx => hr x (by simp [hx])), takeWhile_append_all h']
      have hj : teaWordChar joint = true := by decide
      show _ = (s ++ (joint :: (r ++ tailJoined rs)).takeWhile teaWordChar).length
      rw [List.takeWhile_cons_of_pos hj]
      simp; omega
    · next h => rw [takeWhile_append_some (fun e => h (by rw [e]))]

theorem wordLenT_ge (s : List Char) (rest : List (List Char)) : (s.takeWhile teaWordChar).length ≤ teaWordLenT s rest := by
  induction rest generalizing s with
  | nil => exact Nat.le_refl _
  | cons r rs ih =>
    rw [teaWordLenT]
    split
    · next h =>
      split
      · exact ih s
      · omega
    · exact Nat.le_refl _

theorem wordLenT_all {s : List Char} {rest : List (List Char)} (h : s.takeWhile teaWordChar = s) (hr : ∀ r ∈ rest, r ≠ []) :
    teaWordLenT s rest = s.length + teaWordLenT [] rest := by
  rw [wordLenT_eq s rest hr, wordLenT_eq [] rest hr, firstWord_eq, firstWord_eq, takeWhile_append_all h]
  simp

/-- A stretch of a text with a blank is before it or after it. -/
theorem stretch_split {x y a u b : List Char} {d : Char} (hd : ¬ WordChar d) (h : x ++ d :: y = a ++ u ++ b) (hu : ∀ c ∈ u, WordChar c) :
    (∃ b', x = a ++ u ++ b') ∨ (∃ a', y = a' ++ u ++ b) := by
  rw [List.append_assoc, List.append_eq_append_iff] at h
  rcases h with ⟨a', rfl, h2⟩ | ⟨c', rfl, h2⟩
  · -- a = x ++ a'
    cases a' with
    | nil =>
      cases u with
      | nil => exact .inl ⟨[], by simp⟩
      | cons e u =>
        have h3 : d :: y = e :: (u ++ b) := by simpa using h2
        injection h3 with h4 h5
        exact absurd (hu e (by simp)) (h4 ▸ hd)
    | cons e a' =>
      have h3 : d :: y = e :: (a' ++ (u ++ b)) := by simpa using h2
      injection h3 with h4 h5
      exact .inr ⟨a', by rw [h5, List.append_assoc]⟩
  · -- x = a ++ c', u ++ b = c' ++ d :: y
    rw [List.append_eq_append_iff] at h2
    rcases h2 with ⟨a', rfl, h3⟩ | ⟨c'', rfl, h3⟩
    · exact .inl ⟨a', by simp⟩
    · cases c'' with
      | nil => exact .inl ⟨[], by simp⟩
      | cons e c'' =>
        have h4 : d :: y = e :: (c'' ++ b) := by simpa using h3
        injection h4 with h5 h6
        exact absurd (hu e (by simp)) (h5 ▸ hd)

theorem shortWords_append {n : Nat} {x y : List Char} {d : Char} (hd : ¬ WordChar d) (hx : ShortWords n x) (hy : ShortWords n y) : ShortWords n (x ++ d :: y) := by
  intro a u b h hu
  rcases stretch_split hd h hu with ⟨b', h1⟩ | ⟨a', h1⟩
  · exact hx a u b' h1 hu
  · exact hy a' u b h1 hu

theorem shortWords_mono {n k : Nat} {x : List Char} (h : ShortWords n x) (hk : n ≤ k) : ShortWords k x :=
  fun a u b e hu => Nat.lt_of_lt_of_le (h a u b e hu) hk

theorem shortWords_length {n : Nat} {x : List Char} (h : x.length < n) : ShortWords n x := by
  intro a u b e _
  have : x.length = a.length + u.length + b.length := by rw [e]; simp; omega
  omega

/-- What a line does: its text is written, and either everything is, or what is left begins with the end of a line or with a word that does not fit. -/
structure LineSpec (rest : List (List Char)) (s : List Char) (left : Nat) (r : List Char × Option (List Char) × Nat) : Prop where
  room : r.2.2 + r.1.length = left
  text : s = r.1 ++ r.2.1.getD []
  noNl : '\n' ∉ r.1
  short : r.1 ≠ [] → ShortWords left r.1
  whole : r.2.1 = none → s = [] ∨ s.getLast? = some ' ' ∨ teaWordLenT [] rest < r.2.2
  stop : ∀ t, r.2.1 = some t → t ≠ [] ∧ (t.head? = some '\n' ∨ ((r.1 = [] ∨ r.1.getLast? = some ' ') ∧ r.2.2 ≤ teaWordLenT t rest))

theorem dropWhile_head {p : Char → Bool} {s : List Char} {d : Char} {t : List Char} (h : s.dropWhile p = d :: t) : p d = false := by
  induction s with
  | nil => cases h
  | cons c s ih =>
    by_cases hc : p c = true
    · rw [List.dropWhile_cons_of_pos hc] at h; exact ih h
    · rw [List.dropWhile_cons_of_neg hc] at h
      injection h with h1 h2
      subst h1
      simpa using hc

theorem takeWhile_teaWord (s : List Char) : ∀ c ∈ s.takeWhile teaWordChar, WordChar c := by
  intro c hc
  exact (teaWordChar_iff c).1 (by
    induction s with
    | nil => cases hc
    | cons d s ih =>
      by_cases hd : teaWordChar d = true
      · rw [List.takeWhile_cons_of_pos hd] at hc
        rcases List.mem_cons.1 hc with rfl | hc
        · exact hd
        · exact ih hc
      · rw [List.takeWhile_cons_of_neg hd] at hc; cases hc)

theorem shortWords_nil {n : Nat} (h : 0 < n) : ShortWords n [] := shortWords_length (by simpa)

theorem lineSpec (rest : List (List Char)) (hr : ∀ r ∈ rest, r ≠ []) (s : List Char) (left : Nat) : LineSpec rest s left (teaLine rest s left) := by
  fun_induction teaLine rest s left with
  | case1 left => exact ⟨rfl, rfl, by simp, fun h => absurd rfl h, fun _ => .inl rfl, fun t h => by cases h⟩
  | case2 left c s h => exact ⟨rfl, rfl, by simp, fun h => absurd rfl h, fun h => (by cases h), fun t h' => by cases h'; exact ⟨by simp, .inr ⟨.inl rfl, h⟩⟩⟩
  | case3 left c s h w left' hw =>
    have hlt : ((c :: s).takeWhile teaWordChar).length < left := Nat.lt_of_le_of_lt (wordLenT_ge _ rest) (by omega)
    rw [teaWord_fit (Nat.le_of_lt hlt)] at hw
    injection hw with hw1 hw2
    injection hw2 with hw2 hw3
    have hall : (c :: s).takeWhile teaWordChar = c :: s := by
      have := List.takeWhile_append_dropWhile (p := teaWordChar) (l := c :: s)
      rw [hw2, List.append_nil] at this
      exact this
    have hwl := wordLenT_all hall hr
    rw [hall] at hw1 hw3 hlt
    subst hw1
    refine ⟨by simp only; omega, by simp, ?_, fun _ => shortWords_length hlt, fun _ => .inr (.inr ?_), fun t h => by cases h⟩
    · intro hm
      have := takeWhile_teaWord (c :: s) '\n' (by rw [hall]; exact hm)
      exact this.2 rfl
    · simp only; omega
  | case4 left c s h w t left' hw =>
    have hlt : ((c :: s).takeWhile teaWordChar).length < left := Nat.lt_of_le_of_lt (wordLenT_ge _ rest) (by omega)
    rw [teaWord_fit (Nat.le_of_lt hlt)] at hw
    injection hw with hw1 hw2
    injection hw2 with hw2 hw3
    have happ := List.takeWhile_append_dropWhile (p := teaWordChar) (l := c :: s)
    have hwd := takeWhile_teaWord (c :: s)
    rw [hw1] at hlt hw3 happ hwd
    rw [hw2] at happ
    exact ⟨by simp only; omega, by simpa using happ.symm, fun hm => (hwd _ hm).2 rfl, fun _ => shortWords_length hlt, fun h => (by cases h),
      fun u hu => by cases hu; exact ⟨by simp, .inl rfl⟩⟩
  | case5 left c s h w d t left' hw hd h1 r ih =>
    have hlt : ((c :: s).takeWhile teaWordChar).length < left := Nat.lt_of_le_of_lt (wordLenT_ge _ rest) (by omega)
    rw [teaWord_fit (Nat.le_of_lt hlt)] at hw
    injection hw with hw1 hw2
    injection hw2 with hw2 hw3
    have happ := List.takeWhile_append_dropWhile (p := teaWordChar) (l := c :: s)
    have hwd := takeWhile_teaWord (c :: s)
    have hd2 := dropWhile_head hw2
    have hdb : d = ' ' := by
      simp [teaWordChar] at hd2
      by_cases hx : d = ' '
      · exact hx
      · exact absurd (hd2 hx) hd
    subst hdb
    rw [hw1] at hlt hw3 happ hwd
    rw [hw2] at happ
    obtain ⟨i1, i2, i3, i4, i5, i6⟩ := ih
    refine ⟨?_, ?_, ?_, ?_, ?_, ?_⟩
    · have e : r.2.2 + r.1.length = left' - 1 := i1
      show r.2.2 + (w ++ ' ' :: r.1).length = left
      rw [List.length_append, List.length_cons]
      omega
    · show c :: s = (w ++ ' ' :: r.1) ++ r.2.1.getD []
      rw [← happ, List.append_assoc, List.cons_append, ← i2]
    · intro hm
      rcases List.mem_append.1 hm with hm | hm
      · exact (hwd _ hm).2 rfl
      · rcases List.mem_cons.1 hm with hm | hm
        · cases hm
        · exact i3 hm
    · intro _
      refine shortWords_append (by decide) (shortWords_length hlt) ?_
      by_cases hr1 : r.1 = []
      · rw [hr1]; exact shortWords_nil (by omega)
      · exact shortWords_mono (i4 hr1) (by omega)
    · intro hn
      right
      rcases i5 hn with e | e | e
      · left; subst e; rw [← happ]; simp
      · left
        rw [← happ, List.getLast?_append, List.getLast?_cons]
        rw [e]; rfl
      · exact .inr e
    · intro u hu
      obtain ⟨j1, j2⟩ := i6 u hu
      refine ⟨j1, ?_⟩
      rcases j2 with j2 | ⟨j2, j3⟩
      · exact .inl j2
      · refine .inr ⟨.inr ?_, j3⟩
        show (w ++ ' ' :: r.1).getLast? = _
        rw [List.getLast?_append, List.getLast?_cons]
        rcases j2 with j2 | j2
        · rw [j2]; rfl
        · rw [j2]; rfl
  | case6 left c s h w d t left' hw hd h1 r ih =>
    exfalso
    have hlt : ((c :: s).takeWhile teaWordChar).length < left := Nat.lt_of_le_of_lt (wordLenT_ge _ rest) (by omega)
    rw [teaWord_fit (Nat.le_of_lt hlt)] at hw
    injection hw with hw1 hw2
    injection hw2 with hw2 hw3
    omega

/-! ### Static blocks -/

theorem seen_id {t : List Char} (h : joint ∉ t) : seen t = t := by
  unfold seen
  rw [List.filter_eq_self]
  intro c hc
  simp only [decide_eq_true_eq]
  rintro rfl
  exact h hc

theorem seen_append (a b : List Char) : seen (a ++ b) = seen a ++ seen b := by simp [seen]

theorem firstWord_nl {t ts : List Char} (h : '\n' ∉ t) : firstWord (t ++ '\n' :: ts) = firstWord t := by
  rw [firstWord_eq, firstWord_eq]
  by_cases ht : t.takeWhile teaWordChar = t
  · rw [takeWhile_append_all ht]
    have : List.takeWhile teaWordChar ('\n' :: ts) = [] := List.takeWhile_cons_of_neg (by decide)
    rw [this, List.append_nil, ht]
  · rw [takeWhile_append_some ht]

/-- A line before lines. -/
theorem static_cut {width margin nl m : Nat} {used t o : List Char} (hu : '\n' ∉ used) (hj : joint ∉ used) (hm : m + used.length ≤ width)
    (he : used = [] ∨ used.getLast? = some ' ') (hw : width ≤ m + used.length + firstWord t) (h : StaticLaid width margin nl nl t o) :
    StaticLaid width margin nl m (used ++ t) (List.replicate m ' ' ++ used ++ '\n' :: o) := by
  have hs := seen_id hj
  cases h with
  | one h1 h2 =>
    refine .one (by simp [hu, h1]) ?_
    have := Wrapped.cut (m := m) (l := used) (by rw [hs]; exact hm) (by rw [hs]; exact he) (by rw [hs]; exact hw) h2
    rw [hs] at this
    exact this
  | @more m t o ts os h1 h2 h3 =>
    rw [firstWord_nl h1] at hw
    have := Wrapped.cut (l := used) (by rw [hs]; exact hm) (by rw [hs]; exact he) (by rw [hs]; exact hw) h2
    rw [hs] at this
    have h4 := StaticLaid.more (t := used ++ t) (by simp [hu, h1]) this h3
    simpa using h4

theorem shortWords_suffix {n : Nat} {x y : List Char} (h : ShortWords n (x ++ y)) : ShortWords n y :=
  fun a u b e hu => h (x ++ a) u b (by rw [e]; simp) hu

theorem shortWords_prefix {n : Nat} {x y : List Char} (h : ShortWords n (x ++ y)) : ShortWords n x :=
  fun a u b e hu => h a u (b ++ y) (by rw [e]; simp) hu

theorem shortWords_first {n : Nat} {x : List Char} (h : ShortWords n x) : firstWord x < n := by
  rw [firstWord_eq]
  exact h [] (x.takeWhile teaWordChar) (x.dropWhile teaWordChar) (by simp) (takeWhile_teaWord x)

theorem wordLenT_nil (s : List Char) : teaWordLenT s [] = firstWord s := by rw [firstWord_eq]; rfl

theorem static_loop {width margin nl : Nat} (hnl : nl ≤ margin) (hmw : margin < width) (first : Bool) (s : List Char) (hj : joint ∉ s) (hs : ShortWords (width - nl) s) :
    ∃ o, teaStaticLoop margin nl width first s = .ok ((if first then [] else ['\n']) ++ o) ∧
      StaticLaid width margin nl (if first = true ∨ s.head? = some '\n' then margin else nl) (if s.head? = some '\n' then s.drop 1 else s) o := by
  have hsub : ∀ s : List Char, ∃ pre, s = pre ++ (if s.head? = some '\n' then s.drop 1 else s) := by
    intro s
    split
    · cases s with
      | nil => exact ⟨[], rfl⟩
      | cons c s => exact ⟨[c], rfl⟩
    · exact ⟨[], rfl⟩
  fun_induction teaStaticLoop margin nl width first s with
  | case1 first s s1 m before r hr =>
    obtain ⟨pre, hpre⟩ := hsub s
    have hsp := lineSpec [] (by simp) s1 (width - m)
    have hmw' : m < width := by
      show (if first = true ∨ s.head? = some '\n' then margin else nl) < width
      split <;> omega
    have ht : s1 = r.1 := by rw [hsp.text, show (teaLine [] s1 (width - m)).2.1 = none from hr]; simp [r]
    have hj1 : joint ∉ s1 := fun h => hj (by rw [hpre]; exact List.mem_append_right _ h)
    have hroom : r.2.2 + r.1.length = width - m := hsp.room
    refine ⟨List.replicate m ' ' ++ r.1, by simp [before], ?_⟩
    have hnl1 : '\n' ∉ s1 := by rw [ht]; exact hsp.noNl
    have hw : Wrapped width nl m s1 (List.replicate m ' ' ++ seen s1) := .last (by rw [seen_id hj1, ht]; omega)
    rw [seen_id hj1, ht] at hw
    rw [← ht] at hw ⊢
    exact .one hnl1 hw
  | case2 first s s1 m before r s2 hr h ih =>
    obtain ⟨pre, hpre⟩ := hsub s
    have hsp := lineSpec [] (by simp) s1 (width - m)
    have hmw' : m < width := by
      show (if first = true ∨ s.head? = some '\n' then margin else nl) < width
      split <;> omega
    have ht : s1 = r.1 ++ s2 := by rw [hsp.text, show (teaLine [] s1 (width - m)).2.1 = some s2 from hr]; simp [r]
    have hs' : s = pre ++ (r.1 ++ s2) := by rw [← ht]; exact hpre
    have hj1 : joint ∉ r.1 := fun h => hj (by rw [hs']; simp [h])
    have hj2 : joint ∉ s2 := fun h => hj (by rw [hs']; simp [h])
    have hroom : r.2.2 + r.1.length = width - m := hsp.room
    have hs2 : ShortWords (width - nl) s2 := shortWords_suffix (x := pre ++ r.1) (by rw [List.append_assoc, ← hs']; exact hs)
    obtain ⟨o, ho1, ho2⟩ := ih hj2 hs2
    refine ⟨List.replicate m ' ' ++ r.1 ++ '\n' :: o, ?_, ?_⟩
    · rw [ho1]
      simp [before, Bind.bind, Res.bind]
    · show StaticLaid width margin nl m s1 _
      rw [ht]
      obtain ⟨hne, hst⟩ := hsp.stop s2 hr
      by_cases hh : s2.head? = some '\n'
      · obtain ⟨s3, rfl⟩ : ∃ s3, s2 = '\n' :: s3 := by
          cases s2 with
          | nil => cases hh
          | cons c s3 => exact ⟨s3, by rw [show c = '\n' by simpa using hh]⟩
        have ho3 : StaticLaid width margin nl margin s3 o := by simpa using ho2
        have hw : Wrapped width nl m r.1 (List.replicate m ' ' ++ seen r.1) := .last (by rw [seen_id hj1]; omega)
        rw [seen_id hj1] at hw
        exact .more hsp.noNl hw ho3
      · rcases hst with hst | ⟨hst, hfit⟩
        · exact absurd hst hh
        · rw [if_neg (by simp [hh]), if_neg hh] at ho2
          refine static_cut hsp.noNl hj1 (by omega) hst ?_ ho2
          rw [wordLenT_nil] at hfit
          have : r.2.2 ≤ firstWord s2 := hfit
          omega
  | case3 first s s1 m r s2 hr h =>
    exfalso
    obtain ⟨pre, hpre⟩ := hsub s
    have hsp := lineSpec [] (by simp) s1 (width - m)
    have ht : s1 = r.1 ++ s2 := by rw [hsp.text, show (teaLine [] s1 (width - m)).2.1 = some s2 from hr]; simp [r]
    have hs' : s = pre ++ (r.1 ++ s2) := by rw [← ht]; exact hpre
    have hlen : s.length = pre.length + (r.1.length + s2.length) := by rw [hs']; simp
    have hr1 : r.1 = [] ∧ pre = [] ∧ first = false := by
      refine ⟨?_, ?_, ?_⟩
      · exact List.eq_nil_of_length_eq_zero (by omega)
      · exact List.eq_nil_of_length_eq_zero (by omega)
      · cases first with
        | false => rfl
        | true => exact absurd (show s2.length < s.length ∨ s2.length = s.length ∧ true = true by by_cases hx : s2.length < s.length; exact .inl hx; exact .inr ⟨by omega, rfl⟩) h
    obtain ⟨h1, h2, rfl⟩ := hr1
    have hroom : r.2.2 + r.1.length = width - m := hsp.room
    have hs12 : s = s2 := by rw [hs', h1, h2]; rfl
    have hh : s.head? ≠ some '\n' := by
      intro hh
      have : s1 = s.drop 1 := if_pos hh
      have hl : s1.length < s.length := by
        rw [this]
        cases hx : s with
        | nil => rw [hx] at hh; cases hh
        | cons c s => simp
      rw [ht] at hl
      simp at hl
      omega
    have hm : m = nl := if_neg (by simp [hh])
    obtain ⟨hne, hst⟩ := hsp.stop s2 hr
    rcases hst with hst | ⟨-, hfit⟩
    · exact hh (hs12 ▸ hst)
    · rw [wordLenT_nil] at hfit
      have h3 : r.2.2 ≤ firstWord s2 := hfit
      have h4 := shortWords_first hs
      rw [hs12] at h4
      rw [h1] at hroom
      simp at hroom
      omega

theorem static_hang {width margin nl : Nat} (hnl : nl ≤ margin) (hmw : margin < width) (first : Bool) (s : List Char) (hs : ¬ ShortWords (width - nl) s) :
    teaStaticLoop margin nl width first s = .hang := by
  have hsub : ∀ s : List Char, ShortWords (width - nl) (if s.head? = some '\n' then s.drop 1 else s) → ShortWords (width - nl) s := by
    intro s h
    split at h
    · next hh =>
      cases s with
      | nil => cases hh
      | cons c s =>
        have : c = '\n' := by simpa using hh
        subst this
        exact shortWords_append (x := []) (by decide) (shortWords_nil (by omega)) h
    · exact h
  fun_induction teaStaticLoop margin nl width first s with
  | case1 first s s1 m before r hr =>
    exfalso
    have hsp := lineSpec [] (by simp) s1 (width - m)
    have hm : width - m ≤ width - nl := by
      show width - (if first = true ∨ s.head? = some '\n' then margin else nl) ≤ _
      split <;> omega
    have ht : s1 = r.1 := by rw [hsp.text, show (teaLine [] s1 (width - m)).2.1 = none from hr]; simp [r]
    refine hs (hsub s (show ShortWords _ s1 from ?_))
    rw [ht]
    by_cases h : r.1 = []
    · rw [h]; exact shortWords_nil (by omega)
    · exact shortWords_mono (hsp.short h) hm
  | case2 first s s1 m before r s2 hr h ih =>
    have hsp := lineSpec [] (by simp) s1 (width - m)
    have hm : width - m ≤ width - nl := by
      show width - (if first = true ∨ s.head? = some '\n' then margin else nl) ≤ _
      split <;> omega
    have ht : s1 = r.1 ++ s2 := by rw [hsp.text, show (teaLine [] s1 (width - m)).2.1 = some s2 from hr]; simp [r]
    have hr1 : ShortWords (width - nl) r.1 := by
      by_cases h : r.1 = []
      · rw [h]; exact shortWords_nil (by omega)
      · exact shortWords_mono (hsp.short h) hm
    have h2 : ¬ ShortWords (width - nl) s2 := by
      intro h2
      refine hs (hsub s (show ShortWords _ s1 from ?_))
      rw [ht]
      obtain ⟨hne, hst⟩ := hsp.stop s2 hr
      rcases hst with hst | ⟨hst | hst, -⟩
      · cases s2 with
        | nil => cases hst
        | cons c s3 =>
          have : c = '\n' := by simpa using hst
          subst this
          exact shortWords_append (by decide) hr1 (shortWords_suffix (x := ['\n']) h2)
      · rw [show r.1 = [] from hst]; exact h2
      · obtain ⟨x, hx⟩ := List.getLast?_eq_some_iff.1 (show r.1.getLast? = some ' ' from hst)
        rw [hx, List.append_assoc]
        rw [hx] at hr1
        exact shortWords_append (by decide) (shortWords_prefix hr1) h2
    rw [ih h2]
    rfl
  | case3 => rfl

/-! ### Paragraphs -/

theorem seen_joint : seen [joint] = [] := by decide

/-- The parts of a paragraph. -/
structure Parts (cs : List (List Char)) : Prop where
  nonempty : ∀ c ∈ cs, c ≠ []
  noNl : ∀ c ∈ cs, '\n' ∉ c
  noJoint : ∀ c ∈ cs, joint ∉ c

theorem Parts.tail {c : List Char} {cs : List (List Char)} (h : Parts (c :: cs)) : Parts cs :=
  ⟨fun x hx => h.1 x (by simp [hx]), fun x hx => h.2 x (by simp [hx]), fun x hx => h.3 x (by simp [hx])⟩

/-- The state in a line with margin `m` and text `cur`. -/
structure InLine (width m : Nat) (cur : List Char) (st : TeaState) : Prop where
  first : st.first = false
  left : st.left + (m + (seen cur).length) = width
  leftNl : st.leftNl + m = width
  some : seen cur ≠ []

/-- What the loop on a node does, from a line with the text `cur` on. -/
def NodeDone (width margin m : Nat) (cur s : List Char) (rest : List (List Char)) (pre : List Char) (res : Res (List Char × TeaState)) : Prop :=
  ∃ o st' m' cur', res = .ok (pre ++ o, st') ∧ InLine width m' cur' st' ∧ ((seen cur').getLast? = some ' ' ∨ teaWordLenT [] rest < st'.left) ∧
    ∀ O, Wrapped width margin m' (cur' ++ tailJoined rest) (List.replicate m' ' ' ++ seen cur' ++ O) →
      Wrapped width margin m (cur ++ s ++ tailJoined rest) (List.replicate m ' ' ++ seen cur ++ o ++ O)

theorem node_new {width margin firstLine : Nat} (hfl : firstLine ≤ margin) (hmw : margin < width) (st : TeaState) (s : List Char) (rest : List (List Char))
    (hs : s ≠ []) (hnl : '\n' ∉ s) (hj : joint ∉ s) (hr : ∀ r ∈ rest, r ≠ []) (hsw : ShortWords (width - margin) (s ++ tailJoined rest)) (hst : st.noMargin = false) :
    NodeDone width margin (if st.first then firstLine else margin) [] s rest ((if st.first then [] else ['\n']) ++ List.replicate (if st.first then firstLine else margin) ' ')
      (teaNodeLoop margin firstLine width st s rest) := by
  induction hn : s.length using Nat.strongRecOn generalizing s st with
  | ind n ih =>
  subst hn
  generalize hm : (if st.first = true then firstLine else margin) = m
  have hmle : m ≤ margin := by rw [← hm]; split <;> omega
  have hb : teaStart margin firstLine width st s = ((if st.first then [] else ['\n']) ++ List.replicate m ' ', s, ⟨false, false, width - m, width - m⟩) := by
    have hh : s.head? ≠ some '\n' := by
      cases s with
      | nil => simp
      | cons c s => intro h; apply hnl; rw [show c = '\n' by simpa using h]; simp
    unfold teaStart
    rw [if_neg (by simp [hst]), if_neg hh, hm]
  rw [teaNodeLoop, hb]
  have hsp := lineSpec rest hr s (width - m)
  generalize hrr : teaLine rest s (width - m) = r at hsp
  simp only [hrr]
  have hfirst : ¬ width - m ≤ teaWordLenT s rest := by
    rw [wordLenT_eq s rest hr]
    have := shortWords_first hsw
    omega
  have hne : r.1 ≠ [] := by
    intro h0
    cases hr2 : r.2.1 with
    | none =>
      have := hsp.text
      rw [h0, hr2] at this
      exact hs this
    | some t =>
      have h1 := hsp.text
      rw [h0, hr2] at h1
      have h1 : s = t := h1
      obtain ⟨-, h2⟩ := hsp.stop t hr2
      rcases h2 with h2 | ⟨-, h2⟩
      · cases t with
        | nil => cases h2
        | cons c t => apply hnl; rw [h1, show c = '\n' by simpa using h2]; simp
      · have := hsp.room
        rw [h0] at this
        rw [← h1] at h2
        simp at this
        omega
  have hlen : 0 < r.1.length := List.length_pos_iff.2 hne
  have hroom := hsp.room
  have hnl2 : ¬ width - m = r.2.2 := by omega
  rw [if_neg hnl2]
  have hjr : joint ∉ r.1 := fun h => hj (by rw [hsp.text]; simp [h])
  have hse : seen r.1 = r.1 := seen_id hjr
  cases hr2 : r.2.1 with
  | none =>
    simp only
    have ht : s = r.1 := by have := hsp.text; rw [hr2] at this; simpa using this
    refine ⟨r.1, _, m, s, rfl, ⟨rfl, ?_, ?_, ?_⟩, ?_, ?_⟩
    · show r.2.2 + (m + (seen s).length) = width
      rw [ht, hse]; omega
    · show width - m + m = width
      omega
    · rw [ht, hse]; exact hne
    · rcases hsp.whole hr2 with h | h | h
      · exact absurd h hs
      · left; rw [ht, hse, ← ht]; exact h
      · exact .inr h
    · intro O hO
      rw [ht, hse] at hO
      rw [ht]
      simpa [seen] using hO
  | some t =>
    simp only
    have ht : s = r.1 ++ t := by have := hsp.text; rw [hr2] at this; simpa using this
    have hlt : t.length < s.length := by rw [ht]; simp; omega
    obtain ⟨hne2, hstop⟩ := hsp.stop t hr2
    have hstop : ((r.1 = [] ∨ r.1.getLast? = some ' ') ∧ r.2.2 ≤ teaWordLenT t rest) := by
      rcases hstop with h | h
      · exfalso
        cases t with
        | nil => cases h
        | cons c t => apply hnl; rw [ht, show c = '\n' by simpa using h]; simp
      · exact h
    rw [dif_pos (.inl hlt)]
    have hih := ih t.length hlt { first := false, noMargin := false, left := r.2.2, leftNl := width - m } t hne2 (fun h => hnl (by rw [ht]; simp [h]))
      (fun h => hj (by rw [ht]; simp [h])) (shortWords_suffix (x := r.1) (by rw [← List.append_assoc, ← ht]; exact hsw)) rfl rfl
    obtain ⟨o, st', m', cur', h1, h2, h3, h4⟩ := hih
    refine ⟨r.1 ++ '\n' :: (List.replicate margin ' ' ++ o), st', m', cur', ?_, h2, h3, ?_⟩
    · rw [h1]
      simp [Bind.bind, Res.bind]
    · intro O hO
      have h5 := h4 O hO
      have hfw : width ≤ m + (seen r.1).length + firstWord (t ++ tailJoined rest) := by
        rw [hse, ← wordLenT_eq t rest hr]
        omega
      have := Wrapped.cut (m := m) (l := r.1) (by rw [hse]; omega) (by rw [hse]; exact hstop.1) hfw (by simpa [seen] using h5)
      rw [hse] at this
      rw [ht]
      simpa [seen] using this

theorem node_more {width margin firstLine : Nat} (hfl : firstLine ≤ margin) (hmw : margin < width) (st : TeaState) (m : Nat) (cur s : List Char) (rest : List (List Char))
    (hs : s ≠ []) (hnl : '\n' ∉ s) (hj : joint ∉ s) (hr : ∀ r ∈ rest, r ≠ []) (hsw : ShortWords (width - margin) (s ++ tailJoined rest)) (hst : st.noMargin = true)
    (hin : InLine width m cur st) (hcur : (seen cur).getLast? = some ' ' ∨ teaWordLenT s rest < st.left) :
    NodeDone width margin m cur s rest [] (teaNodeLoop margin firstLine width st s rest) := by
  have hb : teaStart margin firstLine width st s = ([], s, ⟨false, false, st.left, st.leftNl⟩) := by
    unfold teaStart
    rw [if_pos hst]
    have := hin.first
    cases st
    simp_all
  rw [teaNodeLoop, hb]
  have hsp := lineSpec rest hr s st.left
  generalize hrr : teaLine rest s st.left = r at hsp
  simp only [hrr]
  have hcl : 0 < (seen cur).length := List.length_pos_iff.2 hin.some
  have hl1 := hin.left
  have hl2 := hin.leftNl
  have hroom := hsp.room
  have hnl2 : ¬ st.leftNl = r.2.2 := by omega
  rw [if_neg hnl2]
  have hjr : joint ∉ r.1 := fun h => hj (by rw [hsp.text]; simp [h])
  have hse : seen r.1 = r.1 := seen_id hjr
  cases hr2 : r.2.1 with
  | none =>
    simp only
    have ht : s = r.1 := by have := hsp.text; rw [hr2] at this; simpa using this
    refine ⟨r.1, _, m, cur ++ s, rfl, ⟨rfl, ?_, ?_, ?_⟩, ?_, ?_⟩
    · show r.2.2 + (m + (seen (cur ++ s)).length) = width
      rw [seen_append, ht, hse, List.length_append]; omega
    · exact hl2
    · rw [seen_append]; simp [hin.some]
    · rcases hsp.whole hr2 with h | h | h
      · exact absurd h hs
      · left; rw [seen_append, List.getLast?_append, ht, hse, ← ht, h]; rfl
      · exact .inr h
    · intro O hO
      rw [ht, seen_append, hse] at hO
      rw [ht]
      simpa using hO
  | some t =>
    simp only
    have ht : s = r.1 ++ t := by have := hsp.text; rw [hr2] at this; simpa using this
    have hle : t.length < s.length ∨ (t.length = s.length ∧ st.noMargin = true) := by
      have : s.length = r.1.length + t.length := by rw [ht]; simp
      by_cases hx : r.1.length = 0
      · exact .inr ⟨by omega, hst⟩
      · left; omega
    obtain ⟨hne2, hstop⟩ := hsp.stop t hr2
    have hstop : ((r.1 = [] ∨ r.1.getLast? = some ' ') ∧ r.2.2 ≤ teaWordLenT t rest) := by
      rcases hstop with h | h
      · exfalso
        cases t with
        | nil => cases h
        | cons c t => apply hnl; rw [ht, show c = '\n' by simpa using h]; simp
      · exact h
    rw [dif_pos hle]
    have hih := node_new hfl hmw { first := false, noMargin := false, left := r.2.2, leftNl := st.leftNl } t rest hne2 (fun h => hnl (by rw [ht]; simp [h]))
      (fun h => hj (by rw [ht]; simp [h])) hr (shortWords_suffix (x := r.1) (by rw [← List.append_assoc, ← ht]; exact hsw)) rfl
    obtain ⟨o, st', m', cur', h1, h2, h3, h4⟩ := hih
    refine ⟨r.1 ++ '\n' :: (List.replicate margin ' ' ++ o), st', m', cur', ?_, h2, h3, ?_⟩
    · rw [h1]
      simp [Bind.bind, Res.bind]
    · intro O hO
      have h5 := h4 O hO
      have hfw : width ≤ m + (seen (cur ++ r.1)).length + firstWord (t ++ tailJoined rest) := by
        rw [seen_append, List.length_append, hse, ← wordLenT_eq t rest hr]
        omega
      have hend : seen (cur ++ r.1) = [] ∨ (seen (cur ++ r.1)).getLast? = some ' ' := by
        right
        rw [seen_append, hse, List.getLast?_append]
        rcases hstop.1 with h | h
        · rcases hcur with hc | hc
          · rw [h, hc]; rfl
          · exfalso
            rw [h] at hroom ht
            have h6 := hstop.2
            rw [← (show s = t from ht)] at h6
            simp at hroom
            omega
        · rw [h]; rfl
      have := Wrapped.cut (m := m) (l := cur ++ r.1) (by rw [seen_append, List.length_append, hse]; omega) hend hfw (by simpa [seen] using h5)
      rw [seen_append, hse] at this
      rw [ht]
      simpa using this

/-- The nodes after the first. -/
theorem par_more {width margin firstLine : Nat} (hfl : firstLine ≤ margin) (hmw : margin < width) (cs : List (List Char)) (hc : Parts cs) (st : TeaState) (m : Nat)
    (cur : List Char) (hsw : ShortWords (width - margin) (tailJoined cs)) (hst : st.noMargin = true) (hin : InLine width m cur st)
    (hcur : (seen cur).getLast? = some ' ' ∨ teaWordLenT [] cs < st.left) :
    ∃ O, teaParLoop margin firstLine width st cs = .ok O ∧ Wrapped width margin m (cur ++ tailJoined cs) (List.replicate m ' ' ++ seen cur ++ O) := by
  induction cs generalizing st m cur with
  | nil =>
    refine ⟨[], rfl, ?_⟩
    have := hin.left
    simpa [tailJoined] using Wrapped.last (nl := margin) (m := m) (l := cur) (width := width) (by omega)
  | cons s rest ih =>
    have hr : ∀ r ∈ rest, r ≠ [] := hc.tail.nonempty
    have hs := hc.nonempty s (by simp)
    have hT : tailJoined (s :: rest) = joint :: (s ++ tailJoined rest) := by simp [tailJoined]
    have hsw' : ShortWords (width - margin) (s ++ tailJoined rest) := shortWords_suffix (x := [joint]) (by rw [hT] at hsw; exact hsw)
    have hin' : InLine width m (cur ++ [joint]) st := by
      have e : seen (cur ++ [joint]) = seen cur := by rw [seen_append, seen_joint, List.append_nil]
      exact ⟨hin.first, by rw [e]; exact hin.left, hin.leftNl, by rw [e]; exact hin.some⟩
    have e : seen (cur ++ [joint]) = seen cur := by rw [seen_append, seen_joint, List.append_nil]
    have hcur' : (seen (cur ++ [joint])).getLast? = some ' ' ∨ teaWordLenT s rest < st.left := by
      rcases hcur with h | h
      · left; rw [e]; exact h
      · right
        rw [teaWordLenT, if_pos (show (List.takeWhile teaWordChar []).length = ([] : List Char).length from rfl), if_neg hs] at h
        omega
    obtain ⟨o, st', m', cur', h1, h2, h3, h4⟩ := node_more hfl hmw st m (cur ++ [joint]) s rest hs (hc.noNl s (by simp)) (hc.noJoint s (by simp)) hr hsw' hst hin' hcur'
    obtain ⟨O, h5, h6⟩ := ih hc.tail { st' with noMargin := true } m' cur' (shortWords_suffix hsw') rfl ⟨h2.first, h2.left, h2.leftNl, h2.some⟩ h3
    refine ⟨o ++ O, ?_, ?_⟩
    · rw [teaParLoop, h1, Res.ok_bind, h5, Res.ok_bind]
      rfl
    · have := h4 O h6
      rw [e] at this
      rw [hT]
      simpa using this

theorem par_laid {width margin firstLine : Nat} (hfl : firstLine ≤ margin) (hmw : margin < width) (s : List Char) (cs : List (List Char)) (hc : Parts (s :: cs))
    (hsw : ShortWords (width - margin) (joined (s :: cs))) :
    ∃ out, teaPar margin firstLine width (s :: cs) = .ok (some out) ∧ Wrapped width margin firstLine (joined (s :: cs)) out := by
  rw [joined_cons] at hsw ⊢
  obtain ⟨o, st', m', cur', h1, h2, h3, h4⟩ := node_new hfl hmw ⟨true, false, 0, 0⟩ s cs (hc.nonempty s (by simp)) (hc.noNl s (by simp)) (hc.noJoint s (by simp))
    hc.tail.nonempty hsw rfl
  obtain ⟨O, h5, h6⟩ := par_more hfl hmw cs hc.tail { st' with noMargin := true } m' cur' (shortWords_suffix hsw) rfl ⟨h2.first, h2.left, h2.leftNl, h2.some⟩ h3
  refine ⟨List.replicate firstLine ' ' ++ o ++ O, ?_, ?_⟩
  · unfold teaPar
    rw [if_neg (by omega), teaParLoop, h1, Res.ok_bind, h5, Res.ok_bind, Res.ok_bind]
    simp
  · have := h4 O h6
    simpa [seen] using this

end PBat
