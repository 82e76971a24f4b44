import Verif.Model.Str
import Verif.Model.Quotes
import Verif.Spec.Str
namespace PBat
open Spec

theorem strpbrk_spec {p : Char → Bool} {s seg rest : List Char} (h : strpbrk p s = (seg, rest)) :
    s = seg ++ rest ∧ (∀ c ∈ seg, p c = false) ∧ (∀ c r, rest = c :: r → p c = true) := by
  induction s generalizing seg rest with
  | nil => simp [strpbrk] at h; simp [h.1, h.2]
  | cons c cs ih =>
    simp only [strpbrk] at h
    split at h
    · next hp => simp only [Prod.mk.injEq] at h; obtain ⟨rfl, rfl⟩ := h; simp [hp]
    · next hp =>
      simp only [Prod.mk.injEq] at h
      obtain ⟨rfl, rfl⟩ := h
      obtain ⟨h1, h2, h3⟩ := ih (seg := (strpbrk p cs).1) (rest := (strpbrk p cs).2) rfl
      refine ⟨by rw [List.cons_append, ← h1], ?_, h3⟩
      intro d hd
      cases hd with
      | head => simpa using hp
      | tail _ hd => exact h2 d hd

theorem strpbrk_none {p : Char → Bool} {s : List Char} (h : ∀ c ∈ s, p c = false) :
    strpbrk p s = (s, []) := by
  induction s with
  | nil => rfl
  | cons c cs ih =>
    simp [strpbrk, h c (by simp), ih (fun d hd => h d (by simp [hd]))]

theorem strpbrk_hit {p : Char → Bool} {seg : List Char} {c : Char} {rest : List Char}
    (h : ∀ c ∈ seg, p c = false) (hc : p c = true) :
    strpbrk p (seg ++ c :: rest) = (seg, c :: rest) := by
  induction seg with
  | nil => simp [strpbrk, hc]
  | cons d ds ih =>
    simp [strpbrk, h d (by simp), ih (fun e he => h e (by simp [he]))]

theorem scanBack_eq (ok : Bool) (l : List Char) :
    scanBack ok l = (ok ^^ decide ((l.takeWhile (· == '^')).length % 2 = 1)) := by
  induction l generalizing ok with
  | nil => simp [scanBack]
  | cons c cs ih =>
    simp only [scanBack]
    by_cases hc : c = '^'
    · subst hc
      simp only [bne_self_eq_false, Bool.false_eq_true, ↓reduceIte, ih, List.takeWhile_cons, beq_self_eq_true,
        List.length_cons]
      rcases Nat.mod_two_eq_zero_or_one (cs.takeWhile (· == '^')).length with h | h
      · have : ((cs.takeWhile (· == '^')).length + 1) % 2 = 1 := by omega
        simp [h, this]
      · have : ((cs.takeWhile (· == '^')).length + 1) % 2 = 0 := by omega
        simp [h, this]
    · simp [hc]

theorem scanBack_true (l : List Char) :
    scanBack true l = true ↔ (l.takeWhile (· == '^')).length % 2 = 0 := by
  rw [scanBack_eq]; simp

theorem takeWhile_append_stop {q : Char → Bool} (a : List Char) (c : Char) (b : List Char)
    (hc : q c = false) : (a ++ c :: b).takeWhile q = a.takeWhile q := by
  induction a with
  | nil => simp [hc]
  | cons d ds ih => simp [List.takeWhile_cons, ih]

theorem caretsBefore_shift (seg : List Char) (c : Char) (rest : List Char) (j : Nat) (hc : c ≠ '^') :
    caretsBefore (seg ++ c :: rest) (seg.length + 1 + j) = caretsBefore rest j := by
  have : (seg ++ c :: rest).take (seg.length + 1 + j) = seg ++ c :: rest.take j := by
    rw [List.take_append]
    have h1 : seg.take (seg.length + 1 + j) = seg := List.take_of_length_le (by omega)
    have h2 : seg.length + 1 + j - seg.length = j + 1 := by omega
    rw [h1, h2, List.take_succ_cons]
  simp only [caretsBefore, this, List.reverse_append, List.reverse_cons, List.append_assoc,
    List.singleton_append]
  rw [takeWhile_append_stop _ _ _ (by simp [hc])]

theorem caretsBefore_seg (seg rest : List Char) :
    caretsBefore (seg ++ rest) seg.length = (seg.reverse.takeWhile (· == '^')).length := by
  simp [caretsBefore]

theorem Free_shift (seg : List Char) (c : Char) (rest : List Char) (j : Nat) (hc : c ≠ '^') :
    Free (seg ++ c :: rest) (seg.length + 1 + j) ↔ Free rest j := by
  simp [Free, caretsBefore_shift _ _ _ _ hc]

theorem getElem?_seg (seg : List Char) (c : Char) (rest : List Char) (j : Nat) :
    (seg ++ c :: rest)[seg.length + 1 + j]? = rest[j]? := by
  rw [List.getElem?_append_right (by omega)]
  have : seg.length + 1 + j - seg.length = j + 1 := by omega
  rw [this, List.getElem?_cons_succ]

theorem Hit_shift (p : Char → Bool) (seg : List Char) (c : Char) (rest : List Char) (j : Nat) (hc : c ≠ '^') :
    Hit p (seg ++ c :: rest) (seg.length + 1 + j) ↔ Hit p rest j := by
  simp only [Hit, Free_shift _ _ _ _ hc, getElem?_seg]

theorem Hit_seg_not (p : Char → Bool) (seg rest : List Char) (h : ∀ c ∈ seg, p c = false) (j : Nat)
    (hj : j < seg.length) : ¬ Hit p (seg ++ rest) j := by
  rintro ⟨⟨c, hc, hp⟩, -⟩
  rw [List.getElem?_append_left hj] at hc
  have := h c (List.mem_of_getElem? hc)
  simp [hp] at this

theorem Hit_at (p : Char → Bool) (seg : List Char) (c : Char) (rest : List Char) (hc : p c = true) :
    Hit p (seg ++ c :: rest) seg.length ↔ scanBack true seg.reverse = true := by
  simp only [Hit, Free, caretsBefore_seg, scanBack_true]
  simp [hc]

theorem nat_cases (n j : Nat) : j < n ∨ j = n ∨ ∃ k, j = n + 1 + k := by
  rcases Nat.lt_trichotomy j n with h | h | h
  · exact Or.inl h
  · exact Or.inr (Or.inl h)
  · exact Or.inr (Or.inr ⟨j - n - 1, by omega⟩)

theorem scanBack_no_caret (l : List Char) (h : ∀ c ∈ l, c ≠ '^') : scanBack true l = true := by
  cases l with
  | nil => rfl
  | cons c cs => simp [scanBack, h c (by simp)]

/-- A hit judged escaped is not a caret. -/
theorem hit_not_caret {p : Char → Bool} {l : List Char} (h2 : ∀ c ∈ l, p c = false)
    (hok : ¬ scanBack true l.reverse = true) : p '^' = false := by
  by_cases hp : p '^' = true
  · exfalso
    apply hok
    apply scanBack_no_caret
    rintro c hc rfl
    have := h2 '^' (by simpa using hc)
    rw [hp] at this; exact absurd this (by decide)
  · simpa using hp

/-- Characterisation of the forward search. -/
theorem searchTok_first (p : Char → Bool) (s : List Char) :
    IsFirst (Hit p s) (searchTok p s) := by
  fun_induction searchTok p s with
  | case1 s seg heq =>
    obtain ⟨h1, h2, -⟩ := strpbrk_spec heq
    simp only [List.append_nil] at h1
    subst h1
    rintro i ⟨⟨c, hc, hpc⟩, -⟩
    have := h2 c (List.mem_of_getElem? hc)
    simp [hpc] at this
  | case2 s seg c rest heq hok =>
    obtain ⟨h1, h2, h3⟩ := strpbrk_spec heq
    subst h1
    refine ⟨(Hit_at p seg c rest (h3 c rest rfl)).2 hok, fun j hj => Hit_seg_not p seg _ h2 j hj⟩
  | case3 s seg c rest heq hok ih =>
    obtain ⟨h1, h2, h3⟩ := strpbrk_spec heq
    have hp := hit_not_caret h2 hok
    have hcc : c ≠ '^' := by rintro rfl; simp [hp] at h3
    subst h1
    have hat : ¬ Hit p (seg ++ c :: rest) seg.length := by
      rw [Hit_at p seg c rest (h3 c rest rfl)]; exact hok
    cases hr : searchTok p rest with
    | none =>
      rw [hr] at ih
      intro i
      rcases nat_cases seg.length i with h | rfl | ⟨k, rfl⟩
      · exact Hit_seg_not p seg _ h2 i h
      · exact hat
      · rw [Hit_shift p seg c rest k hcc]; exact ih k
    | some a =>
      rw [hr] at ih
      obtain ⟨ih1, ih2⟩ := ih
      simp only [Option.map_some]
      have e : a + (seg.length + 1) = seg.length + 1 + a := by omega
      rw [e]
      refine ⟨(Hit_shift p seg c rest a hcc).2 ih1, fun j hj => ?_⟩
      rcases nat_cases seg.length j with h | rfl | ⟨k, rfl⟩
      · exact Hit_seg_not p seg _ h2 j h
      · exact hat
      · rw [Hit_shift p seg c rest k hcc]; exact ih2 k (by omega)

theorem searchLastLoop_last (p : Char → Bool) (hp : p '^' = false) (s : List Char) (off : Nat)
    (last : Option Nat) :
    (searchLastLoop p s off last = last ∧ ∀ i, ¬ Hit p s i) ∨
    ∃ i, searchLastLoop p s off last = some (off + i) ∧ Hit p s i ∧ ∀ j, i < j → ¬ Hit p s j := by
  fun_induction searchLastLoop p s off last with
  | case1 off last s seg heq =>
    left
    refine ⟨rfl, ?_⟩
    obtain ⟨h1, h2, -⟩ := strpbrk_spec heq
    simp only [List.append_nil] at h1
    subst h1
    rintro i ⟨⟨c, hc, hpc⟩, -⟩
    have := h2 c (List.mem_of_getElem? hc)
    simp [hpc] at this
  | case2 off last s seg c rest heq ih =>
    obtain ⟨h1, h2, h3⟩ := strpbrk_spec heq
    have hcc : c ≠ '^' := by rintro rfl; simp [hp] at h3
    subst h1
    have hat := Hit_at p seg c rest (h3 c rest rfl)
    simp only [dite_eq_ite] at ih
    rcases ih with ⟨e, hn⟩ | ⟨i, e, hi, hlast⟩
    · by_cases hok : scanBack true seg.reverse = true
      · right
        refine ⟨seg.length, by rw [e]; simp [hok], hat.2 hok, ?_⟩
        intro j hj
        rcases nat_cases seg.length j with h | rfl | ⟨k, rfl⟩
        · omega
        · omega
        · rw [Hit_shift p seg c rest k hcc]; exact hn k
      · left
        refine ⟨by rw [e]; simp [hok], ?_⟩
        intro j
        rcases nat_cases seg.length j with h | rfl | ⟨k, rfl⟩
        · exact Hit_seg_not p seg _ h2 j h
        · rw [hat]; exact hok
        · rw [Hit_shift p seg c rest k hcc]; exact hn k
    · right
      refine ⟨seg.length + 1 + i, by rw [e]; congr 1; omega, (Hit_shift p seg c rest i hcc).2 hi, ?_⟩
      intro j hj
      rcases nat_cases seg.length j with h | rfl | ⟨k, rfl⟩
      · omega
      · omega
      · rw [Hit_shift p seg c rest k hcc]; exact hlast k (by omega)

theorem searchLastTok_last (p : Char → Bool) (hp : p '^' = false) (s : List Char) :
    IsLast (Hit p s) (searchLastTok p s) := by
  unfold searchLastTok
  rcases searchLastLoop_last p hp s 0 none with ⟨e, hn⟩ | ⟨i, e, hi, hl⟩
  · rw [e]; exact hn
  · rw [e]; simp only [Nat.zero_add]; exact ⟨hi, hl⟩

/-! ### Unescaping -/

theorem unescape_append (seg t : List Char) (h : ∀ c ∈ seg, (c == '^') = false) :
    unescape (seg ++ t) = seg ++ unescape t := by
  induction seg with
  | nil => rfl
  | cons c cs ih =>
    have hc : c ≠ '^' := by simpa using h c (by simp)
    have ih := ih (fun d hd => h d (by simp [hd]))
    cases hcs : cs ++ t with
    | nil =>
      have : cs = [] ∧ t = [] := by simpa using hcs
      simp [this.1, this.2, unescape, hc]
    | cons d r =>
      rw [List.cons_append, hcs]
      simp only [unescape, hc, if_false]
      rw [← hcs, ih]; rfl

theorem unescape_caret (c : Char) (r : List Char) : unescape ('^' :: c :: r) = c :: unescape r := by
  simp [unescape]

theorem unEscapeLoop_eq (ch : List Char) : unEscapeLoop ch = unescape ('^' :: ch) := by
  fun_induction unEscapeLoop ch with
  | case1 => simp [unescape]
  | case2 c cs seg heq =>
    obtain ⟨h1, h2, -⟩ := strpbrk_spec heq
    simp only [List.append_nil] at h1
    subst h1
    rw [unescape_caret]
    have := unescape_append cs [] h2
    simp [unescape] at this
    rw [this]
  | case3 c cs seg d rest heq ih =>
    obtain ⟨h1, h2, h3⟩ := strpbrk_spec heq
    have hd : d = '^' := by simpa using h3 d rest rfl
    subst h1 hd
    rw [unescape_caret, unescape_append _ _ h2, ih]
    rfl

theorem unEscape_eq (s : List Char) : unEscape s = unescape s := by
  unfold unEscape
  split
  · next heq =>
    obtain ⟨h1, h2, -⟩ := strpbrk_spec heq
    simp only [List.append_nil] at h1
    subst h1
    have := unescape_append s [] h2
    simp [unescape] at this
    exact this.symm
  · next seg d rest heq =>
    obtain ⟨h1, h2, h3⟩ := strpbrk_spec heq
    have hd : d = '^' := by simpa using h3 d rest rfl
    subst h1 hd
    rw [unescape_append _ _ h2, unEscapeLoop_eq]

theorem unescape_escape (q : Char → Bool) (hq : q '^' = true) (s : List Char) :
    unescape (escape q s) = s := by
  induction s with
  | nil => rfl
  | cons c cs ih =>
    simp only [escape]
    split
    · rw [unescape_caret, ih]
    · next h =>
      have hc : c ≠ '^' := by rintro rfl; exact h hq
      have := unescape_append [c] (escape q cs) (by simpa using hc)
      simpa [ih] using this

theorem unescape_length (s : List Char) : (unescape s).length ≤ s.length := by
  fun_induction unescape s <;> simp_all <;> omega

end PBat
