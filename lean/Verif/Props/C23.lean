import Verif.Lemmas.For
/-
C23: the tokens of FOR /F.
-/
namespace PBat
open Spec

/-- An element of the token table: tokens `n` to `m`. -/
def tokenWord (n m : Nat) : Nat := n * 2 ^ 16 + m

theorem tokenWord_split {n m : Nat} (hn : n < 2 ^ 16) (hm : m < 2 ^ 16) :
    tokenWord n m / 2 ^ 16 % 2 ^ 16 = n ∧ tokenWord n m % 2 ^ 16 = m := by
  unfold tokenWord
  omega

/-- Token `n` is the `n`-th field of the line, empty if there are fewer fields. -/
theorem C23_token (D line : List Char) (n : Nat) (h1 : 1 ≤ n) (hn : n < 2 ^ 16) :
    forGetToken D (tokenWord n n) line = ((fields D line)[n - 1]?).getD [] := by
  unfold forGetToken
  rw [(tokenWord_split hn hn).1, (tokenWord_split hn hn).2]
  by_cases h2 : n ≤ (fields D line).length
  · obtain ⟨pre, tok, suf, h⟩ := FieldAt_exists D line n h1 h2
    rw [FieldAt_getElem h, scan_begin h (by omega) (by omega), if_pos rfl]
    by_cases hs : suf = []
    · simp [hs]
    · simp [hs]
  · rw [List.getElem?_eq_none (by omega)]
    rcases scan_no_begin (D := D) (s := line) (b := n) (e := n) (pos := 1) (by omega) with h | h
    · split
      · next h' => rw [h'] at h; simp at h
      · next h' => rw [h'] at h; simp at h
      · rfl
    · rw [h]; rfl

/-- The range `n.m` is the text from the start of token `n` to the end of token `m`. -/
theorem C23_range (D line : List Char) (n m : Nat) (hnm : n ≤ m) (hm : m < 2 ^ 16) (pre tok suf pre' tok' suf' : List Char)
    (h : FieldAt D line n pre tok suf) (h' : FieldAt D line m pre' tok' suf') :
    pre ++ forGetToken D (tokenWord n m) line ++ suf' = line := by
  unfold forGetToken
  have hn : n < 2 ^ 16 := by omega
  have h1 := FieldAt_pos h
  rw [(tokenWord_split hn hm).1, (tokenWord_split hn hm).2, scan_begin h (by omega) (by omega)]
  by_cases e : n = m
  · subst e
    obtain ⟨rfl, rfl, rfl⟩ := FieldAt_unique h h'
    rw [if_pos rfl]
    have hw := h.whole
    by_cases hs : suf = []
    · simp [hs, hw]
    · simp [hs, hw]
  · obtain ⟨d, r, pre'', rfl, rfl, h3⟩ := FieldAt_split h h' (by omega)
    rw [if_neg e, if_neg (by simp), List.tail_cons, scan_end (by omega) h3 (by omega)]
    have hw := h.whole
    have hr := h3.whole
    by_cases hs : suf' = []
    · simp [hs, hw]
    · have e1 : tok ++ d :: r = (tok ++ d :: pre'' ++ tok') ++ suf' := by rw [hr]; simp
      simp only [hs, if_false]
      rw [e1, List.length_append, Nat.add_sub_cancel, List.take_left', hw, hr]
      · simp
      · rfl

/-- A range which ends beyond the last token reaches to the end of the line. -/
theorem C23_range_open (D line : List Char) (n m : Nat) (hm : m < 2 ^ 16) (pre tok suf : List Char)
    (h : FieldAt D line n pre tok suf) (h' : (fields D line).length < m) :
    pre ++ forGetToken D (tokenWord n m) line = line := by
  have hlen : n ≤ (fields D line).length := by
    have := FieldAt_getElem h
    have h2 := (List.getElem?_eq_some_iff.1 this).1
    have := FieldAt_pos h
    omega
  unfold forGetToken
  have h1 := FieldAt_pos h
  rw [(tokenWord_split (by omega) hm).1, (tokenWord_split (by omega) hm).2, scan_begin h (by omega) (by omega), if_neg (by omega)]
  have hw := h.whole
  by_cases hs : suf = []
  · simp [hs, hw]
  · rw [if_neg hs, scan_no_end (by omega)]
    · simp [hw]
    · left
      apply Nat.le_of_not_lt
      intro hgt
      obtain ⟨d, r, rfl⟩ : ∃ d r, suf = d :: r := by cases suf with | nil => exact absurd rfl hs | cons d r => exact ⟨d, r, rfl⟩
      simp only [List.tail_cons] at hgt
      have hd : d ∈ D := h.right d rfl
      have e1 := congrArg List.length (fields_join hd (pre ++ tok) r)
      rw [← hw, List.length_append] at e1
      have e2 : (fields D (pre ++ tok)).length = n := by
        have hb := h.before
        cases hpre : pre.getLast? with
        | none =>
          have : pre = [] := List.getLast?_eq_none_iff.1 hpre
          subst this
          rw [fields] at hb
          rw [List.nil_append, fields_clean h.clean, if_neg h.nonempty]
          simpa using hb
        | some c =>
          have hc := h.left c hpre
          have hpe : pre = pre.dropLast ++ [c] := by
            rw [List.getLast?_eq_some_iff] at hpre
            obtain ⟨ys, rfl⟩ := hpre
            simp
          have g1 := congrArg List.length (fields_join hc pre.dropLast tok)
          have g2 := congrArg List.length (fields_join hc pre.dropLast [])
          rw [← hpe] at g2
          have e3 : pre.dropLast ++ c :: tok = pre ++ tok := by
            conv => rhs; rw [hpe]
            simp
          rw [e3, fields_clean h.clean, if_neg h.nonempty] at g1
          rw [fields_nil] at g2
          simp at g1 g2
          omega
      omega

/-- `n*` is the rest of the line from token `n` when the line has fewer than 65535 tokens. -/
theorem C23_rest_partial (D line : List Char) (n : Nat) (pre tok suf : List Char)
    (h : FieldAt D line n pre tok suf) (h' : (fields D line).length < 65535) :
    pre ++ forGetToken D (tokenWord n 65535) line = line :=
  C23_range_open D line n 65535 (by decide) pre tok suf h h'

/-- The claim fails for `n*` on longer lines: what follows token 65535 is lost. -/
theorem C23_rest_cut : ∃ (line pre tok suf : List Char), FieldAt [' '] line 1 pre tok suf ∧
    forGetToken [' '] (tokenWord 1 65535) line ≠ tok ++ suf := by
  let L (k : Nat) : List Char := (List.replicate k ['a', ' ']).flatten
  have hf : ∀ k, (fields [' '] (L k)).length = k := by
    intro k
    induction k with
    | zero => simp [L, fields]
    | succ k ih =>
      have : L (k + 1) = ['a'] ++ ' ' :: L k := by simp [L, List.replicate_succ]
      rw [this, fields_seg (by simp) (by simp) (by simp), List.length_cons, ih]
  obtain ⟨pre, tok, suf, h⟩ := FieldAt_exists [' '] (L 65536) 1 (by decide) (by rw [hf]; decide)
  obtain ⟨pre', tok', suf', h'⟩ := FieldAt_exists [' '] (L 65536) 65535 (by decide) (by rw [hf]; decide)
  obtain ⟨pre'', tok'', suf'', h''⟩ := FieldAt_exists [' '] (L 65536) 65536 (by decide) (by rw [hf]; decide)
  refine ⟨L 65536, pre, tok, suf, h, ?_⟩
  intro e
  have hr := C23_range _ _ 1 65535 (by decide) (by decide) _ _ _ _ _ _ h h'
  obtain ⟨d, r, _, hs, -, -⟩ := FieldAt_split h' h'' (by decide)
  rw [e, hs] at hr
  have hw := h.whole
  rw [List.append_assoc, List.append_assoc] at hr
  rw [List.append_assoc] at hw
  have := hr.trans hw
  have := congrArg List.length this
  simp at this

/-- Tokens of `a,b;,c d`: the second is `b`, the third `c d`, 1.2 is `a,b` and there is no fourth. -/
example : forGetToken ",;".toList (tokenWord 2 2) "a,b;,c d".toList = "b".toList ∧
    forGetToken ",;".toList (tokenWord 3 3) "a,b;,c d".toList = "c d".toList ∧
    forGetToken ",;".toList (tokenWord 4 4) "a,b;,c d".toList = [] := by
  refine ⟨?_, ?_, ?_⟩ <;> rw [C23_token _ _ _ (by decide) (by decide)] <;> decide +kernel

example : forGetToken ",;".toList (tokenWord 1 2) "a,b;,c d".toList = "a,b".toList := by
  have h := C23_range ",;".toList "a,b;,c d".toList 1 2 (by decide) (by decide) [] "a".toList ",b;,c d".toList "a,".toList "b".toList
    ";,c d".toList
    ⟨by decide, by decide, by decide, by decide, by intro c hc; simp at hc; subst hc; decide, by rw [fields]; rfl⟩
    ⟨by decide, by decide, by decide, by intro c hc; revert hc; simp; rintro rfl; decide,
      by intro c hc; simp at hc; subst hc; decide, by decide +kernel⟩
  have e : "a,b;,c d".toList = "a,b".toList ++ ";,c d".toList := by decide
  rw [List.nil_append] at h
  exact List.append_cancel_right (h.trans e)

end PBat
