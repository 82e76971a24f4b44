import Verif.Lemmas.Str
namespace PBat
open Spec

/-- Searching may restart at `k`: the character before is not a caret. -/
def Clean (s : List Char) (k : Nat) : Prop := k = 0 ∨ ∃ c, s[k - 1]? = some c ∧ c ≠ '^' ∧ k ≠ 0

/-- `r` is the least position `≥ k` with `P`. -/
def FirstFrom (P : Nat → Prop) (k : Nat) (r : Option Nat) : Prop := IsFirst (fun i => k ≤ i ∧ P i) r

theorem Clean_succ {s : List Char} {k : Nat} {c : Char} (h : s[k]? = some c) (hc : c ≠ '^') :
    Clean s (k + 1) := Or.inr ⟨c, by simpa using h, hc, by omega⟩

theorem split_at {s : List Char} {k : Nat} {c : Char} (h : s[k]? = some c) :
    s = s.take k ++ c :: s.drop (k + 1) ∧ (s.take k).length = k := by
  obtain ⟨hk, he⟩ := List.getElem?_eq_some_iff.1 h
  refine ⟨?_, by simp; omega⟩
  rw [← he, ← List.drop_eq_getElem_cons hk, List.take_append_drop]

theorem Free_drop {s : List Char} {k : Nat} (h : Clean s k) (j : Nat) :
    Free s (k + j) ↔ Free (s.drop k) j := by
  rcases h with rfl | ⟨c, h, hc, hk⟩
  · simp
  · obtain ⟨n, rfl⟩ : ∃ n, k = n + 1 := ⟨k - 1, by omega⟩
    simp only [Nat.add_sub_cancel] at h
    obtain ⟨h1, h2⟩ := split_at h
    have := Free_shift (s.take n) c (s.drop (n + 1)) j hc
    rw [h2, ← h1] at this
    exact this

theorem Hit_drop {p : Char → Bool} {s : List Char} {k : Nat} (h : Clean s k) (j : Nat) :
    Hit p s (k + j) ↔ Hit p (s.drop k) j := by
  simp only [Hit, Free_drop h, List.getElem?_drop]

theorem searchFrom_first {p : Char → Bool} {s : List Char} {k : Nat}
    (h : Clean s k) : FirstFrom (Hit p s) k (searchFrom p s k) := by
  have hs := searchTok_first p (s.drop k)
  unfold searchFrom
  cases hr : searchTok p (s.drop k) with
  | none =>
    rw [hr] at hs
    rintro i ⟨hki, hi⟩
    apply hs (i - k)
    rw [← Hit_drop h]
    rwa [Nat.add_sub_cancel' hki]
  | some a =>
    rw [hr] at hs
    obtain ⟨h1, h2⟩ := hs
    refine ⟨⟨by simp, ?_⟩, ?_⟩
    · rw [← Hit_drop h] at h1
      rwa [Nat.add_comm] at h1
    · rintro j hj ⟨hkj, hh⟩
      simp only at hj
      apply h2 (j - k) (by omega)
      rw [← Hit_drop h]
      rwa [Nat.add_sub_cancel' hkj]

theorem Hit_quote (s : List Char) (i : Nat) : Hit (· == '"') s i ↔ QuoteAt s i := by
  simp [Hit, QuoteAt]

theorem searchFrom_quote {s : List Char} {k : Nat} (h : Clean s k) :
    FirstFrom (QuoteAt s) k (searchFrom (· == '"') s k) := by
  have := searchFrom_first (p := (· == '"')) h
  have e : Hit (· == '"') s = QuoteAt s := by funext i; simp [Hit_quote]
  rwa [e] at this

theorem quotesBefore_succ (s : List Char) (i : Nat) :
    quotesBefore s (i + 1) = quotesBefore s i + if QuoteAt s i then 1 else 0 := by
  simp only [quotesBefore, List.range_succ, List.filter_append, List.length_append]
  congr 1
  simp only [List.filter_cons, List.filter_nil]
  by_cases h : QuoteAt s i <;> simp [h]

theorem quotesBefore_same {s : List Char} {k m : Nat} (hkm : k ≤ m)
    (h : ∀ i, k ≤ i → i < m → ¬ QuoteAt s i) : quotesBefore s m = quotesBefore s k := by
  induction m with
  | zero => have : k = 0 := by omega
            subst this; rfl
  | succ n ih =>
    by_cases hk : k = n + 1
    · rw [hk]
    · rw [quotesBefore_succ, if_neg (h n (by omega) (by omega)), Nat.add_zero]
      exact ih (by omega) (fun i h1 h2 => h i h1 (by omega))

theorem quoteLoop_spec (s : List Char) (nxt : Nat) (q : Option Nat) (i k : Nat)
    (hq : FirstFrom (QuoteAt s) k q) (hk : k ≤ nxt + 1) (hi : i < 2) :
    FirstFrom (QuoteAt s) (nxt + 1) (quoteLoop s nxt q i).1 ∧ (quoteLoop s nxt q i).2 < 2 ∧
    (quoteLoop s nxt q i).2 % 2 = (i + quotesBefore s (nxt + 1) + quotesBefore s k) % 2 := by
  fun_induction quoteLoop s nxt q i generalizing k with
  | case1 i =>
    refine ⟨fun j hj => hq j ⟨by omega, hj.2⟩, hi, ?_⟩
    have := quotesBefore_same hk (fun j h1 _ h3 => hq j ⟨h1, h3⟩)
    simp only; omega
  | case2 i q hle heq =>
    obtain ⟨⟨h1, h2⟩, h3⟩ := hq
    have hc : Clean s (q + 1) := Clean_succ h2.1 (by decide)
    have hs := searchFrom_quote hc
    rw [heq] at hs
    have e1 := quotesBefore_same h1 (fun j a b c => h3 j b ⟨a, c⟩)
    have e2 := quotesBefore_succ s q
    rw [if_pos h2] at e2
    have e3 := quotesBefore_same (m := nxt + 1) (k := q + 1) (by omega) (fun j a _ c => hs j ⟨a, c⟩)
    refine ⟨fun j hj => hs j ⟨by omega, hj.2⟩, by simp only; omega, by simp only; omega⟩
  | case3 i q hle q' heq ih =>
    obtain ⟨⟨h1, h2⟩, h3⟩ := hq
    have hc : Clean s (q + 1) := Clean_succ h2.1 (by decide)
    have hs := searchFrom_quote hc
    rw [heq] at hs
    have e1 := quotesBefore_same h1 (fun j a b c => h3 j b ⟨a, c⟩)
    have e2 := quotesBefore_succ s q
    rw [if_pos h2] at e2
    obtain ⟨r1, r2, r3⟩ := ih (q + 1) hs (by omega) (by omega)
    exact ⟨r1, r2, by omega⟩
  | case4 i q hle =>
    obtain ⟨⟨h1, h2⟩, h3⟩ := hq
    have e := quotesBefore_same hk (fun j a b c => h3 j (by omega) ⟨a, c⟩)
    refine ⟨⟨⟨by omega, h2⟩, fun j hj hh => h3 j hj ⟨by omega, hh.2⟩⟩, hi, by simp only; omega⟩

theorem strpbrkFrom_none {p : Char → Bool} {s : List Char} {k : Nat} (h : strpbrkFrom p s k = none) :
    ∀ i, k ≤ i → ∀ c, s[i]? = some c → p c = false := by
  unfold strpbrkFrom at h
  split at h
  · next seg heq =>
    obtain ⟨h1, h2, -⟩ := strpbrk_spec heq
    simp only [List.append_nil] at h1
    intro i hi c hc
    apply h2
    rw [← h1]
    apply List.mem_of_getElem? (i := i - k)
    rw [List.getElem?_drop, Nat.add_sub_cancel' hi, hc]
  · simp at h

theorem strpbrkFrom_some {p : Char → Bool} {s : List Char} {k n : Nat} (h : strpbrkFrom p s k = some n) :
    k ≤ n ∧ (∃ c, s[n]? = some c ∧ p c = true) ∧
    ∀ i, k ≤ i → i < n → ∀ c, s[i]? = some c → p c = false := by
  unfold strpbrkFrom at h
  split at h
  · simp at h
  · next seg d rest heq =>
    obtain ⟨h1, h2, h3⟩ := strpbrk_spec heq
    simp only [Option.some.injEq] at h
    subst h
    refine ⟨by omega, ⟨d, ?_, h3 d rest rfl⟩, ?_⟩
    · rw [← List.getElem?_drop, h1]; simp
    · intro i hi hin c hc
      apply h2
      apply List.mem_of_getElem? (i := i - k)
      have : (s.drop k)[i - k]? = some c := by rw [List.getElem?_drop, Nat.add_sub_cancel' hi, hc]
      rw [h1, List.getElem?_append_left (by omega)] at this
      exact this

theorem scanBack_free {s : List Char} {k n : Nat} (hc : Clean s k) (hkn : k ≤ n) :
    scanBack true ((s.take n).drop k).reverse = true ↔ Free s n := by
  rw [scanBack_true]
  have := Free_drop hc (n - k)
  rw [Nat.add_sub_cancel' hkn] at this
  rw [this]
  simp only [Free, caretsBefore]
  rw [List.drop_take]

theorem mid_not {p : Char → Bool} {s : List Char} {k n : Nat}
    (h : ∀ i, k ≤ i → i < n → ∀ c, s[i]? = some c → p c = false) :
    ∀ c ∈ (s.take n).drop k, p c = false := by
  intro c hc
  obtain ⟨i, hi⟩ := List.mem_iff_getElem?.1 hc
  rw [List.getElem?_drop, List.getElem?_take] at hi
  split at hi
  · exact h (k + i) (by omega) (by omega) c hi
  · simp at hi

/-- The positions a quote-aware search looks for. -/
def OutHit (p : Char → Bool) (s : List Char) (i : Nat) : Prop := Hit p s i ∧ OutQuotes s i

theorem outQuotesLoop_spec (p : Char → Bool) (s : List Char) (ch : Nat)
    (q : Option Nat) (hcl : Clean s ch) (hq : FirstFrom (QuoteAt s) ch q)
    (hev : quotesBefore s ch % 2 = 0) :
    FirstFrom (OutHit p s) ch (outQuotesLoop p s ch q) := by
  -- moving the start of the search over positions without a hit
  have skip : ∀ {a b : Nat} {r : Option Nat}, a ≤ b → (∀ i, a ≤ i → i < b → ¬ OutHit p s i) →
      FirstFrom (OutHit p s) b r → FirstFrom (OutHit p s) a r := by
    intro a b r hab hno hf
    cases r with
    | none =>
      rintro i ⟨h1, h2⟩
      by_cases hb : b ≤ i
      · exact hf i ⟨hb, h2⟩
      · exact hno i h1 (by omega) h2
    | some r =>
      obtain ⟨⟨h1, h2⟩, h3⟩ := hf
      refine ⟨⟨by omega, h2⟩, ?_⟩
      rintro j hj ⟨h4, h5⟩
      by_cases hb : b ≤ j
      · exact h3 j hj ⟨hb, h5⟩
      · exact hno j h4 (by omega) h5
  have notP : ∀ {i : Nat}, (∀ c, s[i]? = some c → p c = false) → ¬ OutHit p s i := by
    rintro i h ⟨⟨⟨c, hc, hpc⟩, -⟩, -⟩
    rw [h c hc] at hpc; exact absurd hpc (by decide)
  fun_induction outQuotesLoop p s ch q with
  | case1 ch q heq =>
    rintro i ⟨h1, h2⟩
    exact notP (strpbrkFrom_none heq i h1) h2
  | case2 ch q nxt heq hany heq2 =>
    obtain ⟨n1, n2, n3⟩ := strpbrkFrom_some heq
    have ql := quoteLoop_spec s nxt q 1 ch hq (by omega) (by omega)
    rw [heq2] at ql
    obtain ⟨l1, l2, l3⟩ := ql
    simp only at l3
    rintro j ⟨h1, h2⟩
    by_cases hj : j < nxt
    · exact notP (n3 j h1 hj) h2
    · obtain ⟨-, h3, h4⟩ := h2
      by_cases hj2 : j = nxt
      · subst hj2
        rw [quotesBefore_succ, if_neg h4] at l3
        omega
      · have := quotesBefore_same (m := j) (k := nxt + 1) (by omega) (fun i a _ c => l1 i ⟨a, c⟩)
        omega
  | case3 ch q nxt heq hany i heq2 hi hok =>
    obtain ⟨n1, ⟨c, n2, n2'⟩, n3⟩ := strpbrkFrom_some heq
    have ql := quoteLoop_spec s nxt q 1 ch hq (by omega) (by omega)
    rw [heq2] at ql
    obtain ⟨l1, l2, l3⟩ := ql
    simp only at l3
    have hfree := (scanBack_free hcl n1).1 hok
    have hnq : ¬ QuoteAt s nxt := by
      intro hqa
      rw [quotesBefore_succ, if_pos hqa] at l3
      -- an opening quote before would itself be a hit
      cases q with
      | none => simp at hany
      | some q0 =>
        obtain ⟨⟨a1, a2⟩, a3⟩ := hq
        simp only [Option.any_some, decide_eq_true_eq] at hany
        have hpq : p '"' = true := by
          have : c = '"' := by rw [hqa.1] at n2; exact (Option.some.inj n2).symm
          rw [← this]; exact n2'
        by_cases hlt : q0 < nxt
        · have := n3 q0 a1 hlt _ a2.1
          rw [hpq] at this; exact absurd this (by decide)
        · have : q0 = nxt := by omega
          subst this
          have := quotesBefore_same a1 (fun j a b c => a3 j b ⟨a, c⟩)
          simp only at l2
          omega
    rw [quotesBefore_succ, if_neg hnq] at l3
    simp only at l2
    refine ⟨⟨n1, ⟨⟨c, n2, n2'⟩, hfree⟩, by omega, hnq⟩, ?_⟩
    rintro j hj ⟨h1, h2⟩
    exact notP (n3 j h1 hj) h2
  | case4 ch q nxt heq hany i heq2 hi hok ih =>
    obtain ⟨n1, ⟨c, n2, n2'⟩, n3⟩ := strpbrkFrom_some heq
    have ql := quoteLoop_spec s nxt q 1 ch hq (by omega) (by omega)
    rw [heq2] at ql
    obtain ⟨l1, l2, l3⟩ := ql
    simp only at l3 l2
    have hp := hit_not_caret (mid_not n3) hok
    have hc : c ≠ '^' := by rintro rfl; rw [hp] at n2'; exact absurd n2' (by decide)
    have hnf : ¬ Free s nxt := fun h => hok ((scanBack_free hcl n1).2 h)
    refine skip (b := nxt + 1) (by omega) ?_ (ih (Clean_succ n2 hc) l1 (by omega))
    intro j h1 h2
    by_cases hj : j = nxt
    · subst hj; exact fun h => hnf h.1.2
    · exact notP (n3 j h1 (by omega))
  | case5 ch q nxt heq hany q' heq2 ih =>
    obtain ⟨n1, ⟨c, n2, n2'⟩, n3⟩ := strpbrkFrom_some heq
    have ql := quoteLoop_spec s nxt q 1 ch hq (by omega) (by omega)
    rw [heq2] at ql
    obtain ⟨⟨⟨b1, b2⟩, b3⟩, l2, l3⟩ := ql
    simp only at l3 l2
    have hc : Clean s (q' + 1) := Clean_succ b2.1 (by decide)
    have e := quotesBefore_same b1 (fun j a b c => b3 j b ⟨a, c⟩)
    refine skip (b := q' + 1) (by omega) ?_ (ih hc (searchFrom_quote hc) ?_)
    · intro j h1 h2
      by_cases hj : j < nxt
      · exact notP (n3 j h1 hj)
      · rintro ⟨-, h3, h4⟩
        by_cases hj2 : j = nxt
        · subst hj2
          rw [quotesBefore_succ, if_neg h4] at l3
          omega
        · by_cases hj3 : j = q'
          · subst hj3; exact h4 b2
          · have := quotesBefore_same (m := j) (k := nxt + 1) (by omega)
              (fun i a b c => b3 i (by omega) ⟨a, c⟩)
            omega
    · rw [quotesBefore_succ, if_pos b2]; omega
  | case6 ch q nxt heq hany q' i heq2 hi hok =>
    obtain ⟨n1, ⟨c, n2, n2'⟩, n3⟩ := strpbrkFrom_some heq
    have ql := quoteLoop_spec s nxt q 1 ch hq (by omega) (by omega)
    rw [heq2] at ql
    obtain ⟨l1, l2, l3⟩ := ql
    simp only at l3
    have hfree := (scanBack_free hcl n1).1 hok
    have hnq : ¬ QuoteAt s nxt := by
      intro hqa
      rw [quotesBefore_succ, if_pos hqa] at l3
      cases q with
      | none => simp at hany
      | some q0 =>
        obtain ⟨⟨a1, a2⟩, a3⟩ := hq
        simp only [Option.any_some, decide_eq_true_eq] at hany
        have hpq : p '"' = true := by
          have : c = '"' := by rw [hqa.1] at n2; exact (Option.some.inj n2).symm
          rw [← this]; exact n2'
        by_cases hlt : q0 < nxt
        · have := n3 q0 a1 hlt _ a2.1
          rw [hpq] at this; exact absurd this (by decide)
        · have : q0 = nxt := by omega
          subst this
          have := quotesBefore_same a1 (fun j a b c => a3 j b ⟨a, c⟩)
          simp only at l2
          omega
    rw [quotesBefore_succ, if_neg hnq] at l3
    simp only at l2
    refine ⟨⟨n1, ⟨⟨c, n2, n2'⟩, hfree⟩, by omega, hnq⟩, ?_⟩
    rintro j hj ⟨h1, h2⟩
    exact notP (n3 j h1 hj) h2
  | case7 ch q nxt heq hany q' i heq2 hi hok ih =>
    obtain ⟨n1, ⟨c, n2, n2'⟩, n3⟩ := strpbrkFrom_some heq
    have ql := quoteLoop_spec s nxt q 1 ch hq (by omega) (by omega)
    rw [heq2] at ql
    obtain ⟨l1, l2, l3⟩ := ql
    simp only at l3 l2
    have hp := hit_not_caret (mid_not n3) hok
    have hc : c ≠ '^' := by rintro rfl; rw [hp] at n2'; exact absurd n2' (by decide)
    have hnf : ¬ Free s nxt := fun h => hok ((scanBack_free hcl n1).2 h)
    refine skip (b := nxt + 1) (by omega) ?_ (ih (Clean_succ n2 hc) l1 (by omega))
    intro j h1 h2
    by_cases hj : j = nxt
    · subst hj; exact fun h => hnf h.1.2
    · exact notP (n3 j h1 (by omega))
  | case8 ch q nxt heq hany hok =>
    obtain ⟨n1, ⟨c, n2, n2'⟩, n3⟩ := strpbrkFrom_some heq
    have hfree := (scanBack_free hcl n1).1 hok
    have hno : ∀ j, ch ≤ j → j ≤ nxt → ¬ QuoteAt s j := by
      intro j h1 h2 h3
      cases q with
      | none => exact hq j ⟨h1, h3⟩
      | some q0 =>
        simp only [Option.any_some, decide_eq_true_eq] at hany
        exact hq.2 j (by omega) ⟨h1, h3⟩
    have e := quotesBefore_same n1 (fun j a b => hno j a (by omega))
    refine ⟨⟨n1, ⟨⟨c, n2, n2'⟩, hfree⟩, by omega, hno _ n1 (by omega)⟩, ?_⟩
    rintro j hj ⟨h1, h2⟩
    exact notP (n3 j h1 hj) h2
  | case9 ch q nxt heq hany hok ih =>
    obtain ⟨n1, ⟨c, n2, n2'⟩, n3⟩ := strpbrkFrom_some heq
    have hp := hit_not_caret (mid_not n3) hok
    have hc : c ≠ '^' := by rintro rfl; rw [hp] at n2'; exact absurd n2' (by decide)
    have hnf : ¬ Free s nxt := fun h => hok ((scanBack_free hcl n1).2 h)
    have hno : ∀ j, ch ≤ j → j ≤ nxt → ¬ QuoteAt s j := by
      intro j h1 h2 h3
      cases q with
      | none => exact hq j ⟨h1, h3⟩
      | some q0 =>
        simp only [Option.any_some, decide_eq_true_eq] at hany
        exact hq.2 j (by omega) ⟨h1, h3⟩
    have e := quotesBefore_same (m := nxt + 1) (by omega) (fun j a b => hno j a (by omega))
    have hq' : FirstFrom (QuoteAt s) (nxt + 1) q := by
      cases q with
      | none => exact fun j hj => hq j ⟨by omega, hj.2⟩
      | some q0 =>
        simp only [Option.any_some, decide_eq_true_eq] at hany
        exact ⟨⟨by omega, hq.1.2⟩, fun j hj hh => hq.2 j hj ⟨by omega, hh.2⟩⟩
    refine skip (b := nxt + 1) (by omega) ?_ (ih (Clean_succ n2 hc) hq' (by omega))
    intro j h1 h2
    by_cases hj : j = nxt
    · subst hj; exact fun h => hnf h.1.2
    · exact notP (n3 j h1 (by omega))

theorem searchOutQuotes_spec (p : Char → Bool) (s : List Char) :
    IsFirst (fun i => Hit p s i ∧ OutQuotes s i) (searchOutQuotes p s) := by
  have := outQuotesLoop_spec p s 0 _ (Or.inl rfl) (searchFrom_quote (Or.inl rfl)) (by simp [quotesBefore])
  simpa only [FirstFrom, Nat.zero_le, true_and, OutHit, searchOutQuotes] using this

end PBat
