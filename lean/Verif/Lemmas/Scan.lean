import Verif.Lemmas.Block
/-
The quote-aware search as a left-to-right scan.
-/
namespace PBat
open Spec

/-- Left-to-right scan: `q` tells whether the position is inside quotes. -/
def outScan (p : Char → Bool) (q : Bool) : List Char → Option Nat
  | [] => none
  | '^' :: [] => none
  | '^' :: _ :: r => (outScan p q r).map (· + 2)
  | c :: r =>
    if c = '"' then (outScan p (!q) r).map (· + 1)
    else if !q && p c then some 0
    else (outScan p q r).map (· + 1)

theorem outScan_ne {c : Char} (hc : c ≠ '^') (p : Char → Bool) (q : Bool) (r : List Char) :
    outScan p q (c :: r) =
      if c = '"' then (outScan p (!q) r).map (· + 1)
      else if !q && p c then some 0
      else (outScan p q r).map (· + 1) := by
  rw [outScan.eq_def]
  split
  · contradiction
  · next h => simp at h; exact absurd h.1 hc
  · next h => simp at h; exact absurd h.1 hc
  · next h => cases h; rfl

/-- The positions the scan looks for. -/
def ScanHit (p : Char → Bool) (q : Bool) (s : List Char) (i : Nat) : Prop :=
  Hit p s i ∧ (quotesBefore s i + q.toNat) % 2 = 0 ∧ ¬ QuoteAt s i

theorem IsFirst_shift {P Q : Nat → Prop} {n : Nat} {r : Option Nat} (h : IsFirst Q r) (hlo : ∀ i, i < n → ¬ P i)
    (hsh : ∀ i, P (n + i) ↔ Q i) : IsFirst P (r.map (· + n)) := by
  cases r with
  | none =>
    intro i hi
    rcases Nat.lt_or_ge i n with h' | h'
    · exact hlo i h' hi
    · obtain ⟨j, rfl⟩ : ∃ j, i = n + j := ⟨i - n, by omega⟩
      exact h j ((hsh j).1 hi)
  | some k =>
    refine ⟨?_, ?_⟩
    · simp only
      rw [Nat.add_comm]
      exact (hsh k).2 h.1
    · intro j hj hp
      simp only at hj
      rcases Nat.lt_or_ge j n with h' | h'
      · exact hlo j h' hp
      · obtain ⟨m, rfl⟩ : ∃ m, j = n + m := ⟨j - n, by omega⟩
        exact h.2 m (by omega) ((hsh m).1 hp)

theorem ScanHit_append {p : Char → Bool} {u : List Char} (hu : caretsBefore u u.length % 2 = 0) (q q' : Bool)
    (hq : (quotesBefore u u.length + q.toNat) % 2 = q'.toNat) (v : List Char) (i : Nat) :
    ScanHit p q (u ++ v) (u.length + i) ↔ ScanHit p q' v i := by
  unfold ScanHit
  rw [Hit_append hu, QuoteAt_append hu, quotesBefore_append hu]
  have : (quotesBefore u u.length + quotesBefore v i + q.toNat) % 2 = (quotesBefore v i + q'.toNat) % 2 := by omega
  rw [this]

theorem caretPair_even (d : Char) : caretsBefore ['^', d] ['^', d].length % 2 = 0 := by
  unfold caretsBefore
  by_cases hd : d = '^'
  · subst hd; decide
  · simp [hd]

theorem caretPair_quotes (d : Char) : quotesBefore ['^', d] ['^', d].length = 0 := by
  have h0 : ¬ QuoteAt ['^', d] 0 := by simp [QuoteAt]
  have h1 : ¬ QuoteAt ['^', d] 1 := by simp [QuoteAt, Free, caretsBefore]
  simp [quotesBefore, List.range, List.range.loop, h0, h1]

theorem outScan_spec (p : Char → Bool) (hp : p '^' = false) : ∀ (n : Nat) (s : List Char), s.length ≤ n → ∀ q : Bool,
    IsFirst (ScanHit p q s) (outScan p q s) := by
  intro n
  induction n with
  | zero =>
    intro s hs q
    have : s = [] := List.length_eq_zero_iff.1 (by omega)
    subst this
    intro i hi
    have := hi.1.1
    simp at this
  | succ n ih =>
    intro s hs q
    cases s with
    | nil =>
      intro i hi
      have := hi.1.1
      simp at this
    | cons c s =>
      by_cases hc : c = '^'
      · subst hc
        have h0 : ∀ s : List Char, ¬ ScanHit p q ('^' :: s) 0 := by
          rintro s ⟨⟨⟨c, hc, hp'⟩, -⟩, -⟩
          simp at hc
          subst hc
          rw [hp] at hp'
          exact absurd hp' (by simp)
        cases s with
        | nil =>
          intro i hi
          have := Hit_lt hi.1
          have : i = 0 := by simp at this; omega
          subst this
          exact h0 _ hi
        | cons d s =>
          rw [outScan.eq_3]
          have hrec := ih s (by simp at hs; omega) q
          refine IsFirst_shift (n := 2) hrec ?_ ?_
          · intro i hi
            have : i = 0 ∨ i = 1 := by omega
            rcases this with rfl | rfl
            · exact h0 _
            · rintro ⟨⟨-, hf⟩, -⟩
              simp [Free, caretsBefore] at hf
          · intro i
            exact ScanHit_append (u := ['^', d]) (caretPair_even d) q q (by rw [caretPair_quotes]; cases q <;> rfl) s i
      · rw [outScan_ne hc]
        have hu : caretsBefore [c] [c].length % 2 = 0 := by simp [caretsBefore, hc]
        have hfree : Free (c :: s) 0 := by simp [Free, caretsBefore]
        have hqb : quotesBefore (c :: s) 0 = 0 := by simp [quotesBefore]
        by_cases hcq : c = '"'
        · rw [if_pos hcq]
          refine IsFirst_shift (n := 1) (ih s (by simp at hs; omega) (!q)) ?_ ?_
          · intro i hi
            have : i = 0 := by omega
            subst this
            rintro ⟨-, -, hnq⟩
            exact hnq ⟨by simp [hcq], hfree⟩
          · intro i
            refine ScanHit_append (u := [c]) hu q (!q) ?_ s i
            subst hcq
            have hq : quotesBefore ['"'] ['"'].length = 1 := by decide
            rw [hq]
            cases q <;> rfl
        · rw [if_neg hcq]
          have hnq : ¬ QuoteAt (c :: s) 0 := by simp [QuoteAt, hcq]
          have hq0 : quotesBefore [c] [c].length = 0 := by
            simp [quotesBefore, List.range, List.range.loop, QuoteAt, hcq]
          split
          · next h =>
            simp only [Bool.and_eq_true, Bool.not_eq_true'] at h
            refine ⟨⟨⟨⟨c, rfl, h.2⟩, hfree⟩, ?_, hnq⟩, by simp⟩
            rw [hqb, h.1]
            rfl
          · next h =>
            refine IsFirst_shift (n := 1) (ih s (by simp at hs; omega) q) ?_ ?_
            · intro i hi
              have : i = 0 := by omega
              subst this
              rintro ⟨⟨⟨d, hd, hpd⟩, -⟩, hev, -⟩
              simp at hd
              subst hd
              rw [hqb] at hev
              apply h
              cases q
              · simp [hpd]
              · simp at hev
            · intro i
              exact ScanHit_append (u := [c]) hu q q (by rw [hq0]; cases q <;> rfl) s i

theorem searchOutQuotes_scan (p : Char → Bool) (hp : p '^' = false) (s : List Char) :
    searchOutQuotes p s = outScan p false s := by
  have h1 := searchOutQuotes_spec p s
  have h2 := outScan_spec p hp s.length s (Nat.le_refl _) false
  apply IsFirst_unique h1
  have e : ScanHit p false s = fun i => Hit p s i ∧ OutQuotes s i := by
    funext i
    simp [ScanHit, OutQuotes]
  rwa [e] at h2

end PBat
