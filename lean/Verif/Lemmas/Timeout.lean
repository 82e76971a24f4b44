import Verif.Model.Timeout
import Verif.Spec.Timeout
import Verif.Lemmas.If
import Verif.Lemmas.Num
import Verif.Lemmas.Shift
/-
Lemmas for TIMEOUT: rounding, the loop, numbers.
-/
namespace PBat
open Spec

theorem roundDiv_near {p q : Nat} (hq : 0 < q) : 2 * (q * roundDiv p q) ≤ 2 * p + q ∧ 2 * p ≤ 2 * (q * roundDiv p q) + q := by
  unfold roundDiv
  have h := Nat.div_add_mod p q
  have h2 := Nat.mod_lt p hq
  split
  · rename_i hc
    rw [Nat.mul_add]
    rcases hc with hc | hc <;> omega
  · rename_i hc
    have : ¬ q < 2 * (p % q) := fun h => hc (.inl h)
    omega

theorem pow_log2_le {n : Nat} (h : n ≠ 0) : 2 ^ n.log2 ≤ n := Nat.log2_self_le h

theorem roundRatio_near {p q : Nat} (hq : 0 < q) :
    2 ^ 53 * (q * roundRatio p q) ≤ 2 ^ 53 * p + p + 2 ^ 52 * q ∧ 2 ^ 53 * p ≤ 2 ^ 53 * (q * roundRatio p q) + p + 2 ^ 52 * q := by
  unfold roundRatio
  simp only
  generalize hk : (p / q).log2 - 52 = k
  have hK : 0 < 2 ^ k := Nat.pow_pos (by omega)
  have h1 := roundDiv_near (p := p) (q := q * 2 ^ k) (Nat.mul_pos hq hK)
  have h2 : q * (roundDiv p (q * 2 ^ k) * 2 ^ k) = q * 2 ^ k * roundDiv p (q * 2 ^ k) := by
    rw [Nat.mul_assoc, Nat.mul_comm (roundDiv _ _)]
  rw [h2]
  have h3 : 2 ^ 52 * (q * 2 ^ k) ≤ p + 2 ^ 52 * q := by
    by_cases h0 : k = 0
    · subst h0
      simp
    · have hl : (p / q).log2 = k + 52 := by omega
      have hne : p / q ≠ 0 := by
        intro h
        rw [h] at hl
        simp at hl
      have h4 := pow_log2_le hne
      rw [hl] at h4
      have h5 : q * 2 ^ (k + 52) ≤ p := Nat.le_trans (Nat.mul_le_mul_left q h4) (Nat.mul_div_le p q)
      have h6 : q * 2 ^ (k + 52) = 2 ^ 52 * (q * 2 ^ k) := by
        rw [Nat.pow_add]
        ac_rfl
      omega
  omega

theorem roundMag_near (m : Nat) : 2 ^ 53 * roundMag m ≤ 2 ^ 53 * m + m ∧ 2 ^ 53 * m ≤ 2 ^ 53 * roundMag m + m := by
  unfold roundMag
  split
  · omega
  · rename_i hm
    simp only
    have hm0 : m ≠ 0 := by omega
    have hl : 53 ≤ m.log2 := (Nat.le_log2 hm0).2 (by omega)
    generalize hk : m.log2 - 52 = k
    have hl' : m.log2 = k + 52 := by omega
    have h4 := pow_log2_le hm0
    rw [hl', Nat.pow_add] at h4
    have h5 := Nat.div_add_mod m (2 ^ k)
    have h6 := Nat.mod_lt m (Nat.pow_pos (n := k) (show 0 < 2 by omega))
    generalize m / 2 ^ k = a at *
    generalize m % 2 ^ k = r at *
    generalize 2 ^ k = K at *
    have h7 : (a + 1) * K = K * a + K := by rw [Nat.succ_mul, Nat.mul_comm]
    have h8 : a * K = K * a := Nat.mul_comm _ _
    split
    · rename_i hc
      rw [h7]
      rcases hc with hc | hc <;> omega
    · rename_i hc
      have : ¬ K < 2 * r := fun h => hc (.inl h)
      rw [h8]
      omega

/-- The greatest duration considered: 100001 seconds. -/
def longest : Nat := 100001 * fOne

theorem tenth_near : 2 ^ 50 * (10 * sleepTenth) ≤ 2 ^ 50 * fOne + fOne ∧ 2 ^ 50 * fOne ≤ 2 ^ 50 * (10 * sleepTenth) + fOne := by decide +kernel

theorem millis_tenth : millis sleepTenth = 100 := by decide +kernel

theorem fOne_big : 2 ^ 1000 ≤ fOne := by decide +kernel

theorem fOne_pos : 0 < fOne := by decide +kernel

theorem millis_near (n : Nat) : 2 ^ 53 * (millis n * fOne) ≤ 2 ^ 53 * (1000 * n) + 1000 * n ∧
    2 ^ 53 * (1000 * n) ≤ 2 ^ 53 * (millis n * fOne) + 2 ^ 53 * fOne + 1000 * n := by
  unfold millis
  have h1 := roundMag_near (n * 1000)
  have h2 := Nat.div_add_mod (roundMag (n * 1000)) fOne
  have h3 := Nat.mod_lt (roundMag (n * 1000)) fOne_pos
  rw [Nat.mul_comm] at h2
  omega

theorem millis_last {n : Nat} (h : n ≤ sleepTenth) : millis n ≤ 100 := by
  have h1 := (millis_near n).1
  have h2 := tenth_near.1
  have h3 := fOne_pos
  have h4 : millis n * fOne < 101 * fOne := by omega
  have := Nat.lt_of_mul_lt_mul_right h4
  omega

/-- A step of the loop gets nearer to the end, by a tenth of a second up to an error. -/
theorem tenth_step {n : Nat} (hn : n ≤ longest) (ht : sleepTenth < n) :
    roundMag (n - sleepTenth) < n ∧ 2 ^ 26 * (1000 * roundMag (n - sleepTenth) + 100 * fOne) ≤ 2 ^ 26 * (1000 * n) + fOne ∧
      2 ^ 26 * (1000 * n) ≤ 2 ^ 26 * (1000 * roundMag (n - sleepTenth) + 100 * fOne) + fOne := by
  have h1 := roundMag_near (n - sleepTenth)
  have h2 := tenth_near
  have h3 := fOne_pos
  unfold longest at hn
  generalize roundMag (n - sleepTenth) = x at *
  omega

/-- The loop, when no key ends it. -/
theorem timeoutLoop_duration {nobreak : Bool} {key : Option Nat} (hk : nobreak = true ∨ key = none) (n : Nat) :
    ∀ now, n ≤ longest → ∃ D, timeoutLoop nobreak key n now = .ok (now + D) ∧
      100 * 2 ^ 26 * (D * fOne) ≤ 100 * 2 ^ 26 * (1000 * n) + D * fOne + 100 * fOne ∧
      100 * 2 ^ 26 * (1000 * n) ≤ 100 * 2 ^ 26 * (D * fOne) + D * fOne + 100 * 2 ^ 26 * fOne + 100 * fOne := by
  induction n using Nat.strongRecOn with
  | _ n ih =>
    intro now hn
    rw [timeoutLoop.eq_1]
    by_cases h0 : n = 0
    · rw [if_pos h0]
      exact ⟨0, rfl, by omega, by omega⟩
    · rw [if_neg h0]
      by_cases ht : sleepTenth < n
      · have hh : (!nobreak && keyHit key (now + millis sleepTenth)) = false := by
          rcases hk with rfl | rfl <;> simp [keyHit]
        obtain ⟨h1, h2, h3⟩ := tenth_step hn ht
        rw [if_pos ht, hh, if_neg (by simp), if_pos h1, millis_tenth]
        obtain ⟨D, e, ha, hb⟩ := ih _ h1 (now + 100) (by omega)
        refine ⟨100 + D, by rw [e, Nat.add_assoc], ?_, ?_⟩
        all_goals
          rw [Nat.add_mul]
          omega
      · rw [if_neg ht]
        have h1 := millis_near n
        have h2 := tenth_near
        refine ⟨millis n, rfl, ?_, ?_⟩ <;> omega

/-- Keys count only without `/NOBREAK`. -/
theorem timeoutLoop_still {nobreak : Bool} {key : Option Nat} (hk : nobreak = true ∨ key = none) (n : Nat) :
    ∀ now, timeoutLoop nobreak key n now = timeoutLoop false none n now := by
  induction n using Nat.strongRecOn with
  | _ n ih =>
    intro now
    rw [timeoutLoop.eq_1, timeoutLoop.eq_1 false]
    have hh : ∀ x, (!nobreak && keyHit key x) = false := by
      intro x
      rcases hk with rfl | rfl <;> simp [keyHit]
    have hh' : ∀ x, (!false && keyHit none x) = false := by simp [keyHit]
    simp only [hh, hh']
    split
    · rfl
    · split
      · split
        · rfl
        · split
          · rename_i h; exact ih _ h _
          · rfl
      · rfl

/-- A key ends the loop. -/
theorem timeoutLoop_key (T : Nat) (n : Nat) : ∀ now D, n ≤ longest → now ≤ T → timeoutLoop false none n now = .ok D →
    now ≤ D ∧ ∃ m, timeoutLoop false (some T) n now = .ok m ∧ now ≤ m ∧ m ≤ D ∧ m ≤ T + 100 ∧ (m = D ∨ T ≤ m) := by
  induction n using Nat.strongRecOn with
  | _ n ih =>
    intro now D hn hT h
    rw [timeoutLoop.eq_1] at h ⊢
    by_cases h0 : n = 0
    · rw [if_pos h0] at h ⊢
      cases h
      exact ⟨by omega, _, rfl, by omega, by omega, by omega, .inl rfl⟩
    · rw [if_neg h0] at h ⊢
      by_cases ht : sleepTenth < n
      · obtain ⟨h1, -, -⟩ := tenth_step hn ht
        rw [if_pos ht, if_neg (by simp [keyHit]), if_pos h1, millis_tenth] at h
        obtain ⟨D', e, -, -⟩ := timeoutLoop_duration (nobreak := false) (key := none) (.inr rfl) _ (now + 100) (Nat.le_of_lt (Nat.lt_of_lt_of_le h1 hn))
        have hD : D = now + 100 + D' := by rw [e] at h; cases h; rfl
        refine ⟨by omega, ?_⟩
        rw [if_pos ht, millis_tenth]
        by_cases hh : T ≤ now + 100
        · rw [if_pos (by simpa [keyHit] using hh)]
          exact ⟨_, rfl, by omega, by omega, by omega, .inr hh⟩
        · rw [if_neg (by simpa [keyHit] using hh), if_pos h1]
          obtain ⟨-, m, e1, e2, e3, e4, e5⟩ := ih _ h1 (now + 100) D (by omega) (by omega) h
          exact ⟨m, e1, by omega, e3, e4, e5⟩
      · rw [if_neg ht] at h ⊢
        cases h
        have := millis_last (n := n) (by omega)
        exact ⟨by omega, _, rfl, by omega, by omega, by omega, .inl rfl⟩

theorem timeoutKey_ends (T : Nat) : ∀ now, now ≤ timeoutKey T now ∧ T ≤ timeoutKey T now ∧ timeoutKey T now < max (now + 1) (T + 100) := by
  intro now
  induction h : T - now using Nat.strongRecOn generalizing now with
  | _ k ih =>
    rw [timeoutKey.eq_1]
    split
    · omega
    · have := ih (T - (now + 100)) (by omega) (now + 100) rfl
      omega

end PBat
