import Verif.Model.For
import Verif.Spec.For
import Verif.Lemmas.Num
/-
C22: FOR /L.
-/
namespace PBat
open Spec

variable {σ : Type}

theorem progression_step {a s b : Int} (hs : 0 < s) (h : a ≤ b) : progression a s b = a :: progression (a + s) s b := by
  unfold progression
  rw [if_neg (by omega), if_pos hs, if_pos h, if_neg (by omega), if_pos hs, List.range_succ_eq_map]
  simp only [List.map_cons, List.map_map]
  congr 1
  · simp
  · split
    · next h2 =>
      have e : (b - a) / s = (b - (a + s)) / s + 1 := by
        have : b - a = (b - (a + s)) + s * 1 := by omega
        rw [this, Int.add_mul_ediv_left _ _ (by omega)]
      have hn : 0 ≤ (b - (a + s)) / s := Int.ediv_nonneg (by omega) (by omega)
      have : ((b - a) / s).toNat = ((b - (a + s)) / s).toNat + 1 := by omega
      rw [this]
      apply List.map_congr_left
      intro k _
      simp only [Function.comp_apply]
      have : s * ((k + 1 : Nat) : Int) = s * k + s := by rw [Int.natCast_add, Int.mul_add]; simp
      rw [this]
      omega
    · next h2 =>
      have : (b - a) / s = 0 := Int.ediv_eq_zero_of_lt (by omega) (by omega)
      simp [this]

theorem progression_end {a s b : Int} (hs : 0 < s) (h : b < a) : progression a s b = [] := by
  unfold progression
  rw [if_neg (by omega), if_pos hs, if_neg (by omega)]

theorem forLLoop_progression (body : List Char → σ → Res (σ × Bool)) {s b : Int} (hs : 0 < s) (hb : b + s < 2 ^ 31) :
    ∀ (fuel : Nat) (a : Int) (st : σ), -2 ^ 31 ≤ a → (progression a s b).length < fuel →
      forLLoop body s b fuel a st = forValues (fun i => body (intText i)) (progression a s b) st := by
  intro fuel
  induction fuel with
  | zero => intro a st _ h; omega
  | succ fuel ih =>
    intro a st ha hf
    rw [forLLoop]
    by_cases hab : a ≤ b
    · rw [if_pos hab, progression_step hs hab, forValues]
      rw [progression_step hs hab, List.length_cons] at hf
      cases hr : body (intText a) st with
      | ok r =>
        obtain ⟨st', ab⟩ := r
        simp only [Res.ok_bind]
        cases ab with
        | true => rfl
        | false =>
          simp only [Bool.false_eq_true, if_false]
          rw [if_pos (by omega)]
          exact ih _ _ (by omega) (by omega)
      | ub => rfl
      | hang => rfl
    · rw [if_neg hab, progression_end hs (by omega), forValues]

/-- With a positive step and an end at least one step below the greatest integer, FOR /L runs its body once for each
number of the progression, in order, and then ends. -/
theorem C22_progression_partial (body : List Char → σ → Res (σ × Bool)) (ta ts tb : List Char) (a s b : Int)
    (ha : Number ta a) (hs : Number ts s) (hb : Number tb b) (ha' : -2 ^ 31 ≤ a ∧ a < 2 ^ 31) (hs' : 0 < s ∧ s < 2 ^ 31)
    (hb' : -2 ^ 31 ≤ b ∧ b + s < 2 ^ 31) (st : σ) (fuel : Nat) (hf : (progression a s b).length < fuel) :
    forL body fuel [ta, ts, tb] st = some (forValues (fun i => body (intText i)) (progression a s b) st) := by
  have k := fun {t v} (h : Number t v) (h1 : -2 ^ 63 ≤ v) (h2 : v < 2 ^ 63) => by
    have := strtol0_number h [] (by intro c hc; cases hc) h1 h2
    rwa [List.append_nil] at this
  have ka := k ha (by omega) (by omega)
  have ks := k hs (by omega) (by omega)
  have kb := k hb (by omega) (by omega)
  unfold forL forLBounds
  rw [if_neg (by simp), if_pos (by simp [ka, ks, kb])]
  simp only [List.getElem?_cons_zero, List.getElem?_cons_succ, ka, ks, kb, Option.map_some]
  rw [longToInt_id ha'.1 ha'.2, longToInt_id (by omega) (by omega), longToInt_id (by omega) (by omega),
    forLLoop_progression body hs'.1 hb'.2 fuel a st ha'.1 hf]

/-- The texts given to the body denote the numbers. -/
theorem C22_texts (i : Int) (h1 : -2 ^ 31 ≤ i) (h2 : i < 2 ^ 31) : Number (intText i) i ∧ longToInt (strtol0 (intText i)).1 = i := by
  have hdig : ∀ k : Fin 10, Char.ofNat ('0'.toNat + k) ∈ "0123456789".toList ∧
      hexDigits.idxOf (Char.ofNat ('0'.toNat + k)).toLower = k ∧
      (k ≠ 0 → Char.ofNat ('0'.toNat + k) ∈ "123456789".toList) := by decide +kernel
  have hnat : ∀ n : Nat, (∀ c ∈ natText n, c ∈ "0123456789".toList) ∧ valueIn 10 (natText n) = n ∧
      (n ≠ 0 → ∃ c ds, natText n = c :: ds ∧ c ∈ "123456789".toList) := by
    intro n
    induction n using Nat.strongRecOn with
    | _ n ih =>
      rw [natText]
      split
      · next hn =>
        have hd := hdig ⟨n, hn⟩
        refine ⟨by simpa using hd.1, ?_, fun h0 => ⟨_, [], rfl, hd.2.2 (by simpa [Fin.ext_iff] using h0)⟩⟩
        simp only [valueIn, List.foldl_cons, List.foldl_nil, Nat.zero_mul, Nat.zero_add]
        exact hd.2.1
      · next hn =>
        have hi := ih (n / 10) (by omega)
        have hd := hdig ⟨n % 10, by omega⟩
        refine ⟨?_, ?_, fun _ => ?_⟩
        · intro c hc
          rcases List.mem_append.1 hc with h | h
          · exact hi.1 c h
          · rw [List.mem_singleton] at h; subst h; exact hd.1
        · have hv := hi.2.1
          simp only [valueIn] at hv ⊢
          rw [List.foldl_append, hv, List.foldl_cons, List.foldl_nil]
          have := hd.2.1
          simp only at this
          rw [this]
          omega
        · obtain ⟨c, ds, h1, h2⟩ := hi.2.2 (by omega)
          exact ⟨c, ds ++ [_], by rw [h1]; rfl, h2⟩
  have huns : ∀ n : Nat, Unsigned (natText n) n := by
    intro n
    obtain ⟨k1, k2, k3⟩ := hnat n
    by_cases h0 : n = 0
    · subst h0
      have : natText 0 = ['0'] := by decide +kernel
      rw [this]
      exact .oct (by simp)
    · obtain ⟨c, ds, e, hc⟩ := k3 h0
      rw [← k2, e]
      have : Unsigned (c :: ds) (valueIn 10 (c :: ds)) := .dec hc (fun d hd => k1 d (by rw [e]; simp [hd]))
      rw [e] at k2
      rw [k2] at this ⊢
      have e2 : natText (valueIn 10 (natText n)) = c :: ds := by rw [(hnat n).2.1, e]
      simpa [e] using this
  have hnum : Number (intText i) i := by
    unfold intText
    split
    · next h =>
      have := Number.minus (huns (-i).toNat)
      have e : -(((-i).toNat : Nat) : Int) = i := by omega
      rwa [e] at this
    · next h =>
      have := Number.plain (huns i.toNat)
      have e : ((i.toNat : Nat) : Int) = i := by omega
      rwa [e] at this
  refine ⟨hnum, ?_⟩
  have := strtol0_number hnum [] (by intro c hc; cases hc) (by omega) (by omega)
  rw [List.append_nil] at this
  rw [this]
  exact longToInt_id h1 h2

/-- The claim fails for negative steps: nothing is run when the end lies below the start. -/
theorem C22_downwards_runs_nothing (body : List Char → σ → Res (σ × Bool)) (a s b : Int) (h : b < a) (st : σ) (fuel : Nat) :
    forLLoop body s b (fuel + 1) a st = .ok st := by
  rw [forLLoop, if_neg (by omega)]

/-- With a negative step and an end above the start, the loop runs below its start until the behaviour is undefined. -/
theorem C22_downwards_undefined (body : List Char → σ → Res (σ × Bool)) (hbody : ∀ v st, ∃ st', body v st = .ok (st', false))
    (s b : Int) (hs : s < 0) : ∀ (fuel : Nat) (a : Int) (st : σ), -2 ^ 31 ≤ a → a ≤ b → (a + 2 ^ 31).toNat < fuel →
      forLLoop body s b fuel a st = .ub := by
  intro fuel
  induction fuel with
  | zero => intro a st _ _ h; omega
  | succ fuel ih =>
    intro a st ha hab hf
    obtain ⟨st', hr⟩ := hbody (intText a) st
    rw [forLLoop, if_pos hab, hr]
    simp only [Res.ok_bind, Bool.false_eq_true, if_false]
    split
    · exact ih _ _ (by omega) (by omega) (by omega)
    · rfl

/-- With step 0 the loop does not end, unless its body leaves it. -/
theorem C22_step_zero_hangs (body : List Char → σ → Res (σ × Bool)) (hbody : ∀ v st, ∃ st', body v st = .ok (st', false))
    (a b : Int) (ha : -2 ^ 31 ≤ a ∧ a < 2 ^ 31) (hab : a ≤ b) : ∀ (fuel : Nat) (st : σ), forLLoop body 0 b fuel a st = .hang := by
  intro fuel
  induction fuel with
  | zero => intro st; rfl
  | succ fuel ih =>
    intro st
    obtain ⟨st', hr⟩ := hbody (intText a) st
    rw [forLLoop, if_pos hab, hr]
    simp only [Res.ok_bind, Bool.false_eq_true, if_false, Int.add_zero]
    rw [if_pos ha]
    exact ih st'

/-- With an end so large that a step beyond it overflows, the behaviour is undefined instead of the loop ending. -/
theorem C22_overflow (body : List Char → σ → Res (σ × Bool)) (hbody : ∀ v st, ∃ st', body v st = .ok (st', false))
    (s b : Int) (hs : 0 < s) (hb : b < 2 ^ 31) : ∀ (fuel : Nat) (a : Int) (st : σ), -2 ^ 31 ≤ a → a ≤ b →
      2 ^ 31 ≤ a + s * ((progression a s b).length : Int) → (progression a s b).length < fuel →
      forLLoop body s b fuel a st = .ub := by
  intro fuel
  induction fuel with
  | zero => intro a st _ _ _ h; omega
  | succ fuel ih =>
    intro a st ha hab hov hf
    obtain ⟨st', hr⟩ := hbody (intText a) st
    rw [forLLoop, if_pos hab, hr]
    simp only [Res.ok_bind, Bool.false_eq_true, if_false]
    rw [progression_step hs hab, List.length_cons] at hov hf
    have e : s * (((progression (a + s) s b).length + 1 : Nat) : Int) = s * ((progression (a + s) s b).length : Int) + s := by
      rw [Int.natCast_add, Int.mul_add]; simp
    rw [e] at hov
    split
    · by_cases hab2 : a + s ≤ b
      · exact ih _ _ (by omega) hab2 (by omega) (by omega)
      · rw [progression_end hs (by omega)] at hov
        simp at hov
        omega
    · rfl

/-- Bounds outside `int` are silently reduced: 4294967297 counts as 1. -/
theorem C22_large_bounds : forLBounds ["4294967297".toList, "1".toList, "2".toList] = some (1, 1, 2) := by decide +kernel

/-- FOR /L in (1,2,6): the values 1, 3, 5 are collected. -/
example : forL (fun v acc => .ok (acc ++ [v], false)) 10 ["1".toList, "2".toList, "6".toList] ([] : List (List Char)) =
    some (.ok ["1".toList, "3".toList, "5".toList]) := by
  have h := C22_progression_partial (fun v acc => .ok (acc ++ [v], false)) "1".toList "2".toList "6".toList 1 2 6
    (.plain (.dec (c := '1') (ds := []) (by decide) (by simp))) (.plain (.dec (c := '2') (ds := []) (by decide) (by simp)))
    (.plain (.dec (c := '6') (ds := []) (by decide) (by simp))) (by omega) (by omega) (by omega) ([] : List (List Char)) 10
    (by decide +kernel)
  exact h.trans (by decide +kernel)

/-- An end at the greatest integer. -/
example : forLLoop (fun _ st => .ok (st, false)) 1 2147483647 5 2147483645 () = .ub := by decide +kernel

end PBat
