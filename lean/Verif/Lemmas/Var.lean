import Verif.Spec.Var
import Verif.Lemmas.Replace
/-
Helper lemmas for variable references.
-/
namespace PBat
open Spec

theorem res_bind_ok {α β : Type} (a : α) (f : α → Res β) : (Res.ok a >>= f) = f a := rfl
theorem res_pure {α : Type} (a : α) : (pure a : Res α) = .ok a := rfl

variable {cont : Char → Bool}

theorem countU8_append (a b : List Char) : countU8 cont (a ++ b) = countU8 cont a + countU8 cont b := by
  induction a with
  | nil => simp [countU8]
  | cons c a ih => simp only [List.cons_append, countU8, ih]; omega

theorem countU8_point {u : List Char} (h : CodePoint cont u) : countU8 cont u = 1 := by
  obtain ⟨c, cs, rfl, hc, hcs⟩ := h
  simp only [countU8, hc, Bool.false_eq_true, if_false]
  have : countU8 cont cs = 0 := by
    clear hc
    induction cs with
    | nil => rfl
    | cons d cs ih => simp [countU8, hcs d (by simp), ih fun x hx => hcs x (by simp [hx])]
  omega

theorem countU8_flatten {u : List (List Char)} (h : ∀ x ∈ u, CodePoint cont x) :
    countU8 cont u.flatten = u.length := by
  induction u with
  | nil => rfl
  | cons x u ih =>
    rw [List.flatten_cons, countU8_append, countU8_point (h x (by simp)), ih fun y hy => h y (by simp [hy])]
    simp; omega

theorem skipCont_flatten {u : List (List Char)} (h : ∀ x ∈ u, CodePoint cont x) (cs : List Char)
    (hcs : ∀ d ∈ cs, cont d = true) : skipCont cont (cs ++ u.flatten) = u.flatten := by
  induction cs with
  | nil =>
    cases u with
    | nil => rfl
    | cons x u =>
      obtain ⟨c, ds, rfl, hc, -⟩ := h x (by simp)
      simp [skipCont, hc]
  | cons d cs ih =>
    simp only [List.cons_append, skipCont, hcs d (by simp), if_true]
    exact ih fun x hx => hcs x (by simp [hx])

theorem skipU8_flatten {u : List (List Char)} (h : ∀ x ∈ u, CodePoint cont x) (k : Nat) (hk : k ≤ u.length) :
    skipU8 cont k u.flatten = .ok (u.drop k).flatten := by
  induction k generalizing u with
  | zero => simp [skipU8]
  | succ k ih =>
    cases u with
    | nil => simp at hk
    | cons x u =>
      obtain ⟨c, cs, rfl, hc, hcs⟩ := h x (by simp)
      have hu : ∀ y ∈ u, CodePoint cont y := fun y hy => h y (by simp [hy])
      simp only [List.flatten_cons, List.cons_append, skipU8, List.drop_succ_cons]
      rw [skipCont_flatten hu cs hcs]
      exact ih hu (by simpa using hk)

theorem toSize_int {i : Int} (h0 : 0 ≤ i) (h1 : i < 2 ^ 31) : toSize i = i.toNat := by
  unfold toSize; congr 1; omega

theorem cutU8_flatten {u : List (List Char)} (h : ∀ x ∈ u, CodePoint cont x) {a b : Int} (h0 : 0 ≤ a) (hab : a ≤ b)
    (hb : b ≤ u.length) (hn : (u.length : Int) < 2 ^ 31) :
    cutU8 cont u.flatten a b = .ok ((u.take b.toNat).drop a.toNat).flatten := by
  unfold cutU8
  rw [toSize_int h0 (by omega), toSize_int (Int.le_trans h0 hab) (by omega),
    skipU8_flatten h _ (by omega), skipU8_flatten h _ (by omega)]
  simp only [res_bind_ok, res_pure]
  have e : u.drop a.toNat = ((u.take b.toNat).drop a.toNat) ++ u.drop b.toNat := by
    conv => lhs; rw [← List.take_append_drop b.toNat u]
    rw [List.drop_append_of_le_length (by simp; omega)]
  conv => lhs; rw [e]
  rw [List.flatten_append, List.length_append]
  congr 1
  rw [Nat.add_sub_cancel, List.take_left]

theorem int32_ok {i : Int} (h : -2 ^ 31 ≤ i ∧ i < 2 ^ 31) : int32 i = .ok i := if_pos h

theorem toInt32_small {n : Nat} (h : n < 2 ^ 31) : toInt32 n = n := by
  unfold toInt32
  simp only
  rw [Nat.mod_eq_of_lt (by omega), if_pos h]

/-- What the code computes, on code points. -/
theorem substrVar_exact {u : List (List Char)} (h : ∀ x ∈ u, CodePoint cont x) (b l : Int)
    (hn : u.length < 2 ^ 31) (hb : -2 ^ 31 ≤ b ∧ b < 2 ^ 31) (hl : -2 ^ 31 < l ∧ l < 2 ^ 31)
    (hov : position u.length b + l < 2 ^ 31) :
    substrVar cont u.flatten b l = .ok (if Fits u.length b l then substring u b l else []) := by
  unfold substrVar
  rw [countU8_flatten h, toInt32_small hn]
  simp only
  unfold position at hov
  by_cases hbn : b < 0
  · simp only [if_pos hbn] at hov ⊢
    by_cases hlp : 0 < l
    · simp only [if_pos hlp]
      rw [int32_ok (by omega), res_bind_ok]
      by_cases hc : l ≤ u.length + b
      · simp only [if_pos hc, res_pure, res_bind_ok]
        rw [if_neg (by omega), int32_ok (by omega), res_bind_ok]
        by_cases he : (u.length : Int) + b + l ≤ u.length
        · rw [if_pos he, cutU8_flatten h (by omega) (by omega) he (by omega)]
          rw [if_pos (by unfold Fits position; rw [if_pos hbn]; omega)]
          unfold substring rangeEnd rangeStart
          simp only [if_pos hlp, if_pos hbn]
          congr 4 <;> omega
        · rw [if_neg he, if_neg (by unfold Fits position; rw [if_pos hbn]; omega)]
      · simp only [if_neg hc, res_pure, res_bind_ok]
        rw [if_pos (by omega), if_neg (by unfold Fits position; rw [if_pos hbn]; omega)]
    · simp only [if_neg hlp]
      by_cases hc : b ≤ l
      · simp only [if_pos hc]
        rw [int32_ok (by omega), res_bind_ok]
        by_cases hr : (u.length : Int) + b < 0 ∨ (u.length : Int) < u.length + b
        · rw [if_pos hr, if_neg (by unfold Fits position; rw [if_pos hbn]; omega)]; rfl
        · rw [if_neg hr, int32_ok (by omega), res_bind_ok, if_pos (by omega),
            cutU8_flatten h (by omega) (by omega) (by omega) (by omega)]
          rw [if_pos (by unfold Fits position; rw [if_pos hbn]; omega)]
          unfold substring rangeEnd rangeStart
          simp only [if_neg hlp, if_pos hbn]
          congr 4 <;> omega
      · simp only [if_neg hc, res_pure, res_bind_ok]
        rw [if_pos (by omega)]
        split
        · unfold substring rangeEnd rangeStart
          simp only [if_neg hlp, if_pos hbn]
          rw [List.drop_eq_nil_of_le (by simp; omega)]; rfl
        · rfl
  · simp only [if_neg hbn, res_pure, res_bind_ok] at hov ⊢
    by_cases hr : b < 0 ∨ (u.length : Int) < b
    · rw [if_pos hr]
      split
      · unfold substring rangeEnd rangeStart
        simp only [if_neg hbn]
        rw [List.drop_eq_nil_of_le (by simp; omega)]; rfl
      · rfl
    · rw [if_neg hr]
      by_cases hlp : 0 < l
      · simp only [if_pos hlp]
        rw [int32_ok (by omega), res_bind_ok]
        by_cases he : b + l ≤ u.length
        · rw [if_pos he, cutU8_flatten h (by omega) (by omega) he (by omega)]
          rw [if_pos (by unfold Fits position; rw [if_neg hbn]; omega)]
          unfold substring rangeEnd rangeStart
          simp only [if_pos hlp, if_neg hbn]
          congr 4 <;> omega
        · rw [if_neg he, if_neg (by unfold Fits position; rw [if_neg hbn]; omega)]
      · simp only [if_neg hlp]
        rw [int32_ok (by omega), res_bind_ok]
        rw [if_pos (by unfold Fits; omega : Fits u.length b l)]
        by_cases he : -l ≤ u.length - b
        · rw [if_pos he, cutU8_flatten h (by omega) (by omega) (by omega) (by omega)]
          unfold substring rangeEnd rangeStart
          simp only [if_neg hlp, if_neg hbn]
          congr 4 <;> omega
        · rw [if_neg he]
          unfold substring rangeEnd rangeStart
          simp only [if_neg hlp, if_neg hbn]
          rw [List.drop_eq_nil_of_le (by simp; omega)]; rfl

/-! ### Numerals -/

theorem digits_eq (ds : List Char) (h : ∀ c ∈ ds, '0' ≤ c ∧ c ≤ '9') (acc : Nat) :
    digits acc ds = ds.foldl (fun a c => a * 10 + (c.toNat - '0'.toNat)) acc := by
  induction ds generalizing acc with
  | nil => rfl
  | cons c ds ih =>
    simp only [digits, if_pos (h c (by simp)), List.foldl_cons]
    exact ih (fun x hx => h x (by simp [hx])) _

theorem digit_facts {c : Char} (h : '0' ≤ c ∧ c ≤ '9') : isSpace c = false ∧ c ≠ '-' ∧ c ≠ '+' ∧ c ≠ ',' ∧ c ≠ ':' ∧ c ≠ '=' := by
  have h1 : 48 ≤ c.toNat := h.1
  have h2 : c.toNat ≤ 57 := h.2
  have key : ∀ n < 58, 48 ≤ n → (isSpace (Char.ofNat n) = false ∧ Char.ofNat n ≠ '-' ∧ Char.ofNat n ≠ '+' ∧
      Char.ofNat n ≠ ',' ∧ Char.ofNat n ≠ ':' ∧ Char.ofNat n ≠ '=') := by
    decide
  have := key c.toNat (by omega) h1
  rwa [Char.ofNat_toNat] at this

theorem toInt32_mod {v : Int} (h : -2 ^ 31 ≤ v ∧ v < 2 ^ 31) : toInt32 (v % 2 ^ 32).toNat = v := by
  unfold toInt32
  simp only
  split <;> omega

theorem atolVal_numeral {t : List Char} {v : Int} (h : Numeral t v) : atolVal t = v := by
  cases h with
  | pos hd =>
    obtain ⟨hne, hall⟩ := hd
    cases t with
    | nil => exact absurd rfl hne
    | cons c ds =>
      have hc := digit_facts (hall c (by simp))
      have hdw : (c :: ds).dropWhile isSpace = c :: ds := by simp [List.dropWhile, hc.1]
      unfold atolVal
      rw [hdw]
      split
      · rename_i heq; cases heq; exact absurd rfl hc.2.1
      · rename_i heq; cases heq; exact absurd rfl hc.2.2.1
      · rw [digits_eq _ hall]; rfl
  | @neg ds hd =>
    have hdw : ('-' :: ds).dropWhile isSpace = '-' :: ds := by
      rw [List.dropWhile_cons_of_neg]; decide
    unfold atolVal
    rw [hdw]
    simp only [digits_eq _ hd.2]
    rfl

theorem atolInt_numeral {t : List Char} {v : Int} (h : Numeral t v) (hv : -2 ^ 31 ≤ v ∧ v < 2 ^ 31) :
    atolInt t = .ok v := by
  unfold atolInt
  simp only [atolVal_numeral h]
  rw [if_pos (by omega), toInt32_mod hv]

theorem numeral_chars {t : List Char} {v : Int} (h : Numeral t v) : ',' ∉ t ∧ '=' ∉ t := by
  have key : ∀ ds : List Char, (∀ c ∈ ds, '0' ≤ c ∧ c ≤ '9') → ',' ∉ ds ∧ '=' ∉ ds := by
    intro ds hd
    exact ⟨fun h => (digit_facts (hd _ h)).2.2.2.1 rfl, fun h => (digit_facts (hd _ h)).2.2.2.2.2 rfl⟩
  cases h with
  | pos hd => exact key _ hd.2
  | neg hd =>
    have := key _ hd.2
    simp only [List.mem_cons, not_or]
    exact ⟨⟨by decide, this.1⟩, ⟨by decide, this.2⟩⟩

theorem strpbrk_split {c : Char} {a b : List Char} (h : c ∉ a) :
    strpbrk (· == c) (a ++ c :: b) = (a, c :: b) := by
  induction a with
  | nil => simp [strpbrk]
  | cons d a ih =>
    simp only [List.mem_cons, not_or] at h
    have : (d == c) = false := by simpa using Ne.symm h.1
    simp only [List.cons_append, strpbrk, this, Bool.false_eq_true, if_false]
    rw [ih h.2]

theorem strpbrk_absent {c : Char} {a : List Char} (h : c ∉ a) : strpbrk (· == c) a = (a, []) := by
  induction a with
  | nil => rfl
  | cons d a ih =>
    simp only [List.mem_cons, not_or] at h
    have : (d == c) = false := by simpa using Ne.symm h.1
    simp only [strpbrk, this, Bool.false_eq_true, if_false]
    rw [ih h.2]

/-- A reference `NAME:~b,l`. -/
theorem getVar_sub (cont bi env) {var tb tl : List Char} {b l : Int} (hvar : ':' ∉ var)
    (hb : Numeral tb b) (hl : Numeral tl l) (hbr : -2 ^ 31 ≤ b ∧ b < 2 ^ 31) (hlr : -2 ^ 31 ≤ l ∧ l < 2 ^ 31) :
    getVar cont bi env (var ++ ':' :: '~' :: (tb ++ ',' :: tl)) =
      match varContent bi env var with
      | none => .ok none
      | some s => substrVar cont s b l >>= fun t => pure (some t) := by
  unfold getVar
  rw [strpbrk_split hvar]
  simp only
  have h1 := numeral_chars hb
  have h2 := numeral_chars hl
  rw [strpbrk_absent (c := '=') (a := '~' :: (tb ++ ',' :: tl)) (by
    simp only [List.mem_cons, List.mem_append, not_or]; exact ⟨by decide, h1.2, by decide, h2.2⟩)]
  simp only
  rw [strpbrk_split h1.1]
  simp only [atolInt_numeral hl hlr, atolInt_numeral hb hbr, res_bind_ok]
  cases varContent bi env var <;> rfl

/-- A reference `NAME:~b`. -/
theorem getVar_sub1 (cont bi env) {var tb : List Char} {b : Int} (hvar : ':' ∉ var)
    (hb : Numeral tb b) (hbr : -2 ^ 31 ≤ b ∧ b < 2 ^ 31) :
    getVar cont bi env (var ++ ':' :: '~' :: tb) =
      match varContent bi env var with
      | none => .ok none
      | some s => substrVar cont s b 0 >>= fun t => pure (some t) := by
  unfold getVar
  rw [strpbrk_split hvar]
  simp only
  have h1 := numeral_chars hb
  rw [strpbrk_absent (c := '=') (a := '~' :: tb) (by
    simp only [List.mem_cons, not_or]; exact ⟨by decide, h1.2⟩)]
  simp only
  rw [strpbrk_absent h1.1]
  simp only [atolInt_numeral hb hbr, res_bind_ok, res_pure]
  cases varContent bi env var <;> rfl

end PBat
