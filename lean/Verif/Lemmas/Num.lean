import Verif.Model.Num
import Verif.Spec.Num
/-
Lemmas on numbers.
-/
namespace PBat
open Spec

theorem scanBase_all {b : Nat} (ds : List Char) (h : ∀ c ∈ ds, digitVal c < b) (rest : List Char)
    (hr : ∀ c, rest.head? = some c → b ≤ digitVal c) (acc : Nat) :
    scanBase b acc (ds ++ rest) = (ds.foldl (fun a c => a * b + digitVal c) acc, rest) := by
  induction ds generalizing acc with
  | nil =>
    cases rest with
    | nil => rfl
    | cons c r =>
      have := hr c rfl
      simp only [List.nil_append, scanBase, List.foldl_nil]
      rw [if_neg (by omega)]
  | cons c ds ih =>
    simp only [List.cons_append, scanBase, List.foldl_cons]
    rw [if_pos (h c (by simp)), ih (fun x hx => h x (by simp [hx]))]

theorem digit_dec : ∀ c ∈ "0123456789".toList, digitVal c < 10 ∧ digitVal c = hexDigits.idxOf c.toLower := by decide
theorem digit_oct : ∀ c ∈ "01234567".toList, digitVal c < 8 ∧ digitVal c = hexDigits.idxOf c.toLower := by decide

theorem digit_hex (c : Char) (h : c.toLower ∈ hexDigits) : digitVal c < 16 ∧ digitVal c = hexDigits.idxOf c.toLower := by
  have key : ∀ n : Fin 256, (Char.ofNat n).toLower ∈ hexDigits →
      digitVal (Char.ofNat n) < 16 ∧ digitVal (Char.ofNat n) = hexDigits.idxOf (Char.ofNat n).toLower := by decide +kernel
  have hb : c.toNat < 256 := by
    by_cases hu : 'A' ≤ c ∧ c ≤ 'Z'
    · have : c.toNat ≤ 'Z'.toNat := hu.2
      have : 'Z'.toNat = 90 := rfl
      omega
    · have : c.toLower = c := by
        unfold Char.toLower
        split
        · next hh =>
          exfalso
          apply hu
          exact ⟨hh.1, hh.2⟩
        · rfl
      rw [this] at h
      have : ∀ d ∈ hexDigits, d.toNat < 256 := by decide
      exact this c h
  have := key ⟨c.toNat, hb⟩
  simp only [Char.ofNat_toNat] at this
  exact this h

theorem foldl_congr_digits {b : Nat} (ds : List Char) (h : ∀ c ∈ ds, digitVal c = hexDigits.idxOf c.toLower) (acc : Nat) :
    ds.foldl (fun a c => a * b + digitVal c) acc = ds.foldl (fun a c => a * b + hexDigits.idxOf c.toLower) acc := by
  induction ds generalizing acc with
  | nil => rfl
  | cons c ds ih => simp only [List.foldl_cons, h c (by simp)]; exact ih (fun x hx => h x (by simp [hx])) _

/-- The number ends before a character which is no digit and no letter. -/
def NumEnd (rest : List Char) : Prop := ∀ c, rest.head? = some c → digitVal c = 36

theorem scanNumber_unsigned {t : List Char} {n : Nat} (h : Unsigned t n) (rest : List Char) (hr : NumEnd rest) :
    scanNumber (t ++ rest) = some (n, rest) := by
  have hr' : ∀ b, b ≤ 36 → ∀ c, rest.head? = some c → b ≤ digitVal c := fun b hb c hc => by rw [hr c hc]; exact hb
  cases h with
  | @dec c ds hc hd =>
    have hne : c ≠ '0' := by rintro rfl; revert hc; decide
    have hall : ∀ d ∈ c :: ds, d ∈ "0123456789".toList := by
      intro d hd'
      rcases List.mem_cons.1 hd' with rfl | h
      · have : ∀ c ∈ "123456789".toList, c ∈ "0123456789".toList := by decide
        exact this _ hc
      · exact hd d h
    have hlt : digitVal c < 10 := (digit_dec c (hall c (by simp))).1
    rw [List.cons_append, scanNumber]
    · rw [if_pos hlt, ← List.cons_append, scanBase_all (c :: ds) (fun x hx => (digit_dec x (hall x hx)).1) rest (hr' 10 (by omega)),
        foldl_congr_digits _ (fun x hx => (digit_dec x (hall x hx)).2)]
      rfl
    · intro h; exact absurd h hne
  | @oct ds hd =>
    have hs : scanBase 8 0 (ds ++ rest) = (valueIn 8 ds, rest) := by
      rw [scanBase_all ds (fun x hx => (digit_oct x (hd x hx)).1) rest (hr' 8 (by omega)),
        foldl_congr_digits _ (fun x hx => (digit_oct x (hd x hx)).2)]
      rfl
    rw [List.cons_append, scanNumber.eq_def]
    simp only
    split
    · next x d r' he =>
      rw [if_neg]
      · rw [hs]
      · rintro ⟨hx, -⟩
        cases ds with
        | nil =>
          have := hr x (by rw [List.nil_append] at he; rw [he]; rfl)
          rcases hx with rfl | rfl <;> revert this <;> decide
        | cons y ds =>
          simp only [List.cons_append, List.cons.injEq] at he
          have := hd y (by simp)
          rw [he.1] at this
          rcases hx with rfl | rfl <;> revert this <;> decide
    · rw [hs]
  | @hex x c ds hx hd =>
    simp only [List.cons_append, scanNumber]
    have hc := digit_hex c (hd c (by simp))
    rw [if_pos ⟨hx, hc.1⟩, ← List.cons_append, scanBase_all (c :: ds) (fun x hx => (digit_hex x (hd x hx)).1) rest (hr' 16 (by omega)),
      foldl_congr_digits _ (fun x hx => (digit_hex x (hd x hx)).2)]
    rfl

theorem unsigned_head {t : List Char} {n : Nat} (h : Unsigned t n) : ∃ c r, t = c :: r ∧ c ∈ "0123456789".toList := by
  cases h with
  | @dec c ds hc _ =>
    have : ∀ c ∈ "123456789".toList, c ∈ "0123456789".toList := by decide
    exact ⟨c, ds, rfl, this c hc⟩
  | oct => exact ⟨'0', _, rfl, by decide⟩
  | hex => exact ⟨'0', _, rfl, by decide⟩

theorem digit_plain : ∀ c ∈ "0123456789".toList, isSpace c = false ∧ c ≠ '-' ∧ c ≠ '+' := by decide

/-- `strtol` reads the numbers of the specification. -/
theorem strtolVal_number {t : List Char} {v : Int} (h : Number t v) (rest : List Char) (hr : NumEnd rest) :
    strtolVal (t ++ rest) = (v, rest) := by
  unfold strtolVal
  cases h with
  | @plain t n hu =>
    obtain ⟨c, r, rfl, hc⟩ := unsigned_head hu
    obtain ⟨h1, h2, h3⟩ := digit_plain c hc
    have hs := scanNumber_unsigned hu rest hr
    rw [List.cons_append] at hs ⊢
    rw [List.dropWhile_cons, h1]
    simp only [Bool.false_eq_true, if_false]
    split
    · next h => simp at h; exact absurd h.1 h2
    · next h => simp at h; exact absurd h.1 h3
    · rw [hs]
  | @plus t n hu =>
    have hs := scanNumber_unsigned hu rest hr
    rw [List.cons_append, List.dropWhile_cons, show isSpace '+' = false by decide]
    simp only [Bool.false_eq_true, if_false, hs]
  | @minus t n hu =>
    have hs := scanNumber_unsigned hu rest hr
    rw [List.cons_append, List.dropWhile_cons, show isSpace '-' = false by decide]
    simp only [Bool.false_eq_true, if_false, hs]

theorem strtol0_number {t : List Char} {v : Int} (h : Number t v) (rest : List Char) (hr : NumEnd rest)
    (h1 : -2 ^ 63 ≤ v) (h2 : v < 2 ^ 63) : strtol0 (t ++ rest) = (v, rest) := by
  unfold strtol0
  rw [strtolVal_number h rest hr]
  simp only
  rw [if_neg (by omega), if_neg (by omega)]

theorem longToInt_id {v : Int} (h1 : -2 ^ 31 ≤ v) (h2 : v < 2 ^ 31) : longToInt v = v := by
  unfold longToInt toInt32
  simp only
  split <;> omega

/-- `printf("%lu")` is what Lean prints. -/
theorem natText_toString (n : Nat) : natText n = (toString n).toList := by
  show natText n = n.repr.toList
  have hd : ∀ d, d < 10 → Char.ofNat ('0'.toNat + d) = d.digitChar := by decide
  have key : ∀ n : Nat, natText n = Nat.toDigits 10 n := by
    intro n
    induction n using Nat.strongRecOn with
    | ind n ih =>
    rw [natText]
    split
    · next h => rw [Nat.toDigits_of_lt_base h, hd n h]
    · next h => rw [Nat.toDigits_of_base_le (by decide) (by omega), ih (n / 10) (by omega), hd _ (Nat.mod_lt _ (by decide))]
  rw [key]
  simp [Nat.repr]

theorem intText_toString (n : Int) : intText n = (toString n).toList := by
  unfold intText
  cases n with
  | ofNat n =>
    rw [if_neg (by simp [Int.not_lt])]
    show natText n = _
    rw [natText_toString]
    rfl
  | negSucc n =>
    rw [if_pos (Int.negSucc_lt_zero n)]
    show '-' :: natText (n + 1) = _
    rw [natText_toString]
    show _ = ("-" ++ (n + 1).repr).toList
    simp

end PBat
