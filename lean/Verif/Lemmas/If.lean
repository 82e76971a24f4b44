import Verif.Model.If
import Verif.Spec.If
import Verif.Lemmas.Num
import Verif.Lemmas.LibC
import Verif.Lemmas.Args
import Verif.Lemmas.Env
/-
Lemmas on the comparisons of IF.
-/
namespace PBat
open Spec

theorem log2_bounds {m : Nat} (h : m ≠ 0) : 2 ^ m.log2 ≤ m ∧ m < 2 ^ (m.log2 + 1) :=
  ⟨Nat.log2_self_le h, Nat.lt_log2_self⟩

theorem roundMag_small {m : Nat} (h : m ≤ 2 ^ 53) : roundMag m = m := by
  rcases Nat.lt_or_ge m (2 ^ 53) with h1 | h1
  · rw [roundMag, if_pos h1]
  · have : m = 2 ^ 53 := by omega
    subst this
    decide +kernel

theorem roundMag_cell {m k q : Nat} (h : 2 ^ 53 ≤ m) (hk : k = m.log2 - 52) (hq : q = m / 2 ^ k) :
    roundMag m = q * 2 ^ k ∨ roundMag m = (q + 1) * 2 ^ k := by
  rw [roundMag, if_neg (by omega)]
  simp only
  rw [← hk, ← hq]
  split
  · right; rfl
  · left; rfl

theorem roundMag_mono {a b : Nat} (h : a ≤ b) : roundMag a ≤ roundMag b := by
  rcases Nat.lt_or_ge b (2 ^ 53) with hb | hb
  · rw [roundMag_small (by omega), roundMag_small (by omega)]; exact h
  have hb0 := log2_bounds (m := b) (by omega)
  have hl53 : 53 ≤ b.log2 := (Nat.le_log2 (by omega)).2 hb
  obtain ⟨kb, hkb⟩ : ∃ k, k = b.log2 - 52 := ⟨_, rfl⟩
  have hlow : 2 ^ (52 + kb) ≤ roundMag b := by
    have h1 : 2 ^ 52 ≤ b / 2 ^ kb := by
      rw [Nat.le_div_iff_mul_le (Nat.two_pow_pos _), ← Nat.pow_add]
      exact Nat.le_trans (Nat.pow_le_pow_right (by omega) (by omega)) hb0.1
    rcases roundMag_cell hb hkb rfl with e | e <;> rw [e, Nat.pow_add]
    · exact Nat.mul_le_mul_right _ h1
    · exact Nat.mul_le_mul_right _ (by omega)
  rcases Nat.lt_or_ge a (2 ^ 53) with ha | ha
  · rw [roundMag_small (by omega)]
    have : 2 ^ 53 ≤ 2 ^ (52 + kb) := Nat.pow_le_pow_right (by omega) (by omega)
    omega
  have ha0 := log2_bounds (m := a) (by omega)
  obtain ⟨ka, hka⟩ : ∃ k, k = a.log2 - 52 := ⟨_, rfl⟩
  have hal : 53 ≤ a.log2 := (Nat.le_log2 (by omega)).2 ha
  have hhigh : roundMag a ≤ 2 ^ (53 + ka) := by
    have h1 : a / 2 ^ ka < 2 ^ 53 := by
      rw [Nat.div_lt_iff_lt_mul (Nat.two_pow_pos _), ← Nat.pow_add]
      exact Nat.lt_of_lt_of_le ha0.2 (Nat.pow_le_pow_right (by omega) (by omega))
    rcases roundMag_cell ha hka rfl with e | e <;> rw [e, Nat.pow_add]
    · exact Nat.mul_le_mul_right _ (by omega)
    · exact Nat.mul_le_mul_right _ (by omega)
  have hll : a.log2 ≤ b.log2 := by
    rw [Nat.le_log2 (by omega)]; omega
  rcases Nat.lt_or_ge ka kb with hk | hk
  · exact Nat.le_trans hhigh (Nat.le_trans (Nat.pow_le_pow_right (by omega) (by omega)) hlow)
  · have hkk : ka = kb := by omega
    rw [roundMag, if_neg (by omega), roundMag, if_neg (by omega)]
    simp only
    rw [← hka, ← hkb, hkk]
    have hp := Nat.two_pow_pos kb
    have hqle : a / 2 ^ kb ≤ b / 2 ^ kb := Nat.div_le_div_right h
    have ha1 := Nat.div_add_mod a (2 ^ kb)
    have hb1 := Nat.div_add_mod b (2 ^ kb)
    apply Nat.mul_le_mul_right
    rcases Nat.lt_or_ge (a / 2 ^ kb) (b / 2 ^ kb) with hlt | hge
    · split <;> split <;> omega
    · have heq : a / 2 ^ kb = b / 2 ^ kb := by omega
      rw [heq] at ha1 ⊢
      have hr : a % 2 ^ kb ≤ b % 2 ^ kb := by omega
      split <;> split <;> omega

theorem ofLong_small {v : Int} (h1 : -2 ^ 53 ≤ v) (h2 : v ≤ 2 ^ 53) : ofLong v = .fin (v : Rat) := by
  unfold ofLong
  split
  · rw [roundMag_small (by omega)]
    congr 2; omega
  · rw [roundMag_small (by omega)]
    congr 2; omega

theorem ofLong_mono {a b : Int} (h : a ≤ b) : ∃ x y : Int, ofLong a = .fin (x : Rat) ∧ ofLong b = .fin (y : Rat) ∧ x ≤ y := by
  unfold ofLong
  rcases Decidable.em (a < 0) with ha | ha <;> rcases Decidable.em (b < 0) with hb | hb
  · rw [if_pos ha, if_pos hb]
    have := roundMag_mono (a := (-b).toNat) (b := (-a).toNat) (by omega)
    exact ⟨_, _, rfl, rfl, by omega⟩
  · rw [if_pos ha, if_neg hb]
    exact ⟨_, _, rfl, rfl, by omega⟩
  · omega
  · rw [if_neg ha, if_neg hb]
    have := roundMag_mono (a := a.toNat) (b := b.toNat) (by omega)
    exact ⟨_, _, rfl, rfl, by omega⟩

/-! ### Operators -/

theorem stricmp_zero (a b : List Char) : stricmp a b = 0 ↔ fold a = fold b := by
  unfold stricmp
  rw [lexCmp_eq_zero, codes_inj]

/-- The operators on operands for which exactly one of three relations holds. -/
theorem cmpOp_holds {op : List Char} {c : Cmp} (hn : CmpName op c) (a b : Dbl) {P Q R : Prop}
    (h3 : OneOf3 P Q R) (h1 : a.lt b = true ↔ P) (h2 : a.eq b = true ↔ Q) (h2' : b.eq a = true ↔ Q) (h3' : b.lt a = true ↔ R) :
    ∃ r, cmpOp op a b = some r ∧ (r = true ↔ c.holds P Q R) := by
  have key : ∀ x : Bool, ∀ A : Prop, (x = true ↔ A) → ((!x) = true ↔ ¬ A) := by
    intro x A h; rw [← h]; cases x <;> simp
  unfold cmpOp Dbl.le
  simp only [stricmp_zero]
  cases hn with
  | equ h => exact ⟨_, if_pos (.inl (by rw [h]; decide)), h2⟩
  | same h => exact ⟨_, if_pos (.inr (by rw [h])), h2⟩
  | neq h =>
    rw [h, if_neg (by decide), if_pos (by decide)]
    exact ⟨_, rfl, key _ _ h2⟩
  | geq h =>
    rw [h, if_neg (by decide), if_neg (by decide), if_pos (by decide)]
    refine ⟨_, rfl, ?_⟩
    rw [Bool.or_eq_true, h3', h2']
    unfold OneOf3 at h3; unfold Cmp.holds; grind
  | gtr h =>
    rw [h, if_neg (by decide), if_neg (by decide), if_neg (by decide), if_pos (by decide)]
    exact ⟨_, rfl, h3'⟩
  | leq h =>
    rw [h, if_neg (by decide), if_neg (by decide), if_neg (by decide), if_neg (by decide), if_pos (by decide)]
    refine ⟨_, rfl, ?_⟩
    rw [Bool.or_eq_true, h1, h2]
    unfold OneOf3 at h3; unfold Cmp.holds; grind
  | lss h =>
    rw [h, if_neg (by decide), if_neg (by decide), if_neg (by decide), if_neg (by decide), if_neg (by decide), if_pos (by decide)]
    exact ⟨_, rfl, h1⟩

theorem rat_three (a b : Rat) : OneOf3 (a < b) (a = b) (b < a) := by
  unfold OneOf3; grind

theorem Dbl.three (a b : Dbl) (ha : a ≠ .nan) (hb : b ≠ .nan) :
    OneOf3 (a.lt b = true) (a.eq b = true) (b.lt a = true) ∧ (b.eq a = true ↔ a.eq b = true) := by
  cases a <;> cases b <;> simp [Dbl.lt, Dbl.eq, OneOf3] at * <;> grind

/-! ### Operands -/

theorem digit_not_dot {b : Nat} (hb : b ≤ 36) : ¬ digitVal '.' < b := by
  have : digitVal '.' = 36 := by decide
  omega

theorem scanBase_keeps {b : Nat} (hb : b ≤ 36) (acc : Nat) (s : List Char) (h : '.' ∈ s) : '.' ∈ (scanBase b acc s).2 := by
  induction s generalizing acc with
  | nil => simp at h
  | cons c r ih =>
    rw [scanBase]
    split
    · next hd =>
      refine ih _ ?_
      rcases List.mem_cons.1 h with rfl | h
      · exact absurd hd (digit_not_dot hb)
      · exact h
    · exact h

theorem scanNumber_keeps (s : List Char) (n : Nat) (e : List Char) (h : scanNumber s = some (n, e)) (hd : '.' ∈ s) : '.' ∈ e := by
  unfold scanNumber at h
  split at h
  · cases h
  · next r =>
    have hr : '.' ∈ r := by
      rcases List.mem_cons.1 hd with h | h
      · exact absurd h (by decide)
      · exact h
    split at h
    · next x d r' =>
      split at h
      · next hx =>
        simp only [Option.some.injEq] at h
        have h2 := congrArg (·.2) h
        simp only at h2
        rw [← h2]
        apply scanBase_keeps (by omega)
        rcases List.mem_cons.1 hr with h | h
        · rcases hx.1 with rfl | rfl <;> exact absurd h (by decide)
        · exact h
      · simp only [Option.some.injEq] at h
        have h2 := congrArg (·.2) h
        simp only at h2
        rw [← h2]
        exact scanBase_keeps (by omega) _ _ hr
    · simp only [Option.some.injEq] at h
      have h2 := congrArg (·.2) h
      simp only at h2
      rw [← h2]
      exact scanBase_keeps (by omega) _ _ hr
  · split at h
    · simp only [Option.some.injEq] at h
      have h2 := congrArg (·.2) h
      simp only at h2
      rw [← h2]
      exact scanBase_keeps (by omega) _ _ hd
    · cases h

theorem strtol_keeps (s : List Char) (hd : '.' ∈ s) : '.' ∈ (strtol0 s).2 := by
  have hdw : ∀ l : List Char, '.' ∈ l → '.' ∈ l.dropWhile isSpace := by
    intro l
    induction l with
    | nil => simp
    | cons c r ih =>
      intro h
      rw [List.dropWhile_cons]
      split
      · next hc =>
        apply ih
        rcases List.mem_cons.1 h with rfl | h
        · exact absurd hc (by decide)
        · exact h
      · exact h
  have hs := hdw s hd
  unfold strtol0 strtolVal
  simp only
  split
  · next r hr =>
    rw [hr] at hs
    have hs : '.' ∈ r := by
      rcases List.mem_cons.1 hs with h | h
      · exact absurd h (by decide)
      · exact h
    split
    · next h => exact scanNumber_keeps _ _ _ h hs
    · exact hd
  · next r hr =>
    rw [hr] at hs
    have hs : '.' ∈ r := by
      rcases List.mem_cons.1 hs with h | h
      · exact absurd h (by decide)
      · exact h
    split
    · next h => exact scanNumber_keeps _ _ _ h hs
    · exact hd
  · split
    · next h => exact scanNumber_keeps _ _ _ h hs
    · exact hd

theorem skipBlanks_ne_nil {s : List Char} {c : Char} (hc : c ∈ s) (hb : ¬ Blank c) : skipBlanks s ≠ [] := by
  obtain ⟨w, hw, hbl⟩ := skipBlanks_suffix s
  intro h
  rw [h, List.append_nil] at hw
  rw [hw] at hc
  exact hb (hbl c hc)

theorem skipBlanks_all {s : List Char} (h : ∀ c ∈ s, Blank c) : skipBlanks s = [] := by
  have := skipBlanks_append (s := []) h
  rw [List.append_nil] at this
  rw [this]; rfl

theorem blank_numEnd {s : List Char} (h : ∀ c ∈ s, Blank c) : NumEnd s := by
  intro c hc
  have hb := h c (List.mem_of_mem_head? hc)
  rcases hb with rfl | rfl | rfl | rfl | rfl <;> decide

theorem decimal_dot {t : List Char} {q : Rat} (h : Decimal t q) : '.' ∈ t := by
  cases h <;> simp

theorem cmpValue_number {S : Strtod} {t : List Char} {q : Rat} (h : NumOperand t q) (w : List Char) (hw : ∀ c ∈ w, Blank c) :
    cmpValue S (t ++ w) = some (.fin q) := by
  unfold cmpValue
  cases h with
  | @int v hn h1 h2 =>
    rw [strtol0_number hn w (blank_numEnd hw) (by omega) (by omega)]
    simp only
    rw [if_pos (skipBlanks_all hw), ofLong_small h1 h2]
  | dec hd he =>
    have hk := strtol_keeps (t ++ w) (List.mem_append_left _ (decimal_dot hd))
    rw [S.conv_decimal t _ w hd he]
    · simp only
      rw [if_neg (skipBlanks_ne_nil hk (by decide)), if_pos (skipBlanks_all hw)]
    · intro c hc
      have hb := hw c (List.mem_of_mem_head? hc)
      rcases hb with rfl | rfl | rfl | rfl | rfl <;> decide

theorem cmpValue_word {S : Strtod} {t : List Char} (h : WordOperand t) : cmpValue S t = none := by
  obtain ⟨c, r, rfl, hc, h11, h12⟩ := h
  have hsub : ∀ d ∈ " \t\n\r0123456789+-.nNiI".toList, d ∈ " \t\n\r,;0123456789+-.nNiI".toList := by decide
  have hnum : ∀ d : Char, digitVal d < 10 → d ∈ "0123456789".toList := by
    intro d hd
    unfold digitVal at hd
    split at hd
    · next h =>
      have h1 : 48 ≤ d.toNat := h.1
      have h2 : d.toNat ≤ 57 := h.2
      have hall : ∀ k : Fin 10, Char.ofNat (48 + k.val) ∈ "0123456789".toList := by decide
      have := hall ⟨d.toNat - 48, by omega⟩
      simp only at this
      rw [show 48 + (d.toNat - 48) = d.toNat by omega, Char.ofNat_toNat] at this
      exact this
    · split at hd
      · omega
      · split at hd <;> omega
  have hbl : ¬ Blank c := by
    rintro (rfl | rfl | rfl | rfl | rfl) <;> exact hc (by decide)
  have hsp : isSpace c = false := by
    unfold isSpace
    simp only [Bool.or_eq_false_iff, beq_eq_false_iff_ne]
    refine ⟨⟨⟨⟨⟨?_, ?_⟩, ?_⟩, ?_⟩, h11⟩, h12⟩ <;> rintro rfl <;> exact hc (by decide)
  have hsn : scanNumber (c :: r) = none := by
    have h0 : c ≠ '0' := by rintro rfl; exact hc (by decide)
    unfold scanNumber
    split
    · simp at *
    · next h => simp at h; exact absurd h.1 h0
    · next h =>
      rw [List.cons.injEq] at h
      obtain ⟨rfl, rfl⟩ := h
      rw [if_neg]
      intro hd
      have h2 := hnum c hd
      have hsub2 : ∀ d ∈ "0123456789".toList, d ∈ " \t\n\r,;0123456789+-.nNiI".toList := by decide
      exact hc (hsub2 c h2)
  have hst : strtol0 (c :: r) = (0, c :: r) := by
    have hv : strtolVal (c :: r) = (0, c :: r) := by
      unfold strtolVal
      rw [List.dropWhile_cons, hsp]
      simp only [Bool.false_eq_true, if_false]
      split
      · next h => rw [List.cons.injEq] at h; obtain ⟨rfl, -⟩ := h; exact absurd (by decide) hc
      · next h => rw [List.cons.injEq] at h; obtain ⟨rfl, -⟩ := h; exact absurd (by decide) hc
      · rw [hsn]
    unfold strtol0
    rw [hv]
    rfl
  unfold cmpValue
  rw [hst, S.conv_none c r (fun h => hc (hsub c h)) h11 h12]
  simp only
  have hne : skipBlanks (c :: r) ≠ [] := skipBlanks_ne_nil (List.mem_cons_self) hbl
  rw [if_neg hne, if_neg hne]

/-! ### Texts -/

theorem lexCmp_three (a b : List Nat) :
    (lexCmp a b = -1 ∧ a < b) ∨ (lexCmp a b = 0 ∧ a = b) ∨ (lexCmp a b = 1 ∧ b < a) := by
  induction a generalizing b with
  | nil =>
    cases b with
    | nil => right; left; exact ⟨rfl, rfl⟩
    | cons y b => left; exact ⟨rfl, by simp⟩
  | cons x a ih =>
    cases b with
    | nil => right; right; exact ⟨rfl, by simp⟩
    | cons y b =>
      rw [lexCmp]
      rcases Nat.lt_trichotomy x y with h | h | h
      · left; rw [if_pos h]; exact ⟨rfl, List.cons_lt_cons_iff.2 (.inl h)⟩
      · subst h
        rw [if_neg (Nat.lt_irrefl _), if_neg (Nat.lt_irrefl _)]
        rcases ih b with ⟨h1, h2⟩ | ⟨h1, h2⟩ | ⟨h1, h2⟩
        · left; exact ⟨h1, List.cons_lt_cons_iff.2 (.inr ⟨rfl, h2⟩)⟩
        · right; left; exact ⟨h1, by rw [h2]⟩
        · right; right; exact ⟨h1, List.cons_lt_cons_iff.2 (.inr ⟨rfl, h2⟩)⟩
      · right; right
        rw [if_neg (by omega), if_pos h]
        exact ⟨rfl, List.cons_lt_cons_iff.2 (.inl h)⟩

theorem lexCmp_dbl (a b : List Nat) :
    OneOf3 (a < b) (a = b) (b < a) ∧
    ((ofLong (lexCmp a b)).lt (.fin 0) = true ↔ a < b) ∧ ((ofLong (lexCmp a b)).eq (.fin 0) = true ↔ a = b) ∧
    (Dbl.eq (.fin 0) (ofLong (lexCmp a b)) = true ↔ a = b) ∧ (Dbl.lt (.fin 0) (ofLong (lexCmp a b)) = true ↔ b < a) := by
  have e1 : ofLong (-1) = .fin (-1) := by rw [ofLong_small (by omega) (by omega)]; rfl
  have e0 : ofLong 0 = .fin 0 := by rw [ofLong_small (by omega) (by omega)]; rfl
  have e2 : ofLong 1 = .fin 1 := by rw [ofLong_small (by omega) (by omega)]; rfl
  have irr : ∀ l : List Nat, ¬ l < l := fun l => List.lt_irrefl l
  have asy : ∀ l m : List Nat, l < m → ¬ m < l := fun l m h => List.lt_asymm h
  rcases lexCmp_three a b with ⟨h, h'⟩ | ⟨h, h'⟩ | ⟨h, h'⟩
  · have hne : a ≠ b := by rintro rfl; exact irr _ h'
    have h2 := asy _ _ h'
    rw [h, e1]
    simp only [h', hne, h2, Dbl.lt, Dbl.eq, OneOf3]
    decide +kernel
  · subst h'
    have h2 := irr a
    rw [h, e0]
    simp only [h2, Dbl.lt, Dbl.eq, OneOf3]
    decide +kernel
  · have hne : a ≠ b := by rintro rfl; exact irr _ h'
    have h2 := asy _ _ h'
    rw [h, e2]
    simp only [h', hne, h2, Dbl.lt, Dbl.eq, OneOf3]
    decide +kernel

/-! ### An implementation of `strtod` -/

/-- Decimal digits. -/
def decDigit (c : Char) : Bool := "0123456789".toList.contains c

/-- The unsigned part of `sampleConv`. -/
def sampleUnsigned (s : List Char) : Option (Rat × List Char) :=
  let a := s.takeWhile decDigit
  match s.dropWhile decDigit with
  | '.' :: r =>
    if a = [] then none
    else
      let b := r.takeWhile decDigit
      some ((valueIn 10 (a ++ b) : Rat) / ((10 ^ b.length : Nat) : Rat), r.dropWhile decDigit)
  | _ => none

/-- A `strtod` that reads decimal fractions and `nan` only. -/
def sampleConv (s : List Char) : Dbl × List Char :=
  if s = ['n', 'a', 'n'] then (.nan, [])
  else
    match s with
    | '-' :: r =>
      match sampleUnsigned r with
      | some (q, e) => (.fin (-q), e)
      | none => (.fin 0, s)
    | _ =>
      match sampleUnsigned s with
      | some (q, e) => (.fin q, e)
      | none => (.fin 0, s)

theorem takeWhile_stop {p : Char → Bool} {a r : List Char} (h : ∀ c ∈ a, p c = true) (hr : ∀ c, r.head? = some c → p c = false) :
    (a ++ r).takeWhile p = a ∧ (a ++ r).dropWhile p = r := by
  induction a with
  | nil =>
    cases r with
    | nil => simp
    | cons c r => have := hr c rfl; simp [List.takeWhile_cons, List.dropWhile_cons, this]
  | cons c a ih =>
    have h1 := h c (by simp)
    have := ih fun d hd => h d (by simp [hd])
    simp [List.takeWhile_cons, List.dropWhile_cons, h1, this]

theorem sampleUnsigned_dec {a b rest : List Char} (ha : a ≠ []) (hd : ∀ d ∈ a ++ b, d ∈ "0123456789".toList)
    (hr : ∀ c, rest.head? = some c → c ∈ [' ', '\t', ',', ';', '\n']) :
    sampleUnsigned (a ++ '.' :: b ++ rest) = some ((valueIn 10 (a ++ b) : Rat) / ((10 ^ b.length : Nat) : Rat), rest) := by
  have hdd : ∀ l : List Char, (∀ d ∈ l, d ∈ "0123456789".toList) → ∀ d ∈ l, decDigit d = true := by
    intro l h d hd; unfold decDigit; rw [List.contains_iff_mem]; exact h d hd
  have h1 := takeWhile_stop (r := '.' :: (b ++ rest)) (hdd a fun d h => hd d (by simp [h])) (by
    intro c hc; simp at hc; subst hc; decide)
  have hb : ∀ c ∈ [' ', '\t', ',', ';', '\n'], decDigit c = false := by decide
  have h2 := takeWhile_stop (r := rest) (hdd b fun d h => hd d (by simp [h])) (fun c hc => hb c (hr c hc))
  unfold sampleUnsigned
  rw [List.append_assoc, List.cons_append, h1.1, h1.2]
  simp only
  rw [if_neg ha, h2.1, h2.2]

theorem digit_not_minus : ∀ c ∈ "0123456789".toList, c ≠ '-' ∧ c ≠ 'n' := by decide

/-- The contract of `strtod` can be met. -/
def sampleStrtod : Strtod where
  conv := sampleConv
  conv_nan := by decide +kernel
  conv_decimal := by
    intro t q rest h _ hr
    cases h with
    | @plain a b ha hd =>
      cases ha' : a with
      | nil => exact absurd ha' ha
      | cons c a' =>
        have hu := sampleUnsigned_dec ha hd hr
        have hc := digit_not_minus c (hd c (by simp [ha']))
        rw [ha'] at hu
        unfold sampleConv
        rw [if_neg (by simp; intro h; exact absurd h hc.2)]
        simp only [List.cons_append] at hu ⊢
        split
        · next h => simp at h; exact absurd h.1 hc.1
        · rw [hu]
    | @minus a b ha hd =>
      have hu := sampleUnsigned_dec ha hd hr
      unfold sampleConv
      rw [if_neg (by simp)]
      simp only [List.cons_append]
      rw [hu]
  conv_none := by
    intro c r hc _ _
    have hn : c ≠ 'n' := by rintro rfl; exact hc (by decide)
    have hm : c ≠ '-' := by rintro rfl; exact hc (by decide)
    unfold sampleConv
    rw [if_neg (by simp; intro h; exact absurd h hn)]
    split
    · next h => simp at h; exact absurd h.1 hm
    · have : sampleUnsigned (c :: r) = none := by
        have hd : decDigit c = false := by
          unfold decDigit
          rw [Bool.eq_false_iff, Ne, List.contains_iff_mem]
          intro h
          have : ∀ d ∈ "0123456789".toList, d ∈ " \t\n\r0123456789+-.nNiI".toList := by decide
          exact hc (this c h)
        unfold sampleUnsigned
        simp only [List.takeWhile_cons, List.dropWhile_cons, hd, Bool.false_eq_true, if_false]
        split
        · rw [if_pos trivial]
        · rfl
      rw [this]

end PBat
