import Verif.Lemmas.If
/-
C26: the comparisons of IF.
-/
namespace PBat
open Spec

/-- For every two operands and every `strtod`, if neither operand is read as "not a number" then exactly one of below,
equal and above holds, and every comparison, in any case of its name, is the one of the three or its complement. -/
theorem C26_order_partial (S : Strtod) (a b : List Char) (ci : Bool) (ha : (S.conv a).1 ≠ .nan) (hb : (S.conv b).1 ≠ .nan) :
    ∃ below equal above : Prop, OneOf3 below equal above ∧
      ∀ op c, CmpName op c → ∃ r, extTest S op a b ci = some r ∧ (r = true ↔ c.holds below equal above) := by
  have hv : ∀ x d, (S.conv x).1 ≠ .nan → cmpValue S x = some d → d ≠ .nan := by
    intro x d hx h
    unfold cmpValue at h
    simp only at h
    split at h
    · rw [Option.some.injEq] at h
      rw [← h]; unfold ofLong; simp
    · split at h
      · rw [Option.some.injEq] at h
        rw [← h]; exact hx
      · cases h
  have key : ∃ x y, x ≠ Dbl.nan ∧ y ≠ Dbl.nan ∧ ∀ op, extTest S op a b ci = cmpOp op x y := by
    cases h1 : cmpValue S a with
    | none =>
      exact ⟨ofLong (if ci then stricmp a b else strcmp a b), .fin 0, by unfold ofLong; simp, by simp, fun op => by unfold extTest; rw [h1]⟩
    | some x =>
      cases h2 : cmpValue S b with
      | none =>
        exact ⟨ofLong (if ci then stricmp a b else strcmp a b), .fin 0, by unfold ofLong; simp, by simp, fun op => by unfold extTest; rw [h1, h2]⟩
      | some y => exact ⟨x, y, hv a x ha h1, hv b y hb h2, fun op => by unfold extTest; rw [h1, h2]⟩
  obtain ⟨x, y, hx, hy, he⟩ := key
  obtain ⟨h3, hs⟩ := Dbl.three x y hx hy
  refine ⟨_, _, _, h3, fun op c hn => ?_⟩
  rw [he op]
  exact cmpOp_holds hn x y h3 Iff.rfl Iff.rfl hs Iff.rfl

/-- Numbers compare by value: integers in any base up to 2^53 in magnitude and decimal fractions, also followed by blanks,
with or without /i. -/
theorem C26_numbers (S : Strtod) {a b : List Char} {p q : Rat} (ha : NumOperand a p) (hb : NumOperand b q)
    (va vb : List Char) (hva : ∀ c ∈ va, Blank c) (hvb : ∀ c ∈ vb, Blank c) (ci : Bool) {op : List Char} {c : Cmp} (hn : CmpName op c) :
    ∃ r, extTest S op (a ++ va) (b ++ vb) ci = some r ∧ (r = true ↔ c.holds (p < q) (p = q) (q < p)) := by
  unfold extTest
  rw [cmpValue_number ha va hva, cmpValue_number hb vb hvb]
  refine cmpOp_holds hn _ _ (rat_three p q) ?_ ?_ ?_ ?_
  · simp [Dbl.lt]
  · simp [Dbl.eq]
  · simp [Dbl.eq]; exact eq_comm
  · simp [Dbl.lt]

/-- Integers of up to 64 bits: rounding never inverts their order. -/
theorem C26_large (S : Strtod) {a b : List Char} {v w : Int} (ha : Number a v) (hb : Number b w) (h1 : -2 ^ 63 ≤ v) (h2 : w < 2 ^ 63)
    (hle : v ≤ w) (ci : Bool) :
    extTest S "LEQ".toList a b ci = some true ∧ extTest S "GTR".toList a b ci = some false ∧
      extTest S "GEQ".toList b a ci = some true ∧ extTest S "LSS".toList b a ci = some false := by
  have hnil : ∀ {x : List Char} {u : Int}, Number x u → -2 ^ 63 ≤ u → u < 2 ^ 63 → cmpValue S x = some (ofLong u) := by
    intro x u hx hu1 hu2
    have := strtol0_number hx [] (by intro c hc; cases hc) hu1 hu2
    rw [List.append_nil] at this
    unfold cmpValue
    rw [this]
    rfl
  obtain ⟨x, y, e1, e2, hxy⟩ := ofLong_mono hle
  have h3 := rat_three (x : Rat) (y : Rat)
  have hlt : ¬ (y : Rat) < (x : Rat) := by
    rw [Rat.intCast_lt_intCast]; omega
  have hv1 := hnil ha h1 (by omega)
  have hv2 := hnil hb (by omega) h2
  rw [e1] at hv1
  rw [e2] at hv2
  have hp : ∀ {op : List Char} {c : Cmp}, CmpName op c → ∃ r, cmpOp op (.fin (x : Rat)) (.fin (y : Rat)) = some r ∧
      (r = true ↔ c.holds ((x : Rat) < y) ((x : Rat) = y) ((y : Rat) < x)) := fun hn => by
    refine cmpOp_holds hn _ _ h3 ?_ ?_ ?_ ?_
    · simp [Dbl.lt]
    · simp [Dbl.eq]
    · simp [Dbl.eq]; exact eq_comm
    · simp [Dbl.lt]
  have hq : ∀ {op : List Char} {c : Cmp}, CmpName op c → ∃ r, cmpOp op (.fin (y : Rat)) (.fin (x : Rat)) = some r ∧
      (r = true ↔ c.holds ((y : Rat) < x) ((y : Rat) = x) ((x : Rat) < y)) := fun hn => by
    refine cmpOp_holds hn _ _ (rat_three _ _) ?_ ?_ ?_ ?_
    · simp [Dbl.lt]
    · simp [Dbl.eq]
    · simp [Dbl.eq]; exact eq_comm
    · simp [Dbl.lt]
  unfold extTest
  rw [hv1, hv2]
  simp only
  obtain ⟨r1, e1, i1⟩ := hp (op := "LEQ".toList) (.leq (by decide))
  obtain ⟨r2, e2, i2⟩ := hp (op := "GTR".toList) (.gtr (by decide))
  obtain ⟨r3, e3, i3⟩ := hq (op := "GEQ".toList) (.geq (by decide))
  obtain ⟨r4, e4, i4⟩ := hq (op := "LSS".toList) (.lss (by decide))
  unfold Cmp.holds at i1 i2 i3 i4
  simp only at i1 i2 i3 i4
  rw [e1, e2, e3, e4, i1.2 hlt, i3.2 hlt]
  refine ⟨rfl, ?_, rfl, ?_⟩ <;> rw [Option.some.injEq, Bool.eq_false_iff]
  · exact fun h => hlt (i2.1 h)
  · exact fun h => hlt (i4.1 h)

/-- If one of the operands begins with a character that begins no number (the prefix the documentation advises),
the texts are compared byte-wise, ignoring case with /i. -/
theorem C26_text (S : Strtod) {a b : List Char} (h : WordOperand a ∨ WordOperand b) (ci : Bool) {op : List Char} {c : Cmp} (hn : CmpName op c) :
    ∃ r, extTest S op a b ci = some r ∧
      (r = true ↔ c.holds (TextBelow (cmpText ci a) (cmpText ci b)) (cmpText ci a = cmpText ci b) (TextBelow (cmpText ci b) (cmpText ci a))) := by
  have he : extTest S op a b ci = cmpOp op (ofLong (lexCmp ((cmpText ci a).map Char.toNat) ((cmpText ci b).map Char.toNat))) (.fin 0) := by
    have : (if ci then stricmp a b else strcmp a b) = lexCmp ((cmpText ci a).map Char.toNat) ((cmpText ci b).map Char.toNat) := by
      cases ci with
      | true => simp only [if_true]; unfold stricmp cmpText; rw [codes_eq, codes_eq]; rfl
      | false => rfl
    unfold extTest
    rw [← this]
    rcases h with h | h
    · rw [cmpValue_word h]
    · rw [cmpValue_word h]
      cases cmpValue S a <;> rfl
  rw [he]
  obtain ⟨h3, h1, h2, h2', h3'⟩ := lexCmp_dbl ((cmpText ci a).map Char.toNat) ((cmpText ci b).map Char.toNat)
  have hi : (cmpText ci a).map Char.toNat = (cmpText ci b).map Char.toNat ↔ cmpText ci a = cmpText ci b :=
    ⟨fun h => List.map_inj_right (fun _ _ => toNat_inj) |>.1 h, fun h => by rw [h]⟩
  rw [hi] at h3 h2 h2'
  exact cmpOp_holds hn _ _ h3 h1 h2 h2' h3'

/-- `==` is EQU. -/
theorem C26_same (S : Strtod) (a b : List Char) (ci : Bool) :
    extTest S "==".toList a b ci = extTest S "EQU".toList a b ci := by
  unfold extTest
  have : ∀ x y, cmpOp "==".toList x y = cmpOp "EQU".toList x y := by
    intro x y
    unfold cmpOp
    rw [if_pos (.inr (by decide)), if_pos (.inl (by decide))]
  split <;> rw [this]

/-- Any other operator is refused. -/
theorem C26_unknown (S : Strtod) (op a b : List Char) (ci : Bool) (h : ∀ c, ¬ CmpName op c) : extTest S op a b ci = none := by
  have hop : ∀ x y, cmpOp op x y = none := by
    intro x y
    have hs : fold op = "==".toList → op = "==".toList := by
      intro he
      have hc : ∀ d : Char, d.toLower = '=' → d = '=' := by
        intro d hd
        unfold Char.toLower at hd
        split at hd
        · next hu =>
          have := congrArg Char.toNat hd
          exfalso
          have h2 : ((d.val + ('a'.val - 'A'.val)).toNat : Nat) = 61 := this
          simp only [UInt32.toNat_add] at h2
          have h3 : 65 ≤ d.val.toNat := hu.1
          have h4 : d.val.toNat ≤ 90 := hu.2
          have h5 : ('a'.val - 'A'.val).toNat = 32 := by decide
          omega
        · exact hd
      unfold fold at he
      cases op with
      | nil => cases he
      | cons x r =>
        cases r with
        | nil => simp at he
        | cons y r' =>
          cases r' with
          | nil =>
            have he' : [x.toLower, y.toLower] = ['=', '='] := he
            simp only [List.cons.injEq, and_true] at he'
            rw [hc x he'.1, hc y he'.2]; rfl
          | cons z r'' =>
            have := congrArg List.length he
            simp at this
    unfold cmpOp
    simp only [stricmp_zero]
    rw [if_neg, if_neg, if_neg, if_neg, if_neg, if_neg]
    · exact fun e => h _ (.lss e)
    · exact fun e => h _ (.leq e)
    · exact fun e => h _ (.gtr e)
    · exact fun e => h _ (.geq e)
    · exact fun e => h _ (.neq e)
    · rintro (e | e)
      · exact h _ (.equ e)
      · exact h _ (.same (hs e))
  unfold extTest
  split <;> exact hop _ _

/-! ### Violations -/

/-- The text `nan` is not even equal to itself, and different from itself. -/
theorem C26_nan (S : Strtod) (ci : Bool) :
    extTest S "EQU".toList "nan".toList "nan".toList ci = some false ∧
    extTest S "LSS".toList "nan".toList "nan".toList ci = some false ∧
    extTest S "GTR".toList "nan".toList "nan".toList ci = some false := by
  have hv : cmpValue S "nan".toList = some .nan := by
    unfold cmpValue
    rw [show "nan".toList = ['n', 'a', 'n'] from rfl, S.conv_nan]
    decide +kernel
  unfold extTest
  rw [hv]
  simp only
  decide +kernel

/-- An empty operand is the number 0. -/
theorem C26_empty (S : Strtod) (ci : Bool) : extTest S "EQU".toList [] "0".toList ci = some true := by
  have hv : cmpValue S [] = some (.fin 0) := by
    unfold cmpValue
    rw [show strtol0 [] = (0, []) by decide]
    simp only
    rw [if_pos (by rfl), ofLong_small (by omega) (by omega)]
    rfl
  have hw : cmpValue S "0".toList = some (.fin 0) := by
    unfold cmpValue
    rw [show strtol0 "0".toList = (0, []) by decide]
    simp only
    rw [if_pos (by rfl), ofLong_small (by omega) (by omega)]
    rfl
  unfold extTest
  rw [hv, hw]
  simp only
  decide +kernel

/-- Different integers above 2^53 compare equal. -/
theorem C26_precision (S : Strtod) (ci : Bool) :
    extTest S "EQU".toList "9007199254740993".toList "9007199254740992".toList ci = some true := by
  have hv : cmpValue S "9007199254740993".toList = some (ofLong 9007199254740993) := by
    unfold cmpValue
    rw [show strtol0 "9007199254740993".toList = (9007199254740993, []) by decide +kernel]
    rfl
  have hw : cmpValue S "9007199254740992".toList = some (ofLong 9007199254740992) := by
    unfold cmpValue
    rw [show strtol0 "9007199254740992".toList = (9007199254740992, []) by decide +kernel]
    rfl
  unfold extTest
  rw [hv, hw]
  simp only
  decide +kernel

/-! ### Examples -/

example : NumOperand "-0x1F".toList (-31) := by
  have := NumOperand.int (t := "-0x1F".toList) (v := -31) (.minus (n := 31) (.hex (x := 'x') (c := '1') (ds := ['F']) (.inl rfl) (by decide)))
    (by omega) (by omega)
  exact this

example : NumOperand "2.50".toList (5 / 2) := by
  have h := Decimal.plain (a := ['2']) (b := ['5', '0']) (by decide) (by decide)
  have e : ((valueIn 10 (['2'] ++ ['5', '0']) : Rat) / ((10 ^ ['5', '0'].length : Nat) : Rat)) = 5 / 2 := by decide +kernel
  rw [e] at h
  exact .dec h ⟨5, 1, by omega, by omega, by omega, by decide +kernel⟩

example : WordOperand "x12".toList := ⟨'x', _, rfl, by decide, by decide, by decide⟩

example : extTest sampleStrtod "lss".toList "1.5".toList "0x2".toList false = some true := by decide +kernel

example : extTest sampleStrtod "LSS".toList "x10".toList "x9".toList false = some true := by decide +kernel

example : (sampleStrtod.conv "abc".toList).1 ≠ .nan := by decide +kernel

end PBat
