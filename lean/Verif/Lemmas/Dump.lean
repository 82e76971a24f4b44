import Verif.Model.Dump
import Verif.Spec.Dump
import Verif.Lemmas.Num
/-
Lemmas about the program DUMP.
-/
namespace PBat
open Spec

theorem leNat_eq (bs : List Nat) : leNat bs = littleEndian bs := by
  induction bs with
  | nil => rfl
  | cons b bs ih => rw [leNat, ih]; rfl

theorem littleEndian_lt (bs : List Nat) (h : ∀ b ∈ bs, b < 256) : littleEndian bs < 2 ^ (8 * bs.length) := by
  induction bs with
  | nil => decide
  | cons b bs ih =>
    have h1 := h b (by simp)
    have h2 := ih fun x hx => h x (by simp [hx])
    show b + 256 * littleEndian bs < _
    rw [List.length_cons, Nat.mul_add, Nat.pow_add]
    generalize 2 ^ (8 * bs.length) = p at *
    omega

theorem valueIn_snoc (b : Nat) (t : List Char) (c : Char) : valueIn b (t ++ [c]) = valueIn b t * b + hexDigits.idxOf c.toLower := by
  simp [valueIn]

theorem valueIn_zeros (b k : Nat) (t : List Char) : valueIn b (List.replicate k '0' ++ t) = valueIn b t := by
  induction k with
  | zero => rfl
  | succ k ih =>
    rw [List.replicate_succ, List.cons_append]
    have : valueIn b ('0' :: (List.replicate k '0' ++ t)) = valueIn b (List.replicate k '0' ++ t) := by
      show List.foldl _ (0 * b + hexDigits.idxOf '0'.toLower) _ = _
      have : 0 * b + hexDigits.idxOf '0'.toLower = 0 := by
        have : hexDigits.idxOf '0'.toLower = 0 := by decide
        omega
      rw [this]; rfl
    rw [this, ih]

theorem dec_digit (n : Nat) (h : n < 10) : Char.ofNat ('0'.toNat + n) ∈ hexDigits.take 10 ∧ hexDigits.idxOf (Char.ofNat ('0'.toNat + n)).toLower = n := by
  revert h; revert n; decide

theorem hex_digit (n : Nat) (h : n < 16) : "0123456789abcdef".toList.getD n '0' ∈ hexDigits.take 16 ∧
    hexDigits.idxOf ("0123456789abcdef".toList.getD n '0').toLower = n := by
  revert h; revert n; decide

/-- The digits of a number. -/
theorem natText_digits (n : Nat) : DigitsOf 10 (natText n) n := by
  fun_induction natText n with
  | case1 n h =>
    refine ⟨by simpa using (dec_digit n h).1, ?_⟩
    have := (dec_digit n h).2
    show 0 * 10 + _ = _
    omega
  | case2 n h ih =>
    have hd := dec_digit (n % 10) (by omega)
    refine ⟨?_, ?_⟩
    · intro c hc
      rcases List.mem_append.1 hc with hc | hc
      · exact ih.1 c hc
      · rw [List.mem_singleton.1 hc]; exact hd.1
    · rw [valueIn_snoc, ih.2, hd.2]; omega

theorem hexText_digits (n : Nat) : DigitsOf 16 (hexText n) n := by
  fun_induction hexText n with
  | case1 n h =>
    refine ⟨by simpa using (hex_digit n h).1, ?_⟩
    have := (hex_digit n h).2
    show 0 * 16 + _ = _
    omega
  | case2 n h ih =>
    have hd := hex_digit (n % 16) (by omega)
    refine ⟨?_, ?_⟩
    · intro c hc
      rcases List.mem_append.1 hc with hc | hc
      · exact ih.1 c hc
      · rw [List.mem_singleton.1 hc]; exact hd.1
    · rw [valueIn_snoc, ih.2, hd.2]; omega

theorem natText_length (n k : Nat) (h : n < 10 ^ (k + 1)) : (natText n).length ≤ k + 1 := by
  induction k generalizing n with
  | zero => rw [natText, if_pos (by simpa using h)]; simp
  | succ k ih =>
    rw [natText]
    split
    · simp
    · have := ih (n / 10) (by rw [Nat.pow_succ] at h; omega)
      simp; omega

theorem hexText_length (n k : Nat) (h : n < 16 ^ (k + 1)) : (hexText n).length ≤ k + 1 := by
  induction k generalizing n with
  | zero => rw [hexText, if_pos (by simpa using h)]; simp
  | succ k ih =>
    rw [hexText]
    split
    · simp
    · have := ih (n / 16) (by rw [Nat.pow_succ] at h; omega)
      simp; omega

theorem zeroPad_digits {b w n : Nat} {t : List Char} (hb : 1 ≤ b) (h : DigitsOf b t n) (hl : t.length ≤ w) :
    (zeroPad w t).length = w ∧ DigitsOf b (zeroPad w t) n := by
  refine ⟨by simp [zeroPad]; omega, ?_, ?_⟩
  · intro c hc
    rcases List.mem_append.1 hc with hc | hc
    · rw [(List.mem_replicate.1 hc).2]
      have : hexDigits.take b = '0' :: (hexDigits.drop 1).take (b - 1) := by
        obtain ⟨d, rfl⟩ : ∃ d, b = d + 1 := ⟨b - 1, by omega⟩
        rfl
      rw [this]; simp
    · exact h.1 c hc
  · rw [zeroPad, valueIn_zeros, h.2]

theorem padInt_shown {w : Nat} {v : Int} (h1 : 0 ≤ v → v.toNat < 10 ^ w) (h2 : v < 0 → 2 ≤ w ∧ (-v).toNat < 10 ^ (w - 1)) (hw : 1 ≤ w) :
    DecShown w v (padInt w v) := by
  unfold padInt
  split
  · next h =>
    obtain ⟨h3, h4⟩ := h2 h
    obtain ⟨k, rfl⟩ : ∃ k, w = k + 2 := ⟨w - 2, by omega⟩
    obtain ⟨h5, h6⟩ := zeroPad_digits (w := k + 2 - 1) (by omega) (natText_digits (-v).toNat) (natText_length _ k h4)
    refine ⟨by rw [List.length_cons, h5]; omega, fun h' => by omega, fun _ => ⟨_, rfl, h6⟩⟩
  · next h =>
    obtain ⟨k, rfl⟩ : ∃ k, w = k + 1 := ⟨w - 1, by omega⟩
    obtain ⟨h5, h6⟩ := zeroPad_digits (w := k + 1) (by omega) (natText_digits v.toNat) (natText_length _ k (h1 (by omega)))
    exact ⟨h5, fun _ => h6, fun h' => by omega⟩

theorem leInt_value {k : Nat} (hk : 1 ≤ k) {bs : List Nat} (hl : bs.length = k) (hb : ∀ b ∈ bs, b < 256) : IsValue k true bs (leInt k bs) := by
  have h := littleEndian_lt bs hb
  rw [hl] at h
  obtain ⟨j, rfl⟩ : ∃ j, k = j + 1 := ⟨k - 1, by omega⟩
  have e1 : 8 * (j + 1) - 1 = 8 * j + 7 := by omega
  have e2 : 8 * (j + 1) = (8 * j + 7) + 1 := by omega
  unfold leInt IsValue
  rw [leNat_eq, e1]
  rw [e2, Nat.pow_succ] at h
  rw [e2]
  have e3 : ((2 : Int) ^ (8 * j + 7 + 1)) = 2 ^ (8 * j + 7) * 2 := Int.pow_succ ..
  rw [e3]
  have e4 : ((2 ^ (8 * j + 7) : Nat) : Int) = (2 : Int) ^ (8 * j + 7) := by simp
  generalize littleEndian bs = n at *
  generalize (2 : Nat) ^ (8 * j + 7) = p at *
  generalize (2 : Int) ^ (8 * j + 7) = q at *
  subst e4
  simp only [if_true]
  split
  · refine ⟨?_, by omega, by omega⟩
    rw [Int.sub_emod, Int.emod_self, Int.sub_zero, Int.emod_emod, Int.emod_eq_of_lt (by omega) (by omega)]
  · refine ⟨Int.emod_eq_of_lt (by omega) (by omega), by omega, by omega⟩

theorem leNat_value {k : Nat} {bs : List Nat} (hl : bs.length = k) (hb : ∀ b ∈ bs, b < 256) : IsValue k false bs (leNat bs) := by
  have h := littleEndian_lt bs hb
  rw [hl] at h
  unfold IsValue
  rw [leNat_eq]
  have e4 : ((2 ^ (8 * k) : Nat) : Int) = (2 : Int) ^ (8 * k) := by simp
  generalize (2 : Nat) ^ (8 * k) = p at *
  generalize (2 : Int) ^ (8 * k) = q at *
  subst e4
  exact ⟨Int.emod_eq_of_lt (by omega) (by omega), by simp only [Bool.false_eq_true, if_false]; omega⟩


/-- The width of the decimal column. -/
def decWidth (i : Nat) : Nat := (dumpTypes.getD i ([], 0, 0)).2.2

theorem hex_shown {k : Nat} (hk : 1 ≤ k) {bs : List Nat} (hl : bs.length = k) (hb : ∀ b ∈ bs, b < 256) :
    (zeroPad (2 * k) (hexText (littleEndian bs))).length = 2 * k ∧ DigitsOf 16 (zeroPad (2 * k) (hexText (littleEndian bs))) (littleEndian bs) := by
  have h := littleEndian_lt bs hb
  rw [hl] at h
  refine zeroPad_digits (by omega) (hexText_digits _) ?_
  obtain ⟨j, rfl⟩ : ∃ j, k = j + 1 := ⟨k - 1, by omega⟩
  have e : 2 * (j + 1) = (2 * j + 1) + 1 := by omega
  rw [e]
  refine hexText_length _ _ ?_
  rw [show (16 : Nat) = 2 ^ 4 from rfl, ← Nat.pow_mul, show 4 * (2 * j + 1 + 1) = 8 * (j + 1) by omega]
  exact h

theorem signed_mod {k : Nat} (hk : 1 ≤ k) {bs : List Nat} (hl : bs.length = k) (hb : ∀ b ∈ bs, b < 256)
    (h : k = 4 ∨ littleEndian bs < 2 ^ (8 * k - 1) ∧ k < 4) : (leInt k bs % 2 ^ 32).toNat = littleEndian bs := by
  rcases h with rfl | ⟨h1, h2⟩
  · have := (leInt_value hk hl hb).1
    rw [show (8 * 4) = 32 from rfl] at this
    rw [this]; simp
  · unfold leInt
    rw [leNat_eq, if_neg (by omega)]
    have h3 := littleEndian_lt bs hb
    rw [hl] at h3
    have : (2 : Nat) ^ (8 * k) ≤ 2 ^ 32 := Nat.pow_le_pow_right (by omega) (by omega)
    rw [Int.emod_eq_of_lt (by omega) (by omega)]
    simp

theorem dec_signed {k w : Nat} (hk : 1 ≤ k) (hw : 2 ≤ w) {bs : List Nat} (hl : bs.length = k) (hb : ∀ b ∈ bs, b < 256)
    (hv : 2 ^ (8 * k - 1) < 10 ^ (w - 1)) : ∃ v, IsValue k true bs v ∧ DecShown w v (padInt w (leInt k bs)) := by
  have h := leInt_value hk hl hb
  refine ⟨_, h, ?_⟩
  have h2 := h.2
  simp only [if_true] at h2
  have e4 : ((2 ^ (8 * k - 1) : Nat) : Int) = (2 : Int) ^ (8 * k - 1) := by simp
  have e5 : (10 : Nat) ^ (w - 1) ≤ 10 ^ w := Nat.pow_le_pow_right (by omega) (by omega)
  generalize (2 : Nat) ^ (8 * k - 1) = p at *
  generalize (2 : Int) ^ (8 * k - 1) = q at *
  subst e4
  exact padInt_shown (fun _ => by omega) (fun _ => ⟨hw, by omega⟩) (by omega)

theorem dec_unsigned {k w : Nat} (hw : 1 ≤ w) {bs : List Nat} (hl : bs.length = k) (hb : ∀ b ∈ bs, b < 256)
    (hv : 2 ^ (8 * k) ≤ 10 ^ w) : ∃ v, IsValue k false bs v ∧ DecShown w v (padInt w (leNat bs)) := by
  refine ⟨_, leNat_value hl hb, ?_⟩
  have h := littleEndian_lt bs hb
  rw [hl] at h
  rw [leNat_eq]
  exact padInt_shown (fun _ => by omega) (fun _ => by omega) hw

/-- One element of an integral type. -/
theorem dumpValue_kind {i : Nat} {name : List Char} {k : Nat} {sg : Bool} (hi : dumpKinds[i]? = some (name, k, sg)) (hex : Bool) {bs : List Nat}
    (hl : bs.length = k) (hb : ∀ b ∈ bs, b < 256) (hh : hex = true → sg = true → k < 4 → littleEndian bs < 2 ^ (8 * k - 1)) :
    ∃ t, dumpValue (fillContext i hex) bs = .ok t ∧ ElementText hex k sg (decWidth i) bs t := by
  match i, hi with
  | 0, hi =>
    cases hi
    cases hex with
    | true => exact ⟨_, rfl, by rw [if_pos (show (fillContext 0 true).hex = true from rfl), signed_mod (by decide) hl hb (.inr ⟨hh rfl rfl (by decide), by decide⟩)]; exact hex_shown (by decide) hl hb⟩
    | false => exact ⟨_, rfl, dec_signed (w := 4) (by decide) (by decide) hl hb (by decide)⟩
  | 1, hi =>
    cases hi
    cases hex with
    | true => exact ⟨_, rfl, by rw [if_pos (show (fillContext 1 true).hex = true from rfl), leNat_eq]; exact hex_shown (by decide) hl hb⟩
    | false => exact ⟨_, rfl, dec_unsigned (w := 3) (by decide) hl hb (by decide)⟩
  | 2, hi =>
    cases hi
    cases hex with
    | true => exact ⟨_, rfl, by rw [if_pos (show (fillContext 2 true).hex = true from rfl), signed_mod (by decide) hl hb (.inr ⟨hh rfl rfl (by decide), by decide⟩)]; exact hex_shown (by decide) hl hb⟩
    | false => exact ⟨_, rfl, dec_signed (w := 6) (by decide) (by decide) hl hb (by decide)⟩
  | 3, hi =>
    cases hi
    cases hex with
    | true => exact ⟨_, rfl, by rw [if_pos (show (fillContext 3 true).hex = true from rfl), leNat_eq]; exact hex_shown (by decide) hl hb⟩
    | false => exact ⟨_, rfl, dec_unsigned (w := 5) (by decide) hl hb (by decide)⟩
  | 4, hi =>
    cases hi
    cases hex with
    | true => exact ⟨_, rfl, by rw [if_pos (show (fillContext 4 true).hex = true from rfl), signed_mod (by decide) hl hb (.inl rfl)]; exact hex_shown (by decide) hl hb⟩
    | false => exact ⟨_, rfl, dec_signed (w := 11) (by decide) (by decide) hl hb (by decide)⟩
  | 5, hi =>
    cases hi
    cases hex with
    | true => exact ⟨_, rfl, by rw [if_pos (show (fillContext 5 true).hex = true from rfl), leNat_eq]; exact hex_shown (by decide) hl hb⟩
    | false => exact ⟨_, rfl, dec_unsigned (w := 10) (by decide) hl hb (by decide)⟩
  | 6, hi =>
    cases hi
    cases hex with
    | true => exact ⟨_, rfl, by rw [if_pos (show (fillContext 6 true).hex = true from rfl), leNat_eq]; exact hex_shown (by decide) hl hb⟩
    | false => exact ⟨_, rfl, dec_signed (w := 20) (by decide) (by decide) hl hb (by decide)⟩
  | j + 7, hi =>
    have : dumpKinds[j + 7]? = none := List.getElem?_eq_none (by show 7 ≤ j + 7; omega)
    rw [this] at hi; cases hi


/-! ### Rows -/

theorem values_kind {i : Nat} {name : List Char} {k : Nat} {sg : Bool} (hi : dumpKinds[i]? = some (name, k, sg)) (hex : Bool)
    (hs : (fillContext i hex).size = k) (es : List (List Nat)) (hl : ∀ e ∈ es, e.length = k) (hb : ∀ e ∈ es, ∀ b ∈ e, b < 256)
    (hh : hex = true → sg = true → k < 4 → ∀ e ∈ es, littleEndian e < 2 ^ (8 * k - 1)) (more : List Nat) :
    ∃ t, dumpValues (fillContext i hex) es.length (es.flatten ++ more) = .ok t ∧ Elements hex k sg (decWidth i) es t := by
  induction es with
  | nil => exact ⟨[], rfl, .nil⟩
  | cons e es ih =>
    obtain ⟨r, h1, h2⟩ := ih (fun x hx => hl x (by simp [hx])) (fun x hx => hb x (by simp [hx])) (fun a b c x hx => hh a b c x (by simp [hx]))
    obtain ⟨t, h3, h4⟩ := dumpValue_kind hi hex (hl e (by simp)) (hb e (by simp)) (fun a b c => hh a b c e (by simp))
    refine ⟨t ++ ' ' :: r, ?_, .cons h4 h2⟩
    have he := hl e (by simp)
    rw [List.length_cons, dumpValues, hs, List.flatten_cons, List.append_assoc, List.take_left' he, List.drop_left' he, h3, Res.ok_bind, h1, Res.ok_bind]

theorem dumpDots_some (l : List Nat) : dumpDots (l.map some) = .ok (l.map fun b => some (dumpChar b)) := by
  induction l with
  | nil => rfl
  | cons b l ih => rw [List.map_cons, dumpDots, ih, Res.ok_bind]; rfl

theorem putChars_some (l : List Nat) (h : ∀ b ∈ l, b ≠ 0) : putChars (l.map some ++ [some 0]) = .ok (l.map Char.ofNat) := by
  induction l with
  | nil => rfl
  | cons b l ih =>
    have hb := h b (by simp)
    obtain ⟨c, rfl⟩ : ∃ c, b = c + 1 := ⟨b - 1, by omega⟩
    rw [List.map_cons, List.cons_append, putChars, ih (fun x hx => h x (by simp [hx])), Res.ok_bind]
    · rfl
    · simp

theorem dumpChar_byte (b : Nat) : dumpChar b ≠ 0 ∧ Char.ofNat (dumpChar b) = byteChar b := by
  unfold dumpChar byteChar
  split
  · exact ⟨by omega, rfl⟩
  · next h => exact ⟨fun e => h (.inl (by omega)), rfl⟩

theorem ptrText_address (a : Nat) : AddressText a (ptrText a) := by
  unfold AddressText ptrText
  split
  · rfl
  · exact ⟨_, rfl, hexText_digits a⟩

theorem flatten_length {k : Nat} {es : List (List Nat)} (hl : ∀ e ∈ es, e.length = k) : es.flatten.length = es.length * k := by
  induction es with
  | nil => simp
  | cons e es ih => rw [List.flatten_cons, List.length_append, hl e (by simp), ih fun x hx => hl x (by simp [hx]), List.length_cons, Nat.succ_mul]; omega

/-- The buffer of characters after a full row. -/
def fullChars (bs : List Nat) : List (Option Nat) := (bs.map fun b => some (dumpChar b)) ++ [some 0]

/-- A full row. -/
theorem dumpRow_full {i : Nat} {name : List Char} {k : Nat} {sg : Bool} (hi : dumpKinds[i]? = some (name, k, sg)) (hex : Bool)
    (hs : (fillContext i hex).size = k) (hk : 1 ≤ k) (es : List (List Nat)) (hn : es.length = (fillContext i hex).n) (hl : ∀ e ∈ es, e.length = k)
    (hb : ∀ e ∈ es, ∀ b ∈ e, b < 256) (hh : hex = true → sg = true → k < 4 → ∀ e ∈ es, littleEndian e < 2 ^ (8 * k - 1)) (a : Nat)
    (chars : List (Option Nat)) (hc : chars.length = (fillContext i hex).n * k + 1) :
    ∃ line, dumpRow (fillContext i hex) a chars es.flatten = .ok (line, fullChars es.flatten) ∧ RowText hex k sg (decWidth i) a es line := by
  have hlen : es.flatten.length = (fillContext i hex).n * k := by rw [flatten_length hl, hn]
  obtain ⟨t, h1, h2⟩ := values_kind hi hex hs es hl hb hh []
  refine ⟨_, ?_, ptrText a, t, ptrText_address a, h2, rfl⟩
  have hdiv : es.flatten.length / k = es.length := by rw [flatten_length hl, Nat.mul_div_cancel _ hk]
  rw [List.append_nil] at h1
  unfold dumpRow
  simp only [hs, hlen, Nat.lt_irrefl, false_and, if_false, Nat.sub_self, List.replicate_zero, List.append_nil]
  rw [← hlen, hdiv, h1, Res.ok_bind]
  have hd0 : chars.drop (es.flatten.length + 1) = [] := List.drop_eq_nil_of_le (by omega)
  simp only [List.take_length, hd0]
  have e1 : (es.flatten.map some ++ [some 0]).take es.flatten.length = es.flatten.map some := List.take_left' (by rw [List.length_map])
  have e2 : (es.flatten.map some ++ [some 0]).drop es.flatten.length = [some 0] := List.drop_left' (by rw [List.length_map])
  rw [e1, e2, dumpDots_some, Res.ok_bind]
  have e3 : (es.flatten.map fun b => some (dumpChar b)) = (es.flatten.map dumpChar).map some := by rw [List.map_map]; rfl
  rw [e3, putChars_some _ (by simp only [List.mem_map]; rintro b ⟨c, -, rfl⟩; exact (dumpChar_byte c).1), Res.ok_bind, hn, Nat.sub_self]
  have e4 : (es.flatten.map dumpChar).map Char.ofNat = es.flatten.map byteChar := by
    rw [List.map_map]
    exact List.map_congr_left fun b _ => (dumpChar_byte b).2
  rw [e4, fullChars, e3]
  simp


theorem dumpChar_again (b : Nat) : dumpChar (dumpChar b) = dumpChar b := by
  unfold dumpChar
  split
  · rfl
  · rfl

/-- The last row of a file, shorter than the others. -/
theorem dumpRow_last {i : Nat} {name : List Char} {k : Nat} {sg : Bool} (hi : dumpKinds[i]? = some (name, k, sg)) (hex : Bool)
    (hs : (fillContext i hex).size = k) (hk : 1 ≤ k) (es : List (List Nat)) (hn : es.length < (fillContext i hex).n) (hl : ∀ e ∈ es, e.length = k)
    (hb : ∀ e ∈ es, ∀ b ∈ e, b < 256) (hh : hex = true → sg = true → k < 4 → ∀ e ∈ es, littleEndian e < 2 ^ (8 * k - 1)) (a : Nat)
    (bs : List Nat) (z : Nat) (hz : z < k) (hbs : bs ++ List.replicate z 0 = es.flatten) (prev : List Nat)
    (hp : prev.length = (fillContext i hex).n * k) :
    ∃ line chars' t, dumpRow (fillContext i hex) a (fullChars prev) bs = .ok (line, chars') ∧ Elements hex k sg (decWidth i) es t ∧
      line = ptrText a ++ ' ' :: t ++ List.replicate (((fillContext i hex).n - es.length) * ((fillContext i hex).width + 1)) ' ' ++
        es.flatten.map byteChar ++ '.' :: (prev.drop (es.flatten.length + 1)).map byteChar ++ ['\n'] := by
  have hlen : es.flatten.length = es.length * k := flatten_length hl
  have hlt : es.length * k + k ≤ (fillContext i hex).n * k := by rw [← Nat.succ_mul]; exact Nat.mul_le_mul_right _ hn
  have hbl : bs.length + z = es.length * k := by rw [← hlen, ← hbs]; simp
  obtain ⟨t, h1, h2⟩ := values_kind hi hex hs es hl hb hh (List.replicate ((fillContext i hex).n * k - es.length * k) 0)
  refine ⟨_, fullChars (es.flatten ++ 0 :: prev.drop (es.length * k + 1)), t, ?_, h2, rfl⟩
  have hmod : (if bs.length < (fillContext i hex).n * k ∧ bs.length % k ≠ 0 then bs.length + (k - bs.length % k) else bs.length) = es.length * k := by
    have h0 : bs.length % k = (k - z) % k := by
      have e : bs.length % k = ((es.length * k - z) % k) := by rw [show bs.length = es.length * k - z by omega]
      rw [e]
      cases hz0 : z with
      | zero => simp
      | succ y =>
        have : 1 ≤ es.length := by
          rcases Nat.eq_zero_or_pos es.length with h | h
          · rw [h] at hbl; omega
          · exact h
        obtain ⟨m, hm⟩ : ∃ m, es.length = m + 1 := ⟨es.length - 1, by omega⟩
        rw [hm, Nat.succ_mul, show m * k + k - (y + 1) = (k - (y + 1)) + m * k by omega, Nat.add_mul_mod_self_right]
    rcases Nat.eq_zero_or_pos z with h | h
    · have : bs.length % k = 0 := by rw [h0, h]; simp
      rw [if_neg (by simp [this])]; omega
    · have : bs.length % k = k - z := by rw [h0, Nat.mod_eq_of_lt (by omega)]
      rw [if_pos ⟨by omega, by omega⟩, this]; omega
  have hdata : bs ++ List.replicate ((fillContext i hex).n * k - bs.length) 0 =
      es.flatten ++ List.replicate ((fillContext i hex).n * k - es.length * k) 0 := by
    rw [← hbs, List.append_assoc, List.replicate_append_replicate]
    congr 2; omega
  unfold dumpRow
  simp only [hs]
  rw [hmod, hdata, Nat.mul_div_cancel _ hk, h1, Res.ok_bind]
  have e0 : (es.flatten ++ List.replicate ((fillContext i hex).n * k - es.length * k) 0).take (es.length * k) = es.flatten := List.take_left' hlen
  rw [e0]
  have e1 : (fullChars prev).drop (es.length * k + 1) = (prev.drop (es.length * k + 1)).map (fun b => some (dumpChar b)) ++ [some 0] := by
    unfold fullChars
    rw [List.drop_append_of_le_length (by simp; omega), List.map_drop]
  rw [e1]
  generalize hq : prev.drop (es.length * k + 1) = q
  have hql : q.length + (es.length * k + 1) = (fillContext i hex).n * k := by rw [← hq, List.length_drop]; omega
  have e2 : es.flatten.map some ++ some 0 :: (q.map (fun b => some (dumpChar b)) ++ [some 0]) =
      (es.flatten ++ 0 :: q.map dumpChar).map some ++ [some 0] := by simp
  have hl2 : ((es.flatten ++ 0 :: q.map dumpChar).map some).length = (fillContext i hex).n * k := by
    rw [List.length_map, List.length_append, List.length_cons, List.length_map, hlen]; omega
  simp only [e2]
  rw [List.take_left' hl2, List.drop_left' hl2, dumpDots_some, Res.ok_bind]
  have e3 : ((es.flatten ++ 0 :: q.map dumpChar).map fun b => some (dumpChar b)) = ((es.flatten ++ 0 :: q.map dumpChar).map dumpChar).map some := by
    rw [List.map_map]; rfl
  rw [e3, putChars_some _ (by simp only [List.mem_map]; rintro b ⟨c, -, rfl⟩; exact (dumpChar_byte c).1), Res.ok_bind]
  have e4 : (es.flatten ++ 0 :: q.map dumpChar).map dumpChar = (es.flatten ++ 0 :: q).map dumpChar := by
    simp only [List.map_append, List.map_cons, List.map_map]
    congr 2
    exact List.map_congr_left fun b _ => dumpChar_again b
  have e5 : ((es.flatten ++ 0 :: q).map dumpChar).map Char.ofNat = es.flatten.map byteChar ++ '.' :: q.map byteChar := by
    rw [List.map_map, List.map_append, List.map_cons]
    congr 1
    · exact List.map_congr_left fun b _ => (dumpChar_byte b).2
    · congr 1
      exact List.map_congr_left fun b _ => (dumpChar_byte b).2
  have e6 : ∀ m, (List.replicate m (List.replicate (fillContext i hex).width ' ' ++ [' '])).flatten =
      List.replicate (m * ((fillContext i hex).width + 1)) ' ' := by
    intro m
    induction m with
    | zero => simp
    | succ m ih =>
      rw [List.replicate_succ, List.flatten_cons, ih, Nat.succ_mul, Nat.add_comm (m * _), ← List.replicate_append_replicate, List.replicate_succ']
  have e7 : fullChars (es.flatten ++ 0 :: q) = ((es.flatten ++ 0 :: q).map dumpChar).map some ++ [some 0] := by
    rw [fullChars, List.map_map]; rfl
  rw [e4, e5, e6, e7, hlen, hq]
  simp only [List.append_assoc, List.cons_append]

end PBat
