/-
Specification of number texts.
-/
namespace PBat.Spec

/-- The digits of the bases, both cases. -/
def hexDigits : List Char := "0123456789abcdef".toList

/-- The value of a digit text in a base. -/
def valueIn (b : Nat) (ds : List Char) : Nat := ds.foldl (fun a c => a * b + hexDigits.idxOf c.toLower) 0

/-- Unsigned numbers: decimal not beginning with 0, octal beginning with 0, hexadecimal beginning with 0x. -/
inductive Unsigned : List Char → Nat → Prop
  | dec {c ds} : c ∈ "123456789".toList → (∀ d ∈ ds, d ∈ "0123456789".toList) → Unsigned (c :: ds) (valueIn 10 (c :: ds))
  | oct {ds} : (∀ d ∈ ds, d ∈ "01234567".toList) → Unsigned ('0' :: ds) (valueIn 8 ds)
  | hex {x c ds} : x = 'x' ∨ x = 'X' → (∀ d ∈ c :: ds, d.toLower ∈ hexDigits) → Unsigned ('0' :: x :: c :: ds) (valueIn 16 (c :: ds))

/-- Numbers with an optional sign. -/
inductive Number : List Char → Int → Prop
  | plain {t n} : Unsigned t n → Number t n
  | plus {t n} : Unsigned t n → Number ('+' :: t) n
  | minus {t n} : Unsigned t n → Number ('-' :: t) (-(n : Int))

end PBat.Spec

namespace PBat.Spec

/-- Decimal fractions: digits, a point, digits, with an optional sign. -/
inductive Decimal : List Char → Rat → Prop
  | plain {a b} : a ≠ [] → (∀ d ∈ a ++ b, d ∈ "0123456789".toList) →
      Decimal (a ++ '.' :: b) ((valueIn 10 (a ++ b) : Rat) / ((10 ^ b.length : Nat) : Rat))
  | minus {a b} : a ≠ [] → (∀ d ∈ a ++ b, d ∈ "0123456789".toList) →
      Decimal ('-' :: (a ++ '.' :: b)) (-((valueIn 10 (a ++ b) : Rat) / ((10 ^ b.length : Nat) : Rat)))

/-- Numbers a `double` represents exactly: at most 53 significant binary digits, not too small. -/
def Exact (q : Rat) : Prop := ∃ (m : Int) (e : Nat), -2 ^ 53 ≤ m ∧ m ≤ 2 ^ 53 ∧ e ≤ 1000 ∧ q * ((2 ^ e : Nat) : Rat) = (m : Rat)

end PBat.Spec
