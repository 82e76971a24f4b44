import Verif.Model.Var
/-
Specification of substring references, on texts given as lists of code points.
-/
namespace PBat.Spec

/-- One code point: a leading byte and its continuation bytes. -/
def CodePoint (cont : Char → Bool) (u : List Char) : Prop :=
  ∃ c cs, u = c :: cs ∧ cont c = false ∧ ∀ d ∈ cs, cont d = true

/-- Start of the range: negative positions count from the end, then clamp. -/
def rangeStart (n : Nat) (b : Int) : Nat := (if b < 0 then max 0 (n + b) else min b n).toNat

/-- End of the range: zero means the end, a negative length leaves out characters at the end. -/
def rangeEnd (n : Nat) (b l : Int) : Nat :=
  if 0 < l then (min (rangeStart n b + l) n).toNat else (max 0 (n + l)).toNat

/-- The documented substring. -/
def substring (u : List (List Char)) (b l : Int) : List Char :=
  ((u.take (rangeEnd u.length b l)).drop (rangeStart u.length b)).flatten

/-- The position actually meant by `b`. -/
def position (n : Nat) (b : Int) : Int := if b < 0 then n + b else b

/-- Requests that fit: the start is in the text, a positive length ends in the text, and (a quirk of the code)
from the end a positive length is at most the start position. -/
def Fits (n : Nat) (b l : Int) : Prop :=
  -(n : Int) ≤ b ∧ (0 < l → position n b + l ≤ n) ∧ (b < 0 → 0 < l → l ≤ position n b)

instance (n b l) : Decidable (Fits n b l) := by unfold Fits; infer_instance

/-- A decimal numeral. -/
def IsDigits (ds : List Char) : Prop := ds ≠ [] ∧ ∀ c ∈ ds, '0' ≤ c ∧ c ≤ '9'

/-- Its value. -/
def decimal (ds : List Char) : Nat := ds.foldl (fun a c => a * 10 + (c.toNat - '0'.toNat)) 0

/-- Texts of an integer: digits with an optional minus sign. -/
inductive Numeral : List Char → Int → Prop
  | pos {ds} : IsDigits ds → Numeral ds (decimal ds)
  | neg {ds} : IsDigits ds → Numeral ('-' :: ds) (-(decimal ds : Int))

end PBat.Spec
