import Verif.Spec.Args
import Verif.Spec.Num
/-
Specification of TIMEOUT.
-/
namespace PBat.Spec

/-- Durations as written in the manual, `seconds[.milliseconds]`: the duration is `m / 10 ^ f` seconds. -/
inductive Seconds : List Char → Nat → Nat → Prop
  | whole {a} : a ≠ [] → (∀ d ∈ a, d ∈ "0123456789".toList) → Seconds a (valueIn 10 a) 0
  | point {a b} : a ++ b ≠ [] → (∀ d ∈ a ++ b, d ∈ "0123456789".toList) → Seconds (a ++ '.' :: b) (valueIn 10 (a ++ b)) b.length

/-- The arguments of TIMEOUT: the options in any order and case, with at most one duration among them. -/
inductive TimeoutLine : List (List Char) → Bool → Option (List Char) → Prop
  | nil : TimeoutLine [] false none
  | t {a as b s} : a.map Char.toLower = ['/', 't'] → TimeoutLine as b s → TimeoutLine (a :: as) b s
  | nobreak {a as b s} : a.map Char.toLower = "/nobreak".toList → TimeoutLine as b s → TimeoutLine (a :: as) true s
  | seconds {a as b m f} : Seconds a m f → TimeoutLine as b none → TimeoutLine (a :: as) b (some a)

end PBat.Spec
