import Verif.Model.Estr
/-
Specification of growable strings: what they hold, independently of how they grow.
-/
namespace PBat.Spec

/-- The structure soundly holds `t`: its object has exactly the recorded capacity, and contains `t`
followed by a terminator. -/
def Holds (e : Estr) (t : List Char) : Prop :=
  (e.str.length : Int) = e.len ∧ 256 ≤ e.len ∧ e.len ≤ 2 ^ 30 ∧ NUL ∉ t ∧ ∃ rest, e.str = t ++ NUL :: rest

/-- An operand is legal: C strings contain no terminator, other growable strings are sound. -/
def Legal : EsOp → Prop
  | .cpy s | .cpyN s _ | .cat s | .catN s _ => NUL ∉ s
  | .cpyE src | .catE src => ∃ t, Holds src t

/-- The text a call describes, given the text before it. -/
def After (t : List Char) : EsOp → List Char → Prop
  | .cpy s, t' => t' = s
  | .cpyN s n, t' => t' = s.take n
  | .cat s, t' => t' = t ++ s
  | .catN s n, t' => t' = t ++ s.take n
  | .cpyE src, t' => Holds src t'
  | .catE src, t' => ∃ u, Holds src u ∧ t' = t ++ u

/-- Bytes a call needs (with the terminator), given the text before it. -/
def Needs (t : List Char) : EsOp → Nat → Prop
  | .cpy s, n => n = s.length + 1
  | .cpyN _ k, n => n = k + 1
  | .cat s, n => n = t.length + s.length + 1
  | .catN _ k, n => n = t.length + k + 1
  | .cpyE src, n => ∃ u, Holds src u ∧ n = u.length + 1
  | .catE src, n => ∃ u, Holds src u ∧ n = t.length + u.length + 1

/-- `e` is reachable from a fresh string by some history of calls, each needing at most `2^30` bytes, any
of them possibly failing for lack of memory, and `t` is the text that history describes. -/
inductive Reach : Estr → List Char → Prop
  | init (g) : Reach (esInit g) []
  | step {e t op al g rc e' t'} : Reach e t → Legal op → (∀ n, Needs t op n → n ≤ 2 ^ 30) →
      esStep al g e op = some (rc, e') → (rc = 0 → After t op t') → (rc ≠ 0 → t' = t) → Reach e' t'

end PBat.Spec
