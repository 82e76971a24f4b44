import Verif.Spec.Env
import Verif.Spec.Num
/-
Specification of the conditions of IF.
-/
namespace PBat.Spec

/-- The comparisons. -/
inductive Cmp where
  | equ | neq | lss | leq | gtr | geq
  deriving DecidableEq

/-- The names of the comparisons, in any case. -/
inductive CmpName : List Char → Cmp → Prop
  | equ {n} : fold n = "equ".toList → CmpName n .equ
  | same {n} : n = "==".toList → CmpName n .equ
  | neq {n} : fold n = "neq".toList → CmpName n .neq
  | lss {n} : fold n = "lss".toList → CmpName n .lss
  | leq {n} : fold n = "leq".toList → CmpName n .leq
  | gtr {n} : fold n = "gtr".toList → CmpName n .gtr
  | geq {n} : fold n = "geq".toList → CmpName n .geq

/-- When a comparison holds, from whether the first operand is below, equal to or above the second. -/
def Cmp.holds (below equal above : Prop) : Cmp → Prop
  | .equ => equal
  | .neq => ¬ equal
  | .lss => below
  | .leq => ¬ above
  | .gtr => above
  | .geq => ¬ below

/-- Exactly one of three. -/
def OneOf3 (a b c : Prop) : Prop := (a ∧ ¬ b ∧ ¬ c) ∨ (¬ a ∧ b ∧ ¬ c) ∨ (¬ a ∧ ¬ b ∧ c)

/-- Operands that are numbers: integers up to 2^53 and decimal fractions represented exactly. -/
inductive NumOperand : List Char → Rat → Prop
  | int {t v} : Number t v → -2 ^ 53 ≤ v → v ≤ 2 ^ 53 → NumOperand t (v : Rat)
  | dec {t q} : Decimal t q → Exact q → NumOperand t q

/-- A text beginning with a character that begins no number. -/
def WordOperand (t : List Char) : Prop := ∃ c r, t = c :: r ∧ c ∉ " \t\n\r,;0123456789+-.nNiI".toList ∧ c.toNat ≠ 11 ∧ c.toNat ≠ 12

/-- The order of texts: by the bytes, a prefix first. -/
def TextBelow (a b : List Char) : Prop := a.map Char.toNat < b.map Char.toNat

/-- The text compared: with /i case is ignored. -/
def cmpText (ci : Bool) (t : List Char) : List Char := if ci then fold t else t

/-! ### Bracketed expressions -/

/-- The atomic tests. -/
inductive Test where
  | object (kw x : List Char)
  | compare (a op b : List Char)
  deriving DecidableEq

/-- The words of a test. -/
def Test.words : Test → List (List Char)
  | .object kw x => [kw, x]
  | .compare a op b => [a, op, b]

/-- Words with a meaning in expressions. -/
def Reserved (t : List Char) : Prop := t = ['['] ∨ t = [']'] ∨ fold t = "and".toList ∨ fold t = "or".toList

instance (t) : Decidable (Reserved t) := by unfold Reserved; infer_instance

/-- Tests written without ambiguity. -/
def Test.Clear : Test → Prop
  | .object kw x => (fold kw = "defined".toList ∨ fold kw = "exist".toList ∨ fold kw = "errorlevel".toList) ∧ ¬ Reserved x
  | .compare a op b => ¬ Reserved a ∧ fold a ≠ "not".toList ∧ fold a ≠ "defined".toList ∧ fold a ≠ "exist".toList ∧
      fold a ≠ "errorlevel".toList ∧ (∃ c, CmpName op c) ∧ ¬ Reserved b

mutual
/-- Formulas: a test, possibly negated, or a group in brackets. -/
inductive Form where
  | test (neg : Option (List Char)) (t : Test)
  | group (s : Conds)
/-- Formulas connected by AND and OR. -/
inductive Conds where
  | one (f : Form)
  | more (f : Form) (conn : List Char) (s : Conds)
end

mutual
/-- How a formula is written. -/
def Form.words : Form → List (List Char)
  | .test neg t => neg.toList ++ t.words
  | .group s => ['['] :: (s.words ++ [[']']])
/-- How connected formulas are written. -/
def Conds.words : Conds → List (List Char)
  | .one f => f.words
  | .more f conn s => f.words ++ conn :: s.words
end

mutual
/-- Formulas written without ambiguity. -/
def Form.Clear : Form → Prop
  | .test neg t => (∀ n, neg = some n → fold n = "not".toList) ∧ t.Clear
  | .group s => s.Clear
/-- The same for connected formulas; AND and OR are written in any case. -/
def Conds.Clear : Conds → Prop
  | .one f => f.Clear
  | .more f conn s => f.Clear ∧ (fold conn = "and".toList ∨ fold conn = "or".toList) ∧ s.Clear
end

mutual
/-- The truth value of a formula, from those of the tests. -/
def Form.value (v : Test → Bool) : Form → Bool
  | .test neg t => v t != neg.isSome
  | .group s => s.value v true
/-- The truth value of connected formulas preceded by `acc AND`: AND has precedence over OR. -/
def Conds.value (v : Test → Bool) (acc : Bool) : Conds → Bool
  | .one f => acc && f.value v
  | .more f conn s => if fold conn = "and".toList then s.value v (acc && f.value v) else (acc && f.value v) || s.value v true
end

mutual
/-- The truth value when OR has precedence over AND. -/
def Form.valueOr (v : Test → Bool) : Form → Bool
  | .test neg t => v t != neg.isSome
  | .group s => s.valueOr v false
/-- The truth value of connected formulas preceded by `acc OR` when OR has precedence over AND. -/
def Conds.valueOr (v : Test → Bool) (acc : Bool) : Conds → Bool
  | .one f => acc || f.valueOr v
  | .more f conn s => if fold conn = "and".toList then (acc || f.valueOr v) && s.valueOr v false else s.valueOr v (acc || f.valueOr v)
end

/-- All connectives of one level are this one. -/
def Conds.all (w : List Char) : Conds → Prop
  | .one _ => True
  | .more _ conn s => fold conn = w ∧ s.all w

mutual
/-- No group mixes AND and OR. -/
def Form.Uniform : Form → Prop
  | .test _ _ => True
  | .group s => (s.all "and".toList ∨ s.all "or".toList) ∧ s.Uniform
/-- The same for connected formulas. -/
def Conds.Uniform : Conds → Prop
  | .one f => f.Uniform
  | .more f _ s => f.Uniform ∧ s.Uniform
end

end PBat.Spec
