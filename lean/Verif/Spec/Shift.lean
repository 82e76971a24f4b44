import Verif.Spec.Args
/-
Specification of script arguments and of `SHIFT`.
-/
namespace PBat.Spec

/-- The arguments left by a displacement of `d` places from `%i` on: those at `i`, …, `i + d - 1` are dropped and
the following ones come in their place. -/
def shifted (i d : Nat) (xs : List (List Char)) : List (List Char) := xs.take i ++ xs.drop (i + d)

/-- An option of `SHIFT`. -/
inductive ShiftOption
  | start (n : Nat)
  | step (n : Nat)

/-- The documented ways of writing an option, except `/7`. -/
inductive ShiftWord : List Char → ShiftOption → Prop
  | plain {n : Nat} {c : Char} : n < 10 → n ≠ 7 → c = Char.ofNat (48 + n) → ShiftWord ['/', c] (.start n)
  | start {n : Nat} {c : Char} : n < 10 → c = Char.ofNat (48 + n) → ShiftWord ['/', 's', c] (.start n)
  | startColon {n : Nat} {c : Char} : n < 10 → c = Char.ofNat (48 + n) → ShiftWord ['/', 's', ':', c] (.start n)
  | step {n : Nat} {c : Char} : n < 10 → c = Char.ofNat (48 + n) → ShiftWord ['/', 'd', c] (.step n)
  | stepColon {n : Nat} {c : Char} : n < 10 → c = Char.ofNat (48 + n) → ShiftWord ['/', 'd', ':', c] (.step n)

/-- The last start and the last displacement given. -/
def settings : Nat × Nat → List ShiftOption → Nat × Nat
  | s, [] => s
  | s, .start n :: r => settings (n, s.2) r
  | s, .step n :: r => settings (s.1, n) r

/-- Words that are options. -/
inductive ShiftWords : List (List Char) → List ShiftOption → Prop
  | nil : ShiftWords [] []
  | cons {w o ws os} : ShiftWord w o → ShiftWords ws os → ShiftWords (w :: ws) (o :: os)

/-- `SHIFT` command lines asking for start `i` and displacement `d`. -/
def ShiftLine (q : Char → Bool) (line : List Char) (i d : Nat) : Prop :=
  ∃ name rest ws os, line = name ++ rest ∧ name.length = 5 ∧ ParamLine q rest ws ∧ ShiftWords ws os ∧
    settings (0, 1) os = (i, d)

/-- Texts that survive being kept in `%+`. -/
def Passable (a : List Char) : Prop := a ≠ [] ∧ ∀ c ∈ a, c ≠ '^' ∧ c ≠ '\n' ∧ c ≠ '%' ∧ c ≠ '!'

instance (a) : Decidable (Passable a) := by unfold Passable; infer_instance

/-- The arguments `%0`, `%1`, … are `xs`: the value of `%0`, …, `%9` is the argument or empty. -/
def ArgsAre (b : Char → Option (List Char)) (xs : List (List Char)) : Prop :=
  ∀ n, n < 10 → b (Char.ofNat (48 + n)) = some (xs.getD n [])

end PBat.Spec
