import Verif.Spec.Env
import Verif.Model.CmdList
/-
Specification of the table of commands: the list of the commands added, the first of each name.
-/
namespace PBat.Spec

variable {π : Type}

/-- Adding a command: names are taken up to case, and the first command of a name stays. -/
def addCmd (T : List (CmdEntry π)) (e : CmdEntry π) : List (CmdEntry π) := if ∃ x ∈ T, fold x.name = fold e.name then T else T ++ [e]

/-- What ends a command word. -/
def CmdEnd (rest : List Char) : Prop := ∀ c, rest.head? = some c → c ∈ " ,;\n\t/".toList

instance (rest) : Decidable (CmdEnd rest) := by
  unfold CmdEnd
  cases rest with
  | nil => exact isTrue (by simp)
  | cons c r =>
    by_cases h : c ∈ " ,;\n\t/".toList
    · exact isTrue (by simpa using h)
    · exact isFalse (by simpa using h)

/-- A line calls a command: it begins with its name in any case, and then the word ends unless the command does not require
it. -/
def Calls (line : List Char) (e : CmdEntry π) : Prop :=
  ∃ w rest, line = w ++ rest ∧ fold w = fold e.name ∧ (e.limit = 0 ∨ CmdEnd rest)

/-- Commands as they are registered: the word ends after the name, or need not end. -/
def Registered (e : CmdEntry π) : Prop := e.limit = 0 ∨ e.limit = e.name.length

/-- A history of the table: commands added, and the table rebuilt. -/
inductive TableOp (π : Type) where
  | add (e : CmdEntry π)
  | rebuild

/-- The commands after a history; rebuilding changes nothing. -/
def afterOps (T : List (CmdEntry π)) : List (TableOp π) → List (CmdEntry π)
  | [] => T
  | .add e :: ops => afterOps (addCmd T e) ops
  | .rebuild :: ops => afterOps T ops

/-- No rebuild happens with 2 or 3 commands. -/
def NotSmall (T : List (CmdEntry π)) : List (TableOp π) → Prop
  | [] => True
  | .add e :: ops => NotSmall (addCmd T e) ops
  | .rebuild :: ops => T.length ≠ 2 ∧ T.length ≠ 3 ∧ NotSmall T ops

end PBat.Spec
