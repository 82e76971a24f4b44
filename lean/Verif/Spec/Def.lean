import Verif.Spec.CmdList
import Verif.Spec.Args
import Verif.Model.Def
/-
Specification of DEF: the table is a list of commands.
-/
namespace PBat.Spec

/-- Names made of letters, digits and other characters after `/`, without separator, equal sign or caret. -/
def DefName (n : List Char) : Prop := n ≠ [] ∧ n.head? ≠ some '@' ∧ ∀ c ∈ n, '/'.toNat < c.toNat ∧ c ∉ [';', '=', '^']

instance (n) : Decidable (DefName n) := by unfold DefName; infer_instance

/-- A command of this name, in any case. -/
def Known (T : List (CmdEntry π)) (n : List Char) : Prop := ∃ x ∈ T, fold x.name = fold n

instance (T : List (CmdEntry π)) (n) : Decidable (Known T n) := by unfold Known; infer_instance

/-- The commands after a definition: a new name is added, a known name is redefined when forced and left otherwise. -/
def defined (T : List (CmdEntry CmdBody)) (force : Bool) (n body : List Char) : List (CmdEntry CmdBody) :=
  if Known T n then
    if force then T.map fun x => if fold x.name = fold n then ⟨x.name, n.length, .text body⟩ else x else T
  else T ++ [⟨n, n.length, .text body⟩]

/-- The ways of writing a definition. -/
inductive DefLine : List Char → Bool → List Char → List Char → Prop
  | plain {w n body} : (∀ c ∈ w, Blank c) → DefName n → DefLine (w ++ (n ++ '=' :: body)) false n body
  | force {w f b rest fc n body} : (∀ c ∈ w, Blank c) → fold f = "/f".toList → Blank b → DefLine rest fc n body →
      DefLine (w ++ (f ++ b :: rest)) true n body

/-- A name that continues another one continues it as a word, and the other one must end. -/
def Unmixed (T : List (CmdEntry π)) : Prop := ∀ x ∈ T, ∀ y ∈ T, ∀ c s, fold y.name = fold x.name ++ c :: s →
  x.limit ≠ 0 ∧ '/'.toNat < c.toNat ∧ c ≠ ';'

/-- The name can be defined: no command that takes what follows its name is the beginning of it; for a command that is redefined,
no command at all is. -/
def Definable (T : List (CmdEntry π)) (force : Bool) (n : List Char) : Prop := ∀ x ∈ T, ∀ c s, fold n = fold x.name ++ c :: s →
  x.limit ≠ 0 ∧ (force = true → ¬ Known T n)

/-- A line calls a command by its name, written in any case, at the end of the line or before one of ` ,/`, tabulation and line feed
(or anything for a command that takes what follows its name). -/
def CallsBy (w rest : List Char) (e : CmdEntry π) : Prop :=
  fold w = fold e.name ∧ (e.limit = 0 ∨ CmdEnd rest ∧ rest.head? ≠ some ';')

/-- Histories of definitions: the commands before, the lines, the status of each and the commands after. -/
inductive DefHistory : List (CmdEntry CmdBody) → List (List Char × Nat) → List (CmdEntry CmdBody) → Prop
  | nil {T} : DefHistory T [] T
  | cons {T line force n body ls T'} : DefLine line force n body → Definable T force n → DefHistory (defined T force n body) ls T' →
      DefHistory T ((line, if Known T n ∧ force = false then 37 else 0) :: ls) T'

end PBat.Spec
