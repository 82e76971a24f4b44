import Verif.Model.Setlocal
import Verif.Spec.Env
/-
Specification of SETLOCAL/ENDLOCAL nesting.
-/
namespace PBat.Spec

/-- The words that change an option or are ignored. -/
def optionWords : List (List Char) :=
  ["enabledelayedexpansion".toList, "disabledelayedexpansion".toList, "cmdlycorrect".toList,
   "cmdlyincorrect".toList, "enableextensions".toList, "disableextension".toList]

/-- SETLOCAL lines that open a level: only option words. -/
def Opens (ws : List (List Char)) : Prop := ∀ w ∈ ws, fold w ∈ optionWords

/-- Lines that change no option. -/
def NoOption (ws : List (List Char)) : Prop :=
  ∀ w ∈ ws, fold w ∈ ["enableextensions".toList, "disableextension".toList]

/-- The value of an option after the words: the last word about it decides. -/
def lastOf (on off : List Char) (d : Bool) (ws : List (List Char)) : Bool :=
  match (ws.reverse.find? fun w => fold w = on ∨ fold w = off) with
  | none => d
  | some w => decide (fold w = on)

/-- Well-bracketed sequences of commands. -/
inductive Balanced : List LocalCmd → Prop
  | nil : Balanced []
  | set {n c a r} : Balanced r → Balanced (.set n c a :: r)
  | unset {n r} : Balanced r → Balanced (.unset n :: r)
  | quiet {ws a r} : ¬ Opens ws → Balanced r → Balanced (.setlocal ws a :: r)
  | nest {ws a body r} : Opens ws → Balanced body → Balanced r →
      Balanced (.setlocal ws a :: (body ++ .endlocal :: r))

/-- The pointers a command brings in are on the same side (C08). -/
def LocalSide (pos : Bool) : LocalCmd → Prop
  | .setlocal _ a => ∀ i, SameSide pos (a i)
  | .endlocal => True
  | .set n _ cpy => SameSide pos n.addr ∧ SameSide pos cpy
  | .unset n => SameSide pos n.addr

end PBat.Spec
