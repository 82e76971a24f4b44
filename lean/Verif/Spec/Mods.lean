import Verif.Spec.CmdList
import Verif.Model.Mods
/-
Specification of modules.
-/
namespace PBat.Spec.Mods
open PBat.Mods (Owner Module)

/-- The folder of the modules. -/
def folder (home : List Char) : List Char := if home = [] then "modules".toList else
  if home.getLast? = some '/' then home ++ "modules".toList else home ++ "/modules".toList

/-- Where a module is: a path from the root, or a name in the folder of modules. -/
inductive At (home : List Char) : List Char → List Char → Prop
  | root {c r} : c ≠ '/' → At home ('/' :: c :: r) ('/' :: c :: r)
  | name {c r} : c ≠ '/' → At home (c :: r) (folder home ++ '/' :: c :: r)

/-- The commands known, as a list; a name is free when it calls none of them. -/
def Free (T : List (CmdEntry Owner)) (name : List Char) : Prop := ∀ e ∈ T, ¬ Calls name e

/-- The command a module registers. -/
def owned (path name : List Char) : CmdEntry Owner := { name := name, limit := name.length, info := .module path }

/-- A module that loads, and whose commands are new. -/
def Fits (T : List (CmdEntry Owner)) (m : Module) (path : List Char) : Prop :=
  m.opens = true ∧ m.refuses (m.names.map fun _ => true) = false ∧
    ∀ a n b, m.names = a ++ n :: b → n ≠ [] ∧ Free (T ++ a.map (owned path)) n

/-- Words which are options. -/
def IsOption (w : List Char) : Prop := fold w = ['/', 'l'] ∨ fold w = ['/', 'q'] ∨ w = ['/', '?']

/-- Modules loaded one after the other, from the words that name them: each one exists, is not among those loaded, up to case, and
fits.  The last loaded comes first. -/
inductive LoadsAll (files : List Char → Option Module) (home : List Char) :
    List (List Char) → List (CmdEntry Owner) → List (List Char) → List (List Char) → List (CmdEntry Owner) → Prop
  | nil {L T} : LoadsAll files home L T [] L T
  | cons {L T w p ws L' T' m} : ¬ IsOption w → At home w p → files p = some m → (∀ x ∈ L, fold x ≠ fold p) → Fits T m p →
      LoadsAll files home (p :: L) (T ++ m.names.map (owned p)) ws L' T' → LoadsAll files home L T (w :: ws) L' T'

end PBat.Spec.Mods
