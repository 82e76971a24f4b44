import Verif.Model.Pbatize
import Verif.Spec.Replace
/-
Specification of pbatize.
-/
namespace PBat.Spec

/-- The texts joined that pbatize separates, with the texts separated: a command and one of its switches, or two different switches of a
command. -/
inductive JoinedSwitches (c : PbCommand) : List Char → List Char → Prop
  | command {x} : x ∈ c.switches → JoinedSwitches c (c.cmd ++ ['/', x]) (c.cmd ++ [' ', '/', x])
  | switches {i j : Nat} {x y : Char} : i ≠ j → c.switches[i]? = some x → c.switches[j]? = some y →
      JoinedSwitches c ['/', y, '/', x] ['/', y, ' ', '/', x]

/-- No switch is joined to anything in the text. -/
def SwitchesApart (cs : List PbCommand) (s : List Char) : Prop :=
  ∀ c ∈ cs, ∀ a b, JoinedSwitches c a b → ∀ i, ¬ OccursAtI a s i

/-- The joined texts of the manual (cmd.exe accepts them): a command in capitals, and its switches. -/
def joinable : List (List Char × List Char) :=
  [("RD".toList, "SQ".toList), ("RMDIR".toList, "QS".toList), ("CD".toList, "D".toList), ("CHDIR".toList, "D".toList),
   ("COPY".toList, "AYR".toList), ("DEL".toList, "AFPQS".toList), ("ERASE".toList, "AFPQS".toList), ("DIR".toList, "ABS".toList),
   ("FOR".toList, "DFLR".toList), ("IF".toList, "I".toList), ("SET".toList, "AP".toList), ("EXIT".toList, "B".toList),
   ("FIND".toList, "CEINV".toList), ("MORE".toList, "CEPST".toList)]

end PBat.Spec
