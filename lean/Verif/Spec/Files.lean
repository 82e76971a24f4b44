import Verif.Spec.Num
import Verif.Spec.Str
/-
Specification of the names of files.
-/
namespace PBat.Spec

/-- The names of devices, in lower case, and the files they stand for: NUL, CON, PRN, and LPT and COM with a number from 1 to 11. -/
def devices : List (List Char × List Char) :=
  [("nul".toList, "/dev/null".toList), ("con".toList, "/dev/tty".toList), ("prn".toList, "/dev/lpt0".toList)] ++
    (List.range 11).map (fun i => ("lpt".toList ++ (toString (i + 1)).toList, "/dev/lpt".toList ++ (toString i).toList)) ++
    (List.range 11).map (fun i => ("com".toList ++ (toString (i + 1)).toList, "/dev/ttyS".toList ++ (toString i).toList))

/-- The device a name stands for, whatever the case of its letters. -/
def device (p : List Char) : Option (List Char) := (devices.find? fun d => d.1 == p.map Char.toLower).map (·.2)

/-- Beginning with one separator. -/
def Rooted (p : List Char) : Prop := p.head? = some '/' ∧ (p.drop 1).head? ≠ some '/'

instance (p) : Decidable (Rooted p) := by unfold Rooted; infer_instance

/-- The file a name stands for. -/
def fileOf (cur p : List Char) : List Char :=
  match device p with
  | some d => d
  | none => if Rooted p then p else cur ++ '/' :: p

/-- COM or LPT. -/
def PortName (k : List Char) : Prop := k.map Char.toLower = "lpt".toList ∨ k.map Char.toLower = "com".toList

end PBat.Spec
