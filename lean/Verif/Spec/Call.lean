import Verif.Spec.Shift
import Verif.Spec.Env
import Verif.Spec.Script
import Verif.Model.Call
/-
Specification of CALL.
-/
namespace PBat.Spec

/-- Names of scripts: they end with `.bat` or `.cmd` in any case. -/
def ScriptPath (p : List Char) : Prop := ∃ b e, p = b ++ e ∧ (fold e = ".bat".toList ∨ fold e = ".cmd".toList)

/-- What the called script finds when it starts: `%0`, its arguments, `%*`, no loop variable, the error level of the caller, and streams
that it cannot pop. -/
structure Begun (f g : CallState) (zero : List Char) (as : List (List Char)) (all : List Char) : Prop where
  args : ArgsAre g.args (zero :: as)
  star : g.args '*' = some all
  loops : ∀ c, g.loops c = none
  level : g.level = f.level
  locked : g.locked = true

/-- Two states agree on what the commands after CALL depend on: the script being run and the place in it, the arguments, the loop
variables and the lock of the streams. -/
structure SamePlace (f g : CallState) : Prop where
  name : g.name = f.name
  loaded : g.loaded = f.loaded
  script : g.script = f.script
  eof : g.eof = f.eof
  loops : g.loops = f.loops
  args : g.args = f.args
  locked : g.locked = f.locked

/-- `l` is the first line of the script that is a label of the given name, `b` are the lines after it. -/
def LabelledAt (texts : List (List Char)) (name : List Char) (b : List (List Char)) : Prop :=
  ∃ a l, effective texts = a ++ l :: b ∧ isLabel l = true ∧ LabelMatches (labelName l) name ∧
    ∀ x ∈ a, isLabel x = true → ¬ LabelMatches (labelName x) name

end PBat.Spec
