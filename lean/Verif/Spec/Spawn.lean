import Verif.Model.Spawn
/-!
# Starting programs: what is meant

Only the system calls made are spoken of here, not the states of threads and processes.
-/
namespace PBat.Spec.Spawn
open PBat.Spawn

/-- What the caller may be told, given the calls made so far. -/
def Meant (l : List Act) (waits : Bool) (i : Nat) : Option Nat → Prop
  | none => Act.exec i true ∉ l ∧ (Act.fork i false ∈ l ∨ Act.exec i false ∈ l)
  | some c => Act.exec i true ∈ l ∧ if waits then ∃ st, Act.finish i st ∈ l ∧ c = st / 256 % 256 else c = 0

/-- The pipes are numbered from 3 and below the limit of the loop that closes. -/
def Low (l : List Act) : Prop := ∀ i r w, Act.pipe i r w ∈ l → (3 ≤ r ∧ r < 2048) ∧ 3 ≤ w ∧ w < 2048

/-- No signal came. -/
def Quiet (l : List Act) : Prop := ∀ i, Act.sig i ∉ l

/-- No file was given to the starting script. -/
def NoStart (l : List Act) : Prop := ∀ i, Act.start i ∉ l

/-- A call made by the thread of the run. -/
inductive Own (i : Nat) : Act → Prop
  | fork {b} : Own i (.fork i b)
  | closeW : Own i (.closeW i)
  | readX : Own i (.readX i)
  | readEnd : Own i (.readEnd i)
  | closeR : Own i (.closeR i)
  | wait : Own i (.wait i)

/-- A call that a process makes between `fork` and the begin of the program, or instead of the program. -/
inductive Prep (j : Nat) : Act → Prop
  | mark : Prep j (.kMark j)
  | close : Prep j (.kClose j)
  | shut : Prep j (.kShut j)
  | exec {b} : Prep j (.exec j b)
  | write : Prep j (.kWrite j)
  | closeW : Prep j (.kCloseW j)
  | exit : Prep j (.kExit j)

/-- The run that a call belongs to. -/
def run : Act → Nat
  | .pipe i _ _ | .fork i _ | .closeW i | .readX i | .readEnd i | .closeR i | .wait i | .sig i | .start i | .kMark i | .kClose i
  | .kShut i | .exec i _ | .kWrite i | .kCloseW i | .kExit i | .finish i _ => i

end PBat.Spec.Spawn
