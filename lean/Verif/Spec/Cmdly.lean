import Verif.Spec.Script
import Verif.Spec.Replace
import Verif.Model.Mem
/-
Specification of scripts read line by line.
-/
namespace PBat.Spec.Cmdly

/-- What may come before a command: blanks and the sign that hides the command. -/
def lead (l : List Char) : List Char := l.takeWhile (fun c => decide (Blank c ∨ c = '@'))

/-- A line without it. -/
def core (l : List Char) : List Char := l.dropWhile (fun c => decide (Blank c ∨ c = '@'))

/-- Lines that are not run: blank lines, labels and comments. -/
def Skipped (l : List Char) : Prop := ∀ c, (core l).head? = some c → c = ':'

/-- The expansion of a line succeeds within the room of the line, and does not make it a blank line or a label. -/
def Steady (cap : List Char → Nat) (ex : List Char → Res (List Char)) (l : List Char) : Prop :=
  ∃ t, ex l = .ok (lead l ++ t) ∧ (lead l ++ t).length < cap l ∧
    (Skipped l ↔ ∀ c, t.head? = some c → c = ':' ∨ c = '\n')

/-- Some lines of a script give a text: those that are run are expanded and put end to end. -/
inductive Joined (ex : List Char → Res (List Char)) : List (List Char) → List Char → Prop
  | nil : Joined ex [] []
  | skip {l ls t} : Skipped (normNL l) → Joined ex ls t → Joined ex (l :: ls) t
  | run {l ls u t} : ¬ Skipped (normNL l) → ex (normNL l) = .ok u → Joined ex ls t → Joined ex (l :: ls) (terminated u ++ t)

/-- The lines of a script are these commands, the `n`th being expanded as `exs n`: lines that are not run, then the lines of a whole
command, and so on.  The lines of a command begin and end with a line that is run. -/
inductive Runs (exs : Nat → List Char → Res (List Char)) : Nat → List (List Char) → List (List Char) → Prop
  | done {n ls} : (∀ l ∈ ls, Skipped (normNL l)) → Runs exs n ls []
  | cmd {n skip blk w strict rest cs} : (∀ l ∈ skip, Skipped (normNL l)) → (∀ l, blk.head? = some l → ¬ Skipped (normNL l)) →
      (∀ l, blk.getLast? = some l → ¬ Skipped (normNL l)) → Joined (exs n) blk (w ++ ['\n']) → Whole strict w →
      Runs exs (n + 1) rest cs → Runs exs n (skip ++ (blk ++ rest)) (w :: cs)

/-- A line is the label `name`: after its blanks comes the name, in any case, and then a blank or the end of the line. -/
def IsLabel (l name : List Char) : Prop := LabelMatches (lineBody l) name

/-- The lines after the first label `name` of a script. -/
def After (ls : List (List Char)) (name : List Char) (rest : List (List Char)) : Prop :=
  ∃ a l, ls = a ++ l :: rest ∧ IsLabel (normNL l) name ∧ ∀ x ∈ a, ¬ IsLabel (normNL x) name

end PBat.Spec.Cmdly
