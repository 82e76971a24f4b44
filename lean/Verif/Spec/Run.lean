/-
Specification of the execution of lines.
-/
namespace PBat.Spec

/-- The operators between the parts of a line. -/
inductive Link where
  | seq | and | or
  deriving DecidableEq, Repr

/-- Whether what follows the operator runs, given the error level. -/
def Link.allows : Link → Int → Bool
  | .seq, _ => true
  | .and, e => e == 0
  | .or, e => e != 0

/-- Runs the parts of a line one after the other: `run` runs a part, `err` is the error level, `stop` tells that the line
was left (by GOTO or EXIT). -/
def chain {C S : Type} (run : C → S → Option S) (err : S → Int) (stop : S → Bool) : List (Link × C) → S → Option S
  | [], s => some s
  | (o, c) :: r, s =>
    if stop s then some s
    else if o.allows (err s) then (run c s).bind (chain run err stop r)
    else chain run err stop r s

/-- Runs something for each value until the line is left. -/
def forEach {V S : Type} (set : V → S → S) (run : S → Option S) (stop : S → Bool) : List V → S → Option S
  | [], s => some s
  | x :: xs, s => (run (set x s)).bind (fun s' => if stop s' then some s' else forEach set run stop xs s')

end PBat.Spec
