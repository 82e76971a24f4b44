import Verif.Model.LineMem
/-
Which lines are meant by the claims about the memory of lines.
-/
namespace PBat.Spec.Lm
open PBat.Lm

/-- A command that may be run, with the nodes of its line at hand (`true`) or without (`false`).  `j`: FOR may be run without them; `q`: nothing is
to be lost, so IF with an ELSE and FOR without a line are left out. -/
inductive Fine (j q : Prop) : Bool → Cmd → Prop
  | simple {b} : Fine j q b .simple
  | call {b} : Fine j q b .call
  | macro {b c} : Fine j q b c → Fine j q b (.macro c)
  | xargs {b c} : Fine j q false c → Fine j q b (.xargs c)
  | block {b ls} : (∀ l ∈ ls, ∀ p ∈ l, Fine j q true p.2) →
      (∀ l ∈ ls, ∀ a p x r, l = a ++ p :: x :: r → x.1.ty = .pipe → p.2.look = false ∨ p.1.ty = .pipe → Fine j q false p.2) → Fine j q b (.block ls)
  | iff {b yes no} : (q → b = true → no = none) → (∀ b, Fine j q b (.block yes)) → (∀ no', no = some no' → ∀ b, Fine j q b (.block no')) →
      Fine j q b (.iff yes no)
  | loop {b plain body} : (b = false → j ∧ ¬ q) → (∀ b, Fine j q b (.block body)) → Fine j q b (.loop plain body)

/-- A line all of whose commands may be run: those before a pipe are run without their line, unless they are IF or FOR and the first of
the pipe. -/
def FineLine (j q : Prop) (l : Line) : Prop := ∀ b, Fine j q b (.block [l])

/-- An environment in which all lines of scripts are such lines.  With `q`: no command is EXIT, no operator of IF is unknown, no pattern of FOR is met. -/
structure FineEnv (j q : Prop) (e : Env) : Prop where
  fetch : ∀ t l, e.fetch t = some l → FineLine j q l
  junk : j → ∀ t, e.junk t = false
  exits : q → ∀ t, e.exits t = false
  cond : q → ∀ t, e.cond t ≠ .unknown
  item : q → ∀ t k, e.item t ≠ .found k

/-- The blocks that what happened between two states costs: two for an IF with an ELSE that ran its command, one for an unknown operator, one for a FOR
run without its line, one for every file of a pattern at a GOTO or EXIT /B. -/
def cost (s : St) : Nat := 2 * s.elses + s.unknowns + s.bares + s.lefts

/-- The condition is met. -/
def Holds (c : Cond) : Prop := c = .word true ∨ c = .one true ∨ c = .two true

end PBat.Spec.Lm
