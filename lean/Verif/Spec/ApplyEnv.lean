import Verif.Spec.Env
/-
Specification of the environment of programs.
-/
namespace PBat.Spec

/-- The map after a history: what the reads of `runMapExact` answer from. -/
def endMap : Map → List EnvOp → Map
  | M, [] => M
  | M, .set n c _ _ :: ops => endMap (if c = [] then M.put (fold n.txt) none else M.put (fold (trim n.txt)) (some c)) ops
  | M, .unset n :: ops => endMap (M.put (fold n.txt) none) ops
  | M, .get _ :: ops => endMap M ops

/-- A name that an environment can hold. -/
def NameOk (n : List Char) : Prop := n ≠ [] ∧ '=' ∉ n

/-- The names a history removes, up to case. -/
def RemovesKey (k : List Char) : EnvOp → Prop
  | .set n c _ _ => c = [] ∧ fold n.txt = k
  | .unset n => fold n.txt = k
  | .get _ => False

/-- The names a history sets can be held by an environment. -/
def SetsOk : EnvOp → Prop
  | .set n c _ _ => c = [] ∨ NameOk (trim n.txt)
  | _ => True

end PBat.Spec
