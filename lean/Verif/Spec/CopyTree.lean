import Verif.Spec.Copy
/-
Specification of COPY and MOVE on trees.
-/
namespace PBat.Spec

/-- No joker. -/
def NoJoker (s : List Char) : Prop := '*' ∉ s ∧ '?' ∉ s

/-- The static part of a pattern: what is before the last separator before the first joker, with that separator. -/
inductive StaticPart : List Char → List Char → Prop
  | intro {pre s rest} : NoJoker pre → pre.getLast? = some '/' → 2 ≤ pre.length → NoJoker s → '/' ∉ s → (rest = [] ∨ ∃ r, rest = '*' :: r ∨ rest = '?' :: r) →
      StaticPart (pre ++ (s ++ rest)) pre

/-- Directories made one after the other; the boolean tells whether all of it succeeded. -/
def makeAll {W : Type} (ops : CopyOps W) (w : W) : List (List Char) → W × Bool
  | [] => (w, true)
  | d :: ds => ((makeAll ops (ops.mkdirs w d).1 ds).1, decide ((ops.mkdirs w d).2 = 0#32) && (makeAll ops (ops.mkdirs w d).1 ds).2)

/-- What is found and has the attributes asked for. -/
def treeFound (has : List Char → Attr → Bool) (items : List CopyItem) (l : List (List Char)) : List (List Char) :=
  l.filter fun f => (copySel items).all fun p => has f p.1 == p.2

end PBat.Spec
