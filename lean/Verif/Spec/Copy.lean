import Verif.Spec.Del
import Verif.Spec.Search
import Verif.Model.Copy
/-
Specification of COPY and MOVE.
-/
namespace PBat.Spec

/-- What the user writes after COPY or MOVE: do not ask (slash Y), ask (slash minus Y), attributes, whole trees, `+`, names. -/
inductive CopyItem where
  | quiet | ask | deep | plus
  | attrs (l : List (Attr × Bool))
  | name (n : List Char)
  deriving DecidableEq

/-- The texts of the items. -/
inductive CopyText : List Char → CopyItem → Prop
  | quiet {t} : fold t = "/y".toList → CopyText t .quiet
  | ask {t} : fold t = "/-y".toList → CopyText t .ask
  | deep {t} : fold t = "/r".toList → CopyText t .deep
  | plus : CopyText ['+'] .plus
  | attrs {a s l} : a = 'a' ∨ a = 'A' → AttrText s l → CopyText ('/' :: a :: s) (.attrs l)
  | attrs' {a s l} : a = 'a' ∨ a = 'A' → AttrText s l → CopyText ('/' :: a :: ':' :: s) (.attrs l)
  | name {n} : ¬ "/a".toList <+: fold n → fold n ∉ ["/y".toList, "/-y".toList, "/r".toList] → n ≠ "/?".toList → n ≠ ['+'] → CopyText n (.name n)

/-- The names among the items. -/
def copyNames (items : List CopyItem) : List (List Char) := items.filterMap fun | .name n => some n | _ => none

/-- The attributes asked for: those of the last item giving some. -/
def copySel (items : List CopyItem) : List (Attr × Bool) := (items.filterMap fun | .attrs l => some l | _ => none).getLast?.getD []

/-- A path: a directory with its separator (or nothing) and a name. -/
def Base (f b : List Char) : Prop := ∃ d, f = d ++ b ∧ (d = [] ∨ d.getLast? = some '/') ∧ '/' ∉ b

/-- Work done on each pair of a source and its destination, one after the other; the boolean tells whether all of it succeeded. -/
def copyAll {S : Type} (op : S → List Char → List Char → S × Bool) (s : S) : List (List Char × List Char) → S × Bool
  | [] => (s, true)
  | p :: ps => ((copyAll op (op s p.1 p.2).1 ps).1, (op s p.1 p.2).2 && (copyAll op (op s p.1 p.2).1 ps).2)

/-- The same with questions: a line is read when the destination is an existing file. YES goes on, NO or an empty line leaves it, ALL does this
and all the rest without further question. -/
inductive CopyDialog (w : AskWords) {S : Type} (reg : S → List Char → Bool) (op : S → List Char → List Char → S × Bool) :
    S → List (List Char × List Char) → List Char → S × Bool → List Char → Prop
  | nil {s i} : CopyDialog w reg op s [] i (s, true) i
  | fresh {s a d ps i r rest} : reg s d = false → CopyDialog w reg op (op s a d).1 ps i r rest →
      CopyDialog w reg op s ((a, d) :: ps) i (r.1, (op s a d).2 && r.2) rest
  | yes {s a d ps i t i' r rest} : reg s d = true → Typed i t i' → Says w.yes w.yesA t → CopyDialog w reg op (op s a d).1 ps i' r rest →
      CopyDialog w reg op s ((a, d) :: ps) i (r.1, (op s a d).2 && r.2) rest
  | no {s a d ps i t i' r rest} : reg s d = true → Typed i t i' → (Says w.no w.noA t ∨ t = []) → CopyDialog w reg op s ps i' r rest →
      CopyDialog w reg op s ((a, d) :: ps) i r rest
  | all {s a d ps i t i'} : reg s d = true → Typed i t i' → Says w.all w.allA t →
      CopyDialog w reg op s ((a, d) :: ps) i (copyAll op s ((a, d) :: ps)) i'

/-- The three kinds of work.  The state has a mark: something has been put into the destination already (for concatenation). -/
inductive CopyKind where
  | move | copy | join
  deriving DecidableEq

/-- The work of each kind. -/
def CopyKind.op {W : Type} (ops : CopyOps W) : CopyKind → W × Bool → List Char → List Char → (W × Bool) × Bool
  | .move, s, a, d => (((ops.move s.1 a d).1, s.2), (ops.move s.1 a d).2 = 0#32)
  | .copy, s, a, d => (((ops.copy s.1 a d).1, s.2), (ops.copy s.1 a d).2 = 0#32)
  | .join, s, a, d => (((ops.cat s.1 a d s.2).1, (ops.cat s.1 a d s.2).2.2), (ops.cat s.1 a d s.2).2.1 = 0#32)

/-- The rule of the manual pages for the destinations: what is done, and the destination of each file.  `several`: there are two files or more;
`folder`: the destination is a folder, or ends with a separator. -/
def copyPlan (move plus folder several : Bool) (dest : List Char) (base : List Char → List Char) : CopyKind × (List Char → List Char) :=
  if move then (.move, if folder || several then fun f => inDir (some dest) (base f) else fun _ => dest)
  else if plus then (.join, fun _ => dest)
  else if folder then (.copy, fun f => inDir (some dest) (base f))
  else if several then (.join, fun _ => dest)
  else (.copy, fun _ => dest)

/-- The files to be copied or moved: those found, which are no directories and have the attributes asked for. -/
def copyTargets (full : List Char → List Char) (search : List Char → List (List Char)) (has : List Char → Attr → Bool) (items : List CopyItem) :
    List (List Char) :=
  ((copyNames items).dropLast.flatMap fun n => search (full n)).filter fun f =>
    !has f .dir && (copySel items).all fun p => has f p.1 == p.2

end PBat.Spec
