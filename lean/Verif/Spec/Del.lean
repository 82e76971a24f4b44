import Verif.Spec.Env
import Verif.Spec.Attr
import Verif.Model.Attr
import Verif.Model.Del
/-
Specification of questions and of DEL.
-/
namespace PBat.Spec

/-- A line read from the input: the text typed is `t` (carriage returns are dropped), `r` is the input after it. -/
def Typed (input t r : List Char) : Prop := ∃ l, '\n' ∉ l ∧ input = l ++ '\n' :: r ∧ t = l.filter (· ≠ '\r')

/-- The text is one of two words, whatever the case of letters. -/
def Says (a b t : List Char) : Prop := fold t = fold a ∨ fold t = fold b

/-- The words of a language are not empty, fit a line of 29 characters, and no text means two things. -/
structure ClearWords (w : AskWords) : Prop where
  ne : ∀ x ∈ [w.yes, w.yesA, w.no, w.noA, w.all, w.allA], x ≠ [] ∧ x.length < 30
  yn : ∀ t, Says w.yes w.yesA t → ¬ Says w.no w.noA t
  ya : ∀ t, Says w.yes w.yesA t → ¬ Says w.all w.allA t
  na : ∀ t, Says w.no w.noA t → ¬ Says w.all w.allA t

/-- The files confirmed one by one: a line is read for each file; YES removes it, NO or an empty line keeps it, ALL removes it and all those
after it without further question. -/
inductive Confirmed (w : AskWords) : List (List Char) → List Char → List (List Char) → List Char → Prop
  | nil {i} : Confirmed w [] i [] i
  | yes {f fs i t r ys rest} : Typed i t r → Says w.yes w.yesA t → Confirmed w fs r ys rest → Confirmed w (f :: fs) i (f :: ys) rest
  | no {f fs i t r ys rest} : Typed i t r → (Says w.no w.noA t ∨ t = []) → Confirmed w fs r ys rest → Confirmed w (f :: fs) i ys rest
  | all {f fs i t r} : Typed i t r → Says w.all w.allA t → Confirmed w (f :: fs) i (f :: fs) r

/-- Files removed one after the other; the boolean tells whether all of them were. -/
def removeAll {W : Type} (remove : W → List Char → W × Bool) (w : W) : List (List Char) → W × Bool
  | [] => (w, true)
  | f :: fs => ((removeAll remove (remove w f).1 fs).1, (remove w f).2 && (removeAll remove (remove w f).1 fs).2)

/-- What the user writes after DEL. -/
inductive DelItem where
  | prompt | force | recursive | quiet
  | attrs (l : List (Attr × Bool))
  | name (n : List Char)
  deriving DecidableEq

/-- The texts of the items. -/
inductive DelText : List Char → DelItem → Prop
  | prompt {t} : fold t = "/p".toList → DelText t .prompt
  | force {t} : fold t = "/f".toList → DelText t .force
  | recursive {t} : fold t = "/s".toList → DelText t .recursive
  | quiet {t} : fold t = "/q".toList → DelText t .quiet
  | attrs {a s l} : a = 'a' ∨ a = 'A' → AttrText s l → DelText ('/' :: a :: s) (.attrs l)
  | attrs' {a s l} : a = 'a' ∨ a = 'A' → AttrText s l → DelText ('/' :: a :: ':' :: s) (.attrs l)
  | name {n} : n.head? ≠ some '/' → DelText n (.name n)

/-- The names among the items. -/
def delNames (items : List DelItem) : List (List Char) := items.filterMap fun | .name n => some n | _ => none

/-- The attributes asked for: those of the last item giving some. -/
def delSel (items : List DelItem) : List (Attr × Bool) := (items.filterMap fun | .attrs l => some l | _ => none).getLast?.getD []

end PBat.Spec
