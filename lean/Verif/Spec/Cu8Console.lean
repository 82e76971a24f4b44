import Verif.Model.Cu8Console
/-
C96: what the keys of a line editor do to a line of characters.
-/
namespace PBat.Spec
open PBat.Cu8 (EKey isFollowing)

/-- A character in UTF-8: bytes of which all but the first one follow. -/
def IsChar (u : List Nat) : Prop := u ≠ [] ∧ u.length ≤ 4 ∧ isFollowing (u.headD 0) = false ∧ ∀ b ∈ u.tail, isFollowing b = true

/-- The keys, with the text of a completion as characters. -/
inductive CuKey where
  | left | right | delete | up | down | toEnd | home | otherKey | esc | back
  | tab (completion : Option (List (List Nat)))
  | char (u : List Nat)

/-- The same for the code. -/
def CuKey.key : CuKey → EKey
  | .left => .left
  | .right => .right
  | .delete => .delete
  | .up => .up
  | .down => .down
  | .toEnd => .toEnd
  | .home => .home
  | .otherKey => .otherKey
  | .esc => .esc
  | .back => .back
  | .tab c => .tab (c.map List.flatten)
  | .char u => .char u

/-- The characters before and after the cursor, and the number of the entry of the history shown last. -/
structure CuLine where
  before : List (List Nat) := []
  after : List (List Nat) := []
  hid : Nat

/-- An entry of the history is shown with the cursor at its end. -/
def CuLine.recall (l : CuLine) (hist : List (List (List Nat))) (n : Nat) : CuLine :=
  match hist[n]? with
  | some e => ⟨e, [], n⟩
  | none => { l with hid := n }

/-- What a key does. -/
def CuLine.press (hist : List (List (List Nat))) (l : CuLine) : CuKey → CuLine
  | .left =>
    match l.before.getLast? with
    | some c => { l with before := l.before.dropLast, after := c :: l.after }
    | none => l
  | .right =>
    match l.after with
    | c :: rest => { l with before := l.before ++ [c], after := rest }
    | [] => l
  | .delete => { l with after := l.after.tail }
  | .up => l.recall hist (l.hid - 1)
  | .down => l.recall hist (min (l.hid + 1) (hist.length - 1))
  | .toEnd => { l with before := l.before ++ l.after, after := [] }
  | .home => { l with before := [], after := l.before ++ l.after }
  | .otherKey => l
  | .esc => { l with before := [], after := [] }
  | .back => { l with before := l.before.dropLast }
  | .tab none => l
  | .tab (some c) => { l with before := l.before ++ c }
  | .char u => { l with before := l.before ++ [u] }

/-- The bytes of the line. -/
def CuLine.bytes (l : CuLine) : List Nat := (l.before ++ l.after).flatten

/-- What is shown here: the arrows only go over characters of one byte, the history is not empty when the newer entry is asked
for, a completion is not shorter than what is behind the cursor, and the buffer is not full. -/
def Tame (orig : Nat) (hist : List (List (List Nat))) (l : CuLine) (k : CuKey) : Prop :=
  (match k with
    | .left => ∀ c, l.before.getLast? = some c → c.length = 1
    | .right => ∀ c, l.after.head? = some c → c.length = 1
    | .down => hist ≠ []
    | .tab (some c) => (∀ x ∈ c, IsChar x) ∧ (c ≠ [] → l.after.flatten.length ≤ c.flatten.length)
    | .char u => IsChar u
    | _ => True) ∧ (l.press hist k).bytes.length < orig

/-- All keys are tame. -/
def TameAll (orig : Nat) (hist : List (List (List Nat))) : CuLine → List CuKey → Prop
  | _, [] => True
  | l, k :: ks => Tame orig hist l k ∧ TameAll orig hist (l.press hist k) ks

/-- The keys one after the other. -/
def CuLine.presses (hist : List (List (List Nat))) (l : CuLine) (ks : List CuKey) : CuLine := ks.foldl (CuLine.press hist) l

end PBat.Spec
