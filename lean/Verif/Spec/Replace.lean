/-
Specifications of replacement and line reading.
-/
namespace PBat.Spec

/-- `pat` occurs in `s` at position `i`. -/
def OccursAt (pat s : List Char) (i : Nat) : Prop := pat <+: s.drop i

/-- Leftmost, non-overlapping, once-only replacement. -/
inductive Replaced (pat rep : List Char) : List Char → List Char → Prop
  | none {s} : (∀ i, ¬ OccursAt pat s i) → Replaced pat rep s s
  | cut {pre post out} : (∀ i, i < pre.length → ¬ OccursAt pat (pre ++ pat ++ post) i) →
      Replaced pat rep post out → Replaced pat rep (pre ++ pat ++ post) (pre ++ rep ++ out)

/-- `pat` occurs in `s` at `i` up to ASCII case. -/
def OccursAtI (pat s : List Char) (i : Nat) : Prop :=
  OccursAt (pat.map Char.toLower) (s.map Char.toLower) i

/-- The same relation up to ASCII case. -/
inductive ReplacedI (pat rep : List Char) : List Char → List Char → Prop
  | none {s} : (∀ i, ¬ OccursAtI pat s i) → ReplacedI pat rep s s
  | cut {pre mid post out} : mid.map Char.toLower = pat.map Char.toLower →
      (∀ i, i < pre.length → ¬ OccursAtI pat (pre ++ mid ++ post) i) →
      ReplacedI pat rep post out → ReplacedI pat rep (pre ++ mid ++ post) (pre ++ rep ++ out)

/-- The lines of a stream, each with its line feed (the last one possibly without). -/
def lines : List Char → List (List Char)
  | [] => []
  | c :: cs =>
    if c = '\n' then ['\n'] :: lines cs
    else match lines cs with
      | [] => [[c]]
      | l :: ls => (c :: l) :: ls

/-- Newline normalisation: CR LF and a lone CR both become LF. -/
def normNL : List Char → List Char
  | [] => []
  | [c] => if c = '\r' then ['\n'] else [c]
  | c :: d :: r =>
    if c = '\r' then if d = '\n' then '\n' :: normNL r else '\n' :: normNL (d :: r)
    else c :: normNL (d :: r)

end PBat.Spec
