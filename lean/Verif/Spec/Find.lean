/-
Specification of FIND.
-/
namespace PBat.Spec

/-- The line of a text read: the text without the line feed that ends it. -/
inductive LineOf : List Char → List Char → Prop
  | lf (l : List Char) : LineOf (l ++ ['\n']) l
  | bare (l : List Char) : ¬ ['\n'] <:+ l → LineOf l l

/-- The line contains the text, up to the case of letters if `ci`. -/
def Contains (ci : Bool) (t l : List Char) : Prop :=
  if ci then t.map Char.toLower <:+: l.map Char.toLower else t <:+: l

instance (ci t l) : Decidable (Contains ci t l) := by unfold Contains; infer_instance

/-- The line is among those asked for. -/
def Asked (ci reverse : Bool) (t l : List Char) : Prop := if reverse then ¬ Contains ci t l else Contains ci t l

instance (ci r t l) : Decidable (Asked ci r t l) := by unfold Asked; infer_instance

/-- What FIND prints for the lines of a file: the lines asked for, in order (0), with their numbers counted from 1 (1), or how many
they are (2). -/
def findOutput (asked : List Char → Bool) (count : Nat) (ls : List (List Char)) : List (List Char) :=
  match count with
  | 0 => ls.filter asked
  | 1 => ((ls.zipIdx 1).filter (fun p => asked p.1)).map (fun p => ("[" ++ toString p.2 ++ "]").toList ++ p.1)
  | _ => [(toString (ls.filter asked).length).toList]

/-- The error level: 0 if a line was found. -/
def findStatus (asked : List Char → Bool) (ls : List (List Char)) : Int := if ∃ l ∈ ls, asked l = true then 0 else 1

end PBat.Spec
