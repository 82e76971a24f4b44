import Verif.Model.Flow
/-
What a pipeline should do: what would be done if its members ran one after the other, each with the whole output of the one before it.
-/
namespace PBat.Spec.Flow
open PBat.Flow

/-- What a command that does not read writes. -/
def text : Simple → List UInt8
  | .print t => t
  | .echo t => t
  | .setA t => t

def texts (l : List Simple) : List UInt8 := (l.map text).flatten

/-- The first line with its newline, and the rest. -/
def cut : List UInt8 → List UInt8 × List UInt8
  | [] => ([], [])
  | b :: r => if b = 10 then ([b], r) else (b :: (cut r).1, (cut r).2)

/-- The lines of a text. -/
def lines : List UInt8 → List (List UInt8)
  | [] => []
  | b :: r =>
    if b = 10 then [b] :: lines r
    else match lines r with
      | [] => [[b]]
      | l :: ls => (b :: l) :: ls

/-- What the commands of a member write, given their input. -/
def output : List Cmd → List UInt8 → List UInt8
  | [], _ => []
  | .simple c :: r, inp => text c ++ output r inp
  | .each f :: r, inp => ((lines inp).map fun l => texts (f l)).flatten ++ output r []
  | .line f :: r, inp => texts (f (cut inp).1) ++ output r (cut inp).2

/-- What the pipeline writes. -/
def result : List (List Cmd) → List UInt8 → List UInt8
  | [], inp => inp
  | m :: ms, inp => result ms (output m inp)

/-- What the member with the number `i` writes. -/
def upto (ms : List (List Cmd)) (inp : List UInt8) (i : Nat) : List UInt8 := result (ms.take (i + 1)) inp

/-- The command that does not read takes the lock. -/
def Takes (m : Mx) : Simple → Prop
  | .print _ => False
  | .echo _ => m = .echo
  | .setA _ => m = .set

/-- Some command of the member takes the lock, with some input. -/
def TakesM (m : Mx) (l : List Cmd) : Prop := ∃ c ∈ l, match c with
  | .simple c => Takes m c
  | .each f => ∃ t, ∃ c ∈ f t, Takes m c
  | .line f => ∃ t, ∃ c ∈ f t, Takes m c

/-- No two members take the same lock. -/
def Apart (ms : List (List Cmd)) : Prop :=
  ∀ m i j, i < ms.length → j < ms.length → TakesM m (ms.getD i []) → TakesM m (ms.getD j []) → i = j

end PBat.Spec.Flow
