import Verif.Spec.Args
import Verif.Spec.For
/-
Specification of the simple FOR, from `man/en_US/for.tea`.
-/
namespace PBat.Spec

/-- The characters between chunks. -/
def ChunkGap (c : Char) : Bool := [' ', ',', ':', ';', '\n', '\t'].contains c

/-- The chunks of a set: they end at the first delimiter which is neither quoted nor escaped; `gap` says what may lie between
them. -/
inductive Chunks (gap : Char → Prop) : List Char → List (List Char) → Prop
  | nil {w} : (∀ c ∈ w, gap c) → Chunks gap w []
  | cons {w raw rest cs} : (∀ c ∈ w, gap c) → (∃ c r, raw = c :: r ∧ ChunkGap c = false) →
      ParamEnd ChunkGap (raw ++ rest) raw rest → Chunks gap rest cs → Chunks gap (w ++ (raw ++ rest)) (raw :: cs)

/-- A text without its quotes. -/
inductive ChunkBare : List Char → List Char → Prop
  | both {m} : ChunkBare ('"' :: (m ++ ['"'])) m
  | opened {m} : m.getLast? ≠ some '"' → ChunkBare ('"' :: m) m
  | bare {t} : t.head? ≠ some '"' → ChunkBare t t

/-- The values of a chunk: the files it matches if it has a wildcard. -/
inductive ChunkValues (files : List Char → List (List Char)) : List Char → List (List Char) → Prop
  | plain {t} : '*' ∉ t → '?' ∉ t → ChunkValues files t [t]
  | wild {t e} : '*' ∈ t ∨ '?' ∈ t → ChunkBare t e → ChunkValues files t (files e)

/-- The values of the chunks, in order. -/
inductive SetValues (files : List Char → List (List Char)) : List (List Char) → List (List Char) → Prop
  | nil : SetValues files [] []
  | cons {x xs v vs} : ChunkValues files x v → SetValues files xs vs → SetValues files (x :: xs) (v ++ vs)

end PBat.Spec
