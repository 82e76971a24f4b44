import Verif.Spec.Startup
/-
Specification of START.
-/
namespace PBat.Spec

/-- What may come before the command. -/
inductive StartItem
  | wait
  | back
  | ignored
  | dir (d : List Char)
  | title (t : List Char)
  deriving DecidableEq

/-- The switches without value, in any case. -/
inductive StartSwitch : List Char → StartItem → Prop
  | wait {o} : fold o = ['/', 'w', 'a', 'i', 't'] ∨ fold o = ['/', 'w'] → StartSwitch o .wait
  | back {o} : fold o = ['/', 'b'] → StartSwitch o .back
  | ignored {o} : fold o ∈ [['/', 'n', 'o', 'r', 'm', 'a', 'l'], ['/', 's', 'h', 'a', 'r', 'e', 'd'],
      ['/', 's', 'e', 'p', 'a', 'r', 'a', 't', 'e'], ['/', 'h', 'i', 'g', 'h'], ['/', 'l', 'o', 'w'],
      ['/', 'r', 'e', 'a', 'l', 't', 'i', 'm', 'e'], ['/', 'a', 'b', 'o', 'v', 'e', 'n', 'o', 'r', 'm', 'a', 'l'],
      ['/', 'b', 'e', 'l', 'o', 'w', 'n', 'o', 'r', 'm', 'a', 'l']] → StartSwitch o .ignored

/-- The switches with a value. -/
inductive StartValue : List Char → List Char → StartItem → Prop
  | ignored {o v} : fold o = ['/', 'n', 'o', 'd', 'e'] ∨ fold o = ['/', 'a', 'f', 'f', 'i', 'n', 'i', 't', 'y'] → StartValue o v .ignored
  | dir {o v} : fold o = ['/', 'd'] → StartValue o v (.dir v)

/-- Texts that are no switch of START. -/
def NoSwitch (o : List Char) : Prop := fold o ≠ ['/', '?'] ∧ (∀ i, ¬ StartSwitch o i) ∧ ∀ v i, ¬ StartValue o v i

/-- Lines beginning with switches and titles (texts in quotes), and what follows. -/
inductive StartLine (q : Char → Bool) : List Char → List StartItem → List Char → Prop
  | nil {line} : StartLine q line [] line
  | switch {line o i tail is rest} : ParamPrefix q line [o] tail → StartSwitch o i → StartLine q tail is rest → StartLine q line (i :: is) rest
  | value {line o v i tail is rest} : ParamPrefix q line [o, v] tail → StartValue o v i → StartLine q tail is rest → StartLine q line (i :: is) rest
  | title {w t tail is rest} : (∀ c ∈ w, Blank c) → NoSwitch t → (tail = [] ∨ ∃ b r, tail = b :: r ∧ Blank b) → StartLine q tail is rest →
      StartLine q (w ++ '"' :: (escape q t ++ ['"']) ++ tail) (.title t :: is) rest

def StartItem.isDir : StartItem → Bool
  | .dir _ => true
  | _ => false

def StartItem.isTitle : StartItem → Bool
  | .title _ => true
  | _ => false

/-- At most one directory and one title. -/
def OnceEach (is : List StartItem) : Prop := is.countP StartItem.isDir ≤ 1 ∧ is.countP StartItem.isTitle ≤ 1

instance (is) : Decidable (OnceEach is) := by unfold OnceEach; infer_instance

/-- The directory asked for, `cur` if none. -/
def DirAsked (full : List Char → List Char) (cur : List Char) (is : List StartItem) (d : List Char) : Prop :=
  (∃ v, .dir v ∈ is ∧ d = full v) ∨ (∀ v, .dir v ∉ is) ∧ d = cur

/-- The name of an URI: it has a colon, not at the second place. -/
def Uri (t : List Char) : Prop := ':' ∈ t ∧ t[1]? ≠ some ':'

end PBat.Spec
