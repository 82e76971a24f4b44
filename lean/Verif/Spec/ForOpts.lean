import Verif.Spec.For
import Verif.Spec.Env
/-
Specification of the options of FOR /F.
-/
namespace PBat.Spec

/-- The options of FOR /F. -/
inductive FOpt
  | delims (cs : List Char)
  | eol (cs : List Char)
  | skip (n : Nat)
  | tokens (its : List TokItem)
  | usebackq
deriving DecidableEq

/-- The names of the options that have a value, with the equal sign. -/
def optNames : List (List Char) :=
  [['d', 'e', 'l', 'i', 'm', 's', '='], ['e', 'o', 'l', '='], ['s', 'k', 'i', 'p', '='], ['t', 'o', 'k', 'e', 'n', 's', '=']]

/-- An option begins at `s`: its name in any case; `usebackq` stands alone. -/
def OptHead (s : List Char) : Prop :=
  (∃ k ∈ optNames, ∃ a b, s = a ++ b ∧ fold a = k) ∨
  (∃ a b, s = a ++ b ∧ fold a = ['u', 's', 'e', 'b', 'a', 'c', 'k', 'q'] ∧ (b = [] ∨ ∃ b', b = ' ' :: b'))

/-- An option is written as a name and a value. -/
inductive OptWritten : FOpt → List Char → List Char → Prop
  | delims {k v} : fold k = ['d', 'e', 'l', 'i', 'm', 's', '='] → OptWritten (.delims v) k v
  | eol {k v} : fold k = ['e', 'o', 'l', '='] → OptWritten (.eol v) k v
  | skip {k t b n} : fold k = ['s', 'k', 'i', 'p', '='] → Number t (n : Nat) → (∀ c ∈ b, c = ' ') →
      OptWritten (.skip n) k (t ++ b)
  | tokens {k t its} : fold k = ['t', 'o', 'k', 'e', 'n', 's', '='] → ItemsText its t → OptWritten (.tokens its) k t
  | usebackq {k b} : fold k = ['u', 's', 'e', 'b', 'a', 'c', 'k', 'q'] → (∀ c ∈ b, c = ' ') → OptWritten .usebackq k b

/-- A value in which no option begins behind a space; `next` is the text that follows. -/
def Quiet (v next : List Char) : Prop := ∀ p s, v = p ++ ' ' :: s → ¬ OptHead (s ++ next)

/-- The options of one parameter, separated by a space.  A value may hold spaces. -/
inductive OptsText : List FOpt → List Char → Prop
  | nil : OptsText [] []
  | last {o k v} : OptWritten o k v → Quiet v [] → OptsText [o] (k ++ v)
  | cons {o os k v t} : OptWritten o k v → Quiet v (' ' :: t) → OptsText os t → os ≠ [] → OptsText (o :: os) (k ++ v ++ ' ' :: t)

/-- The options may be spread over parameters. -/
inductive OptParams : List FOpt → List (List Char) → Prop
  | nil : OptParams [] []
  | cons {a b p ps} : OptsText a p → OptParams b ps → OptParams (a ++ b) (p :: ps)

def FOpt.delims? : FOpt → Option (List Char)
  | .delims d => some d
  | _ => none

def FOpt.eol? : FOpt → Option (List Char)
  | .eol d => some d
  | _ => none

def FOpt.skip? : FOpt → Option Nat
  | .skip n => some n
  | _ => none

def FOpt.tokens? : FOpt → Option (List TokItem)
  | .tokens its => some its
  | _ => none

/-- The last value given, or the default. -/
def lastValue {α : Type} (f : FOpt → Option α) (os : List FOpt) (d : α) : α := ((os.filterMap f).getLast?).getD d

/-- The characters that begin a comment line: those of the last `eol=`; without one `;`, unless it has been a delimiter. -/
def eolValue (os : List FOpt) : List Char :=
  lastValue FOpt.eol? os (if (os.filterMap FOpt.delims?).any (·.contains ';') then [] else [';'])

end PBat.Spec
