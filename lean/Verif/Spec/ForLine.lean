import Verif.Spec.Block
import Verif.Model.ForLine
import Verif.Spec.Env
/-
Specification of the line of a FOR command, from `man/en_US/for.tea`.
-/
namespace PBat.Spec

/-- Parameters written one after the other, and the text behind them. -/
inductive Params (q : Char → Bool) : List Char → List (List Char) → List Char → Prop
  | nil {t} : Params q t [] t
  | cons {w x a t ps tail} : (∀ c ∈ w, Blank c) → Written q x a → (t = [] ∨ ∃ b r, t = b :: r ∧ Blank b) → Params q t ps tail →
      Params q (w ++ (x ++ t)) (a :: ps) tail

/-- The switches, in any case. -/
inductive SwitchName : ForKind → List Char → Prop
  | f {p} : fold p = ['/', 'f'] → SwitchName .f p
  | l {p} : fold p = ['/', 'l'] → SwitchName .l p
  | r {p} : fold p = ['/', 'r'] → SwitchName .r p
  | d {p} : fold p = ['/', 'd'] → SwitchName .d p

/-- The last switch decides; without switch the loop is simple. -/
inductive Switches : List (List Char) → ForKind → Prop
  | none : Switches [] .simple
  | last {ss k p} : (∀ s ∈ ss, ∃ j, SwitchName j s) → SwitchName k p → Switches (ss ++ [p]) k

/-- The options that go with a kind of loop: none, texts read by `read`, or a directory. -/
inductive LoopOptions (read : List (List Char) → Option ForOpts) : ForKind → List (List Char) → ForOpts → List Char → Prop
  | simple {o} : read [] = some o → LoopOptions read .simple [] o []
  | l {o} : read [] = some o → LoopOptions read .l [] o []
  | f {ps o} : read ps = some o → LoopOptions read .f ps o []
  | r0 {o} : read [] = some o → LoopOptions read .r [] o []
  | r1 {p o} : p ≠ [] → read [] = some o → LoopOptions read .r [p] o p
  | d0 {o} : read [] = some o → LoopOptions read .d [] o []
  | d1 {p o} : p ≠ [] → read [] = some o → LoopOptions read .d [p] o p

/-- The commands: a block, or a command up to the end of the line. -/
inductive CodeText : List Char → List Char → Prop
  | block {w b v} : (∀ c ∈ w, Blank c) → Body true b → (∀ c ∈ v, Blank c) → CodeText (w ++ '(' :: (b ++ ')' :: v)) b
  | line {w g l} : (∀ c ∈ w, Blank c) → Line true g l → (∀ c, l.head? = some c → ¬ Blank c ∧ c ≠ '(') → CodeText (w ++ l) l

/-- A FOR line: switches `ss`, options `ps`, the variable, IN, the set in parentheses, DO, the commands. -/
inductive ForText (q : Char → Bool) (ss ps : List (List Char)) (c : Char) (set code : List Char) : List Char → Prop
  | mk {line w1 w2 w3 w4 xi i xd d t} :
      Params q line (ss ++ ps) (w1 ++ '%' :: c :: (w2 ++ (xi ++ (w3 ++ '(' :: (set ++ ')' :: (w4 ++ (xd ++ t))))))) →
      (∀ x ∈ w1, Blank x) → (∀ x ∈ w2, Blank x) → w2 ≠ [] →
      Written q xi i → fold i = ['i', 'n'] →
      (∀ x ∈ w3, x = ' ' ∨ x = '\t') → w3 ≠ [] → Body true set →
      (∀ x ∈ w4, Blank x) → Written q xd d → fold d = ['d', 'o'] → (t = [] ∨ ∃ b r, t = b :: r ∧ Blank b) →
      CodeText t code → ForText q ss ps c set code line

end PBat.Spec
