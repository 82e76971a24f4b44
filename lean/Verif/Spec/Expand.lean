import Verif.Spec.Str
import Verif.Model.Mem
/-
Specification of line expansion, as a grammar of lines: no searching, no indices.
-/
namespace PBat.Spec

/-- No unescaped delimiter. -/
def Without (d : Char) (s : List Char) : Prop := ∀ i, ¬ Hit (· == d) s i

/-- Text that can precede a delimiter: no unescaped delimiter, and it does not escape what follows. -/
def Lead (d : Char) (s : List Char) : Prop := Without d s ∧ caretsBefore s s.length % 2 = 0

/-- Names of local variables: printable ASCII. -/
def ArgName (c : Char) : Prop := 0x20 < c.toNat ∧ c.toNat < 0x80

/-- Modifiers. -/
def Modifiers (fs : List Char) : Prop := (∀ f ∈ fs, f ∈ ['f', 'd', 'n', 'p', 'x', 'z', 't', 'a']) ∧ fs.length ≤ 16

/-- The local variable `c` has the text `v`. -/
def Defined (b : Char → Option (List Char)) (c : Char) (v : List Char) : Prop := ArgName c ∧ b c = some v

/-- A reference to a local variable at the beginning of a text: the text, the name, the modifiers, what
follows.  After a tilde the longest reading wins. -/
inductive LocalRef (b : Char → Option (List Char)) : List Char → Option (List Char) → Char → List Char → Prop
  | simple {c v rest} : c ≠ '~' → Defined b c v → LocalRef b (c :: rest) none c rest
  | tilde {fs c v rest} : Modifiers fs → Defined b c v →
      (∀ fs' c' v' rest', fs' ++ c' :: rest' = fs ++ c :: rest → Modifiers fs' → Defined b c' v' →
        fs'.length ≤ fs.length) →
      LocalRef b ('~' :: (fs ++ c :: rest)) (some fs) c rest

/-- Text of a value without surrounding quotes: from the opening quote to the last quote of the same kind (to
the end if there is no other). -/
inductive Unquoted : List Char → List Char → Prop
  | both {q a b} : q = '"' ∨ q = '\'' → q ∉ b → Unquoted (q :: (a ++ q :: b)) a
  | opening {q a} : q = '"' ∨ q = '\'' → q ∉ a → Unquoted (q :: a) a
  | bare {a} : a.head? ≠ some '"' → a.head? ≠ some '\'' → Unquoted a a

/-- Value of a reference; `mods` gives the meaning of modifiers. -/
inductive LocalValue (b : Char → Option (List Char)) (mods : List Char → Char → List Char → List Char) :
    List Char → List Char → List Char → Prop
  | plain {s c rest v} : LocalRef b s none c rest → b c = some v → LocalValue b mods s v rest
  | unquote {s c rest v u} : LocalRef b s (some []) c rest → b c = some v → Unquoted v u → LocalValue b mods s u rest
  | modified {s fs c rest v u} : LocalRef b s (some fs) c rest → fs ≠ [] → b c = some v → Unquoted v u →
      LocalValue b mods s (mods fs c u) rest

/-- First characters of an argument reference. -/
def ArgStart (s : List Char) : Prop :=
  ∃ c r, s = c :: r ∧ (('0' ≤ c ∧ c ≤ '9') ∨ c = '*' ∨ c = '+' ∨ c = '~')

/-- The expansion of a line: `esc` is applied to the literal pieces, `arg s v rest` says that `s` begins with an
argument reference of value `v` followed by `rest`, `val n` is the value of the variable `n`.  Each piece of the
result is a literal piece or a value; values are never looked at again. -/
inductive Expands (d : Char) (esc : List Char → List Char) (arg : List Char → List Char → List Char → Prop)
    (val : List Char → Res (Option (List Char))) : List Char → List Char → Prop
  | done {s} : Without d s → Expands d esc arg val s (esc s)
  | doubled {pre rest t} : Lead d pre → Expands d esc arg val rest t →
      Expands d esc arg val (pre ++ d :: d :: rest) (esc pre ++ d :: t)
  | argument {pre s v rest t} : Lead d pre → s.head? ≠ some d → arg s v rest → Expands d esc arg val rest t →
      Expands d esc arg val (pre ++ d :: s) (esc pre ++ v ++ t)
  | var {pre n v rest t} : Lead d pre → n ≠ [] → Lead d n → (¬ ∃ v r, arg (n ++ d :: rest) v r) → val n = .ok v →
      Expands d esc arg val rest t →
      Expands d esc arg val (pre ++ d :: (n ++ d :: rest)) (esc pre ++ v.getD [] ++ t)
  | alone {pre s} : Lead d pre → Without d s → (¬ ∃ v r, arg s v r) →
      Expands d esc arg val (pre ++ d :: s) (esc pre ++ esc s)

/-- The expansion of loop variables: a reference is replaced, anything else is kept. -/
inductive ExpandsSpecial (arg : List Char → List Char → List Char → Prop) : List Char → List Char → Prop
  | done {s} : Without '%' s → ExpandsSpecial arg s s
  | reference {pre s v rest t} : Lead '%' pre → arg s v rest → ExpandsSpecial arg rest t →
      ExpandsSpecial arg (pre ++ '%' :: s) (pre ++ v ++ t)
  | other {pre s t} : Lead '%' pre → (¬ ∃ v r, arg s v r) → ExpandsSpecial arg s t →
      ExpandsSpecial arg (pre ++ '%' :: s) (pre ++ '%' :: t)

/-! ### Lines written as templates -/

/-- A piece of a template. -/
inductive Item
  | percent
  | var (name : List Char)
  | argument (c : Char)

/-- How it is written. -/
def Item.text : Item → List Char
  | percent => ['%', '%']
  | var n => '%' :: (n ++ ['%'])
  | argument c => ['%', c]

/-- What it means. -/
def Item.value (args : Char → Option (List Char)) (vars : List Char → Option (List Char)) : Item → List Char
  | percent => ['%']
  | var n => (vars n).getD []
  | argument c => (args c).getD []

/-- Names that can be written between percent signs: non-empty, without unescaped percent sign, and not beginning
like an argument reference.  Arguments: a digit, a star or a plus, and defined. -/
def Item.Proper (args : Char → Option (List Char)) : Item → Prop
  | percent => True
  | var n => n ≠ [] ∧ Lead '%' n ∧ ¬ ArgStart n
  | argument c => (('0' ≤ c ∧ c ≤ '9') ∨ c = '*' ∨ c = '+') ∧ (args c).isSome

end PBat.Spec
