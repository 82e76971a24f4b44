import Verif.Spec.Block
/-
Specification of the splitting of a line into commands.
-/
namespace PBat.Spec

/-- A line cut into commands; each is preceded by the operator linking it to the one before. -/
inductive Op where
  | seq | and | or | pipe
  deriving DecidableEq, Repr

/-- How an operator is written. -/
def Op.text : Op → List Char
  | .seq => ['&']
  | .and => ['&', '&']
  | .or => ['|', '|']
  | .pipe => ['|']

/-- The line made of a first command and of further commands with their operators. -/
def written (first : List Char) (more : List (Op × List Char)) : List Char :=
  first ++ more.flatMap (fun p => p.1.text ++ p.2)

/-- Adds text in front of the first command. -/
def inFront (t : List Char) (x : List Char × List (Op × List Char)) : List Char × List (Op × List Char) := (t ++ x.1, x.2)

/-- Starts a new command. -/
def newCmd (o : Op) (x : List Char × List (Op × List Char)) : List Char × List (Op × List Char) := ([], (o, x.1) :: x.2)

/-- Reading a line without blocks from left to right: `quoted` inside quotes, `gt` right after an unquoted `>` (where `&`
belongs to a redirection). -/
def splitLine (quoted gt : Bool) : List Char → List Char × List (Op × List Char)
  | [] => ([], [])
  | '^' :: [] => (['^'], [])
  | '^' :: c :: r => inFront ['^', c] (splitLine quoted false r)
  | c :: r =>
    if c = '"' then inFront [c] (splitLine (!quoted) false r)
    else if quoted then inFront [c] (splitLine quoted false r)
    else if c = '&' then
      if gt then inFront [c] (splitLine quoted false r)
      else match r with
        | '&' :: r' => newCmd .and (splitLine false false r')
        | r => newCmd .seq (splitLine false false r)
    else if c = '|' then
      match r with
        | '|' :: r' => newCmd .or (splitLine false false r')
        | r => newCmd .pipe (splitLine false false r)
    else inFront [c] (splitLine quoted (c == '>') r)

/-- Text without parentheses, ending outside quotes and escapes, whose only unquoted operator characters are the `&` of
`>&1` and `>&2`. -/
structure Plain (t : List Char) : Prop where
  amp : ∀ i, Hit Struct t i ∧ OutQuotes t i →
    t[i]? = some '&' ∧ 0 < i ∧ t[i - 1]? = some '>' ∧ (t[i + 1]? = some '1' ∨ t[i + 1]? = some '2')
  line : ∀ i, ¬ Hit (· == '\n') t i
  even : quotesBefore t t.length % 2 = 0
  free : Free t t.length

/-- What follows the first block of a command. -/
inductive Tail : List Char → Prop
  | text {t} : Plain t → Tail t
  | block {t b c} : Plain t → Body false b → Tail c → Tail (t ++ '(' :: (b ++ ')' :: c))

/-- Commands: text without blocks; a block; or IF, FOR, DEF with blocks. -/
inductive Command : List Char → Prop
  | plain {t} : Plain t → Command t
  | group {w b c} : (∀ c ∈ w, Margin c) → Body false b → Tail c → Command (w ++ '(' :: (b ++ ')' :: c))
  | clause {w t b c} : (∀ c ∈ w, Margin c) → BlockWord t → Closed Struct t → Body false b → Tail c →
      Command (w ++ t ++ '(' :: (b ++ ')' :: c))

/-- A command may be followed by an operator: it does not end in `>` before `&`. -/
def Precedes (cmd : List Char) (o : Op) : Prop := (o = .seq ∨ o = .and) → cmd.getLast? ≠ some '>'

/-- Lines of commands. -/
def WellFormed : List Char → List (Op × List Char) → Prop
  | first, [] => Command first
  | first, (o, c) :: more => Command first ∧ Precedes first o ∧ c ≠ [] ∧ WellFormed c more

end PBat.Spec
