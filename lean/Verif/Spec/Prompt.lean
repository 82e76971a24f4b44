import Verif.Model.Prompt
import Verif.Spec.Env
/-
Specification of colours and prompts, from the manual pages of COLOR and PROMPT.
-/
namespace PBat.Spec

/-- A colour of the manual: one of the sixteen of the table, `none` for the default of the terminal. -/
abbrev Colour := Option (Fin 16)

/-- The digits of the table. -/
def colourDigit (d : Fin 16) (c : Char) : Prop := "0123456789abcdef".toList[d.val]? = some c.toLower

/-- The colour named by a character when `cur` is in force. -/
inductive Names (cur : Colour) : Char → Colour → Prop
  | digit {c} {d : Fin 16} : colourDigit d c → Names cur c (some d)
  | dot : Names cur '.' cur

/-- Digits of the table are made of bits: 1 blue, 2 green, 4 red, 8 bright.  Terminals number colours with 1 red, 2 green, 4 blue, added
to `base`, or to `bright` for bright colours; the default is 9. -/
def ansi (base bright : Nat) : Colour → Nat
  | none => base + 9
  | some d => (if 8 ≤ d.val then bright else base) + (d.val / 4 % 2 + d.val / 2 % 2 * 2 + d.val % 2 * 4)

/-- The colours of a terminal. -/
structure Screen where
  back : Nat
  fore : Nat
  deriving DecidableEq

/-- A terminal receiving `ESC[nm`. -/
def Screen.sgr (s : Screen) (n : Nat) : Screen :=
  if (40 ≤ n ∧ n ≤ 47) ∨ n = 49 ∨ (100 ≤ n ∧ n ≤ 107) then { s with back := n }
  else if (30 ≤ n ∧ n ≤ 37) ∨ n = 39 ∨ (90 ≤ n ∧ n ≤ 97) then { s with fore := n }
  else s

/-- The screen that shows a pair of colours. -/
def showing (b f : Colour) : Screen := ⟨ansi 40 100 b, ansi 30 90 f⟩

/-- What the codes of the manual stand for, `$x` apart. -/
def promptTable (e : PromptCtx) : List (Char × List Char) :=
  [('a', "&".toList), ('b', "|".toList), ('c', "(".toList), ('d', e.date), ('e', [Char.ofNat 27]), ('f', ")".toList),
   ('g', ">".toList), ('h', [Char.ofNat 8]), ('l', "<".toList), ('n', e.dir.take 1), ('p', e.dir), ('q', "=".toList),
   ('s', " ".toList), ('t', e.time), ('u', e.user.getD []), ('w', e.domain.getD []), ('_', "\n".toList), ('$', "$".toList),
   ('+', List.replicate e.pushed '+')]

/-- What is shown: characters and changes of the two colours. -/
inductive Shown where
  | char (c : Char)
  | colour (back fore : Colour)
  deriving DecidableEq

/-- The reading of a prompt by the manual; `b` and `f` are the colours in force. -/
inductive Prompts (e : PromptCtx) (b f : Colour) : List Char → List Shown → Prop
  | nil : Prompts e b f [] []
  | plain {c s o} : c ≠ '$' → Prompts e b f s o → Prompts e b f (c :: s) (.char c :: o)
  | code {c t s o} : (c.toLower, t) ∈ promptTable e → Prompts e b f s o →
      Prompts e b f ('$' :: c :: s) (t.map .char ++ o)
  | colour {x cb cf b' f' s o} : x.toLower = 'x' → Names b cb b' → Names f cf f' → Prompts e b f s o →
      Prompts e b f ('$' :: x :: cb :: cf :: ';' :: s) (.colour b' f' :: o)

/-- What a terminal receiving characters and colour sequences shows. -/
def look (s : Screen) : List Shown → List (Char × Screen) × Screen
  | [] => ([], s)
  | .char c :: r => ((c, s) :: (look s r).1, (look s r).2)
  | .colour b f :: r => look (showing b f) r

/-- What a terminal receiving what the interpreter writes shows. -/
def receives (s : Screen) : List Piece → List (Char × Screen) × Screen
  | [] => ([], s)
  | .char c :: r => ((c, s) :: (receives s r).1, (receives s r).2)
  | .color n :: r => receives ((setTextColor n).foldl Screen.sgr s) r

/-- Writing a text so that it is shown as it is. -/
def dollars : List Char → List Char
  | [] => []
  | c :: t => if c = '$' then '$' :: '$' :: dollars t else c :: dollars t

end PBat.Spec
