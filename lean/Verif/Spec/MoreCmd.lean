import Verif.Model.MoreCmd
import Verif.Spec.Num
import Verif.Spec.Env
/-
Specification of the command line of MORE, after man/en_US/more.tea.
-/
namespace PBat.Spec

/-- What may be asked of MORE. -/
inductive MoreItem where
  | ignored
  | clear
  | squeeze
  | bytes
  | codes
  | tab (n : Nat)
  | start (n : Nat)
  | file (name : List Char)
  deriving DecidableEq

/-- How it is written. A name is what begins with neither a slash nor a plus, or with a slash and another letter than those of options. -/
inductive MoreSpelt : List Char → MoreItem → Prop
  | e {w} : fold w = ['/', 'e'] → MoreSpelt w .ignored
  | p {w} : fold w = ['/', 'p'] → MoreSpelt w .ignored
  | c {w} : fold w = ['/', 'c'] → MoreSpelt w .clear
  | s {w} : fold w = ['/', 's'] → MoreSpelt w .squeeze
  | u {w} : fold w = ['/', 'u'] → MoreSpelt w .bytes
  | a {w} : fold w = ['/', 'a'] → MoreSpelt w .codes
  | t {c x n} : c.toLower = 't' → Number x (n : Nat) → n < 2 ^ 31 → MoreSpelt ('/' :: c :: x) (.tab n)
  | t' {c x n} : c.toLower = 't' → Number x (n : Nat) → n < 2 ^ 31 → MoreSpelt ('/' :: c :: ':' :: x) (.tab n)
  | n {x n} : Number ('+' :: x) (n : Nat) → n < 2 ^ 31 → MoreSpelt ('+' :: x) (.start n)
  | name {w} : w.head? ≠ some '/' → w.head? ≠ some '+' → MoreSpelt w (.file w)
  | path {c d x} : c ≠ '?' → c.toLower ≠ 't' → MoreSpelt ('/' :: c :: d :: x) (.file ('/' :: c :: d :: x))

/-- The options asked for. -/
def moreOptions (items : List MoreItem) : MoreOpts where
  squeeze := items.contains .squeeze
  ansi := !items.contains .codes
  u8 := !items.contains .bytes
  clear := items.contains .clear
  tab := (items.filterMap fun | .tab n => some (n : Int) | _ => none).getLast?.getD 8

/-- The number of rows that are not shown. -/
def moreStart (items : List MoreItem) : Nat := (items.filterMap fun | .start n => some n | _ => none).getLast?.getD 0

/-- The names given. -/
def moreNames (items : List MoreItem) : List (List Char) := items.filterMap fun | .file n => some n | _ => none

end PBat.Spec
