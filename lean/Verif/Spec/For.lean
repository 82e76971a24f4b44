import Verif.Model.Mem
import Verif.Spec.Num
/-
Specification of the loops of FOR.
-/
namespace PBat.Spec

/-- The numbers from `a` to `b` in steps of `s`. -/
def progression (a s b : Int) : List Int :=
  if s = 0 then []
  else if 0 < s then if a ≤ b then (List.range (((b - a) / s).toNat + 1)).map (fun k : Nat => a + s * (k : Int)) else []
  else if b ≤ a then (List.range (((a - b) / -s).toNat + 1)).map (fun k : Nat => a + s * (k : Int)) else []

/-- Running the commands for each value in order, until they leave the loop. -/
def forValues {α σ : Type} (body : α → σ → Res (σ × Bool)) : List α → σ → Res σ
  | [], st => .ok st
  | v :: vs, st =>
    match body v st with
    | .ok (st', true) => .ok st'
    | .ok (st', false) => forValues body vs st'
    | .ub => .ub
    | .hang => .hang

/-- The fields of a line: the maximal runs of characters which are no delimiters. -/
def fields (delims : List Char) (line : List Char) : List (List Char) :=
  match line with
  | [] => []
  | c :: r =>
    if c ∈ delims then fields delims r
    else (c :: r.takeWhile (· ∉ delims)) :: fields delims (r.dropWhile (· ∉ delims))
termination_by line.length
decreasing_by
  · simp
  · have := (List.dropWhile_suffix (fun c => decide (c ∉ delims)) (l := r)).length_le
    simp only [List.length_cons]
    omega

/-- `tok` is the `n`-th field of the line (counted from 1), `pre` before it and `suf` behind it. -/
structure FieldAt (delims line : List Char) (n : Nat) (pre tok suf : List Char) : Prop where
  whole : line = pre ++ tok ++ suf
  nonempty : tok ≠ []
  clean : ∀ c ∈ tok, c ∉ delims
  left : ∀ c, pre.getLast? = some c → c ∈ delims
  right : ∀ c, suf.head? = some c → c ∈ delims
  before : (fields delims pre).length + 1 = n

/-- The parts of a `tokens=` option: `n`, `n-m`, `n.m`, `n.*`, `n*` and `*`. -/
inductive TokItem
  | one (n : Nat)
  | list (n m : Nat)
  | range (n m : Nat)
  | fromOn (n : Nat)
  | andRest (n : Nat)
  | rest
deriving DecidableEq

/-- Spaces and tabs. -/
def Blanks (t : List Char) : Prop := ∀ c ∈ t, c = ' ' ∨ c = '\t'

/-- The texts of a part, with blanks anywhere around the numbers and signs. -/
inductive ItemText : TokItem → List Char → Prop
  | one {n a t b} : Blanks a → Number t (n : Nat) → Blanks b → ItemText (.one n) (a ++ t ++ b)
  | list {n m a t b a' t' b'} : Blanks a → Number t (n : Nat) → Blanks b → Blanks a' → Number t' (m : Nat) → Blanks b' →
      ItemText (.list n m) (a ++ t ++ b ++ '-' :: (a' ++ t' ++ b'))
  | range {n m a t b a' t' b'} : Blanks a → Number t (n : Nat) → Blanks b → Blanks a' → Number t' (m : Nat) → Blanks b' →
      ItemText (.range n m) (a ++ t ++ b ++ '.' :: (a' ++ t' ++ b'))
  | fromOn {n a t b a' b'} : Blanks a → Number t (n : Nat) → Blanks b → Blanks a' → Blanks b' →
      ItemText (.fromOn n) (a ++ t ++ b ++ '.' :: (a' ++ '*' :: b'))
  | andRest {n a t b b'} : Blanks a → Number t (n : Nat) → Blanks b → Blanks b' → ItemText (.andRest n) (a ++ t ++ b ++ '*' :: b')
  | rest {a b} : Blanks a → Blanks b → ItemText .rest (a ++ '*' :: b)

/-- The parts joined by commas. -/
inductive ItemsText : List TokItem → List Char → Prop
  | single {it t} : ItemText it t → ItemsText [it] t
  | cons {it its t ts} : ItemText it t → ItemsText its ts → ItemsText (it :: its) (t ++ ',' :: ts)

/-- A selection: from token `n` to token `m`, or to the end of the line. -/
abbrev Selection := Nat × Option Nat

/-- The selections listed by the parts; `last` is the last token named so far (`none` when the rest of the line has been
taken).  `*` alone takes the tokens behind the last one named. -/
def select : Option Nat → List TokItem → Option (List Selection)
  | _, [] => some []
  | _, .one n :: r => (select (some n) r).map ([(n, some n)] ++ ·)
  | _, .list n m :: r => (select (some m) r).map ((List.range (m + 1 - n)).map (fun k => (n + k, some (n + k))) ++ ·)
  | _, .range n m :: r => (select (some m) r).map ([(n, some m)] ++ ·)
  | _, .fromOn n :: r => (select none r).map ([(n, none)] ++ ·)
  | _, .andRest n :: r => (select none r).map ([(n, some n), (n + 1, none)] ++ ·)
  | some l, .rest :: r => (select none r).map ([(l + 1, none)] ++ ·)
  | none, .rest :: _ => none

/-- `text` is what a selection takes from a line. -/
inductive Selects (delims line : List Char) : Selection → List Char → Prop
  | missing {n e} : (fields delims line).length < n → Selects delims line (n, e) []
  | rest {n pre tok suf} : FieldAt delims line n pre tok suf → Selects delims line (n, none) (tok ++ suf)
  | span {n m pre tok suf pre' tok' suf' text} : FieldAt delims line n pre tok suf → FieldAt delims line m pre' tok' suf' →
      n ≤ m → pre ++ text ++ suf' = line → Selects delims line (n, some m) text
  | short {n m pre tok suf} : FieldAt delims line n pre tok suf → (fields delims line).length < m →
      Selects delims line (n, some m) (tok ++ suf)

/-- The lines of a text: each ends with a newline, except a last one which is not empty. -/
inductive TextLines : List Char → List (List Char) → Prop
  | nil : TextLines [] []
  | last {l} : l ≠ [] → '\n' ∉ l → TextLines l [l]
  | cons {l t ls} : '\n' ∉ l → TextLines t ls → TextLines (l ++ '\n' :: t) (l :: ls)

/-- The lines FOR /F visits: those after the first `skip` which are not empty and do not begin with one of `eol`. -/
def visited (skip : Nat) (eol : List Char) (ls : List (List Char)) : List (List Char) :=
  (ls.drop skip).filter (fun l => match l with | [] => false | c :: _ => decide (c ∉ eol))

end PBat.Spec
