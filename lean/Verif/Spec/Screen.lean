import Verif.Model.LineEdit
import Verif.Spec.LineEdit
/-
A terminal, and what it should show while a line is edited.

The terminal is that of the standard ECMA-48, as xterm behaves: a character put into the last column leaves the cursor there until the next
character comes, which begins a new row; here the column is then equal to the width.  Simplifications: the terminal has as many rows below as are
needed (it does not scroll); it gives each character the number of columns of the tables of the editor, and control characters in a text are
not shown and do not move the cursor (as the bell, code 7).
-/
namespace PBat.Spec.Scr

/-- A cell shows nothing, or a column of a character (0 or 1). -/
abbrev Cell := Option (List Nat × Nat)

structure Term where
  cols : Nat
  cell : Nat → Nat → Cell
  row : Nat
  col : Nat

/-- Whether a code point is shown. -/
def Printable (c : Nat) : Prop := 32 ≤ c ∧ c ≠ 127

instance (c : Nat) : Decidable (Printable c) := inferInstanceAs (Decidable (_ ∧ _))

/-- The number of columns of a character, which begins with a code point that is not a mark. -/
def width (wide : Nat → Bool) (ch : List Nat) : Nat := if wide (ch.headD 0) then 2 else 1

/-- Where a character of `w` columns goes when the cursor is at row `p.1` and column `p.2`: to the next row if there is no room. -/
def spot (cols : Nat) (p : Nat × Nat) (w : Nat) : Nat × Nat := if p.2 + w > cols then (p.1 + 1, 0) else p

/-- The terminal receives a character. -/
def Term.put (wide : Nat → Bool) (t : Term) (ch : List Nat) : Term :=
  if Printable (ch.headD 0) then
    let w := width wide ch
    let p := spot t.cols (t.row, t.col) w
    { t with cell := fun x y => if x = p.1 ∧ p.2 ≤ y ∧ y < p.2 + w then some (ch, y - p.2) else t.cell x y
             row := p.1
             col := p.2 + w }
  else t

/-- The column of the cursor, also at the end of a row. -/
def Term.at (t : Term) : Nat := min t.col (t.cols - 1)

/-- The terminal receives what the editor writes.  A text is a sequence of characters, each with its marks. -/
inductive Draw (u : CharTables) : Term → TermOp → Term → Prop
  | up {t n} : Draw u t (.up n) { t with row := t.row - n, col := t.at }
  | down {t n} : Draw u t (.down n) { t with row := t.row + n, col := t.at }
  | right {t n} : Draw u t (.right n) { t with col := min (t.cols - 1) (t.at + n) }
  | cr {t} : Draw u t .cr { t with col := 0 }
  | nl {t} : Draw u t .nl { t with row := t.row + 1, col := t.at }
  | clear {t} : Draw u t .clear { t with cell := fun x y => if x = t.row ∧ t.at ≤ y then none else t.cell x y }
  | cls {t} : Draw u t .cls { t with cell := fun _ _ => none, row := 0, col := 0 }
  | text {t} (chs : List (List Nat)) : (∀ ch ∈ chs, OneChar u.comb ch) → (∀ c ∈ chs.flatten, Scalar c) →
      Draw u t (.text (uniText chs.flatten)) (chs.foldl (Term.put u.wide) t)

/-- The terminal receives a sequence of these. -/
inductive Draws (u : CharTables) : Term → List TermOp → Term → Prop
  | nil {t} : Draws u t [] t
  | cons {t t1 t2 o os} : Draw u t o t1 → Draws u t1 os t2 → Draws u t (o :: os) t2

/-- Where the cursor is after characters put from `p` on; the column is the width after a row that is full. -/
def after (wide : Nat → Bool) (cols : Nat) (p : Nat × Nat) : List (List Nat) → Nat × Nat
  | [] => p
  | ch :: chs =>
    let q := spot cols p (width wide ch)
    after wide cols (q.1, q.2 + width wide ch) chs

/-- What a cell shows of characters written from `p` on, row after row. -/
def seen (wide : Nat → Bool) (cols : Nat) (p : Nat × Nat) : List (List Nat) → Nat → Nat → Cell
  | [], _, _ => none
  | ch :: chs, x, y =>
    let q := spot cols p (width wide ch)
    if x = q.1 ∧ q.2 ≤ y ∧ y < q.2 + width wide ch then some (ch, y - q.2)
    else seen wide cols (q.1, q.2 + width wide ch) chs x y

/-- Where the cursor belongs: on the character behind it, or where the next one will be. -/
def cursor (wide : Nat → Bool) (cols : Nat) (p : Nat × Nat) (before behind : List (List Nat)) : Nat × Nat :=
  spot cols (after wide cols p before) (match behind with | [] => 1 | ch :: _ => width wide ch)

/-- The terminal shows the line from row `p.1` and column `p.2` on, with the cursor in its place; what came before is as in `old`, and there is
nothing else. -/
structure Shows (wide : Nat → Bool) (t : Term) (old : Nat → Nat → Cell) (p : Nat × Nat) (before behind : List (List Nat)) : Prop where
  cursor : (t.row, t.col) = cursor wide t.cols p before behind
  cells : ∀ x y, y < t.cols → t.cell x y = if x < p.1 ∨ x = p.1 ∧ y < p.2 then old x y else seen wide t.cols p (before ++ behind) x y

/-- The line is a sequence of characters, some before and some behind the cursor. -/
def Cut (mark : Nat → Bool) (l : EdLine) (before behind : List (List Nat)) : Prop :=
  l.before = before.flatten ∧ l.after = behind.flatten ∧ ∀ ch ∈ before ++ behind, OneChar mark ch

end PBat.Spec.Scr
