import Verif.Model.More
/-
Specification of MORE: lines broken into rows of 79 columns.
-/
namespace PBat.Spec

/-- What a line is made of: characters (with their following UTF-8 bytes), tabulations, and escape sequences, which take no column. -/
inductive Cell
  | char (b : Nat) (more : List Nat)
  | tab
  | code (b : List Nat)
  deriving DecidableEq, Repr

/-- The bytes of the file. -/
def Cell.bytes : Cell → List Nat
  | .char b m => b :: m
  | .tab => [9]
  | .code b => b

/-- A line. -/
abbrev CellLine := List Cell

def CellLine.bytes (l : CellLine) : List Nat := l.flatMap Cell.bytes

/-- The bytes of an escape sequence: ESC and one character that is not `[`, or ESC, `[`, parameters, and a final character. -/
inductive EscapeCode : List Nat → Prop
  | short {c} : c ≠ 91 → EscapeCode [27, c]
  | csi {p c} : (∀ x ∈ p, ¬ (64 ≤ x ∧ x ≤ 126)) → 64 ≤ c → c ≤ 126 → EscapeCode (27 :: 91 :: (p ++ [c]))

/-- CellLine as the options tell to read them. -/
inductive Readable (o : MoreOpts) : Cell → Prop
  | char {b m} : b ≠ 9 → b ≠ 10 → (o.ansi = true → b ≠ 27) → (o.u8 = true → ¬ (128 ≤ b ∧ b < 192)) →
      (∀ c ∈ m, o.u8 = true ∧ 128 ≤ c ∧ c < 192) → Readable o (.char b m)
  | tab : Readable o .tab
  | code {b} : o.ansi = true → EscapeCode b → Readable o (.code b)

/-- The columns a tabulation at column `col` takes, tab stops being every `t` columns. -/
def tabWidth (t col : Nat) : Nat := t - col % t

/-- A line from column `col` on: the rest of the row, and the following rows.  A row has 79 columns; a tabulation that does not fit ends the
row. -/
def lay (t : Nat) : Nat → CellLine → List Nat × List (List Nat)
  | _, [] => ([], [])
  | col, .code b :: l => let r := lay t col l; (b ++ r.1, r.2)
  | col, .char b m :: l =>
    if col = 79 then let r := lay t 1 l; ([], (b :: m ++ r.1) :: r.2)
    else let r := lay t (col + 1) l; (b :: m ++ r.1, r.2)
  | col, .tab :: l =>
    if col = 79 then let r := lay t t l; ([], (List.replicate t 32 ++ r.1) :: r.2)
    else if col + tabWidth t col < 80 then
      let r := lay t (col + tabWidth t col) l; (List.replicate (tabWidth t col) 32 ++ r.1, r.2)
    else let r := lay t 0 l; ([], r.1 :: r.2)

/-- The column at the end. -/
def endColumn (t : Nat) : Nat → CellLine → Nat
  | col, [] => col
  | col, .code _ :: l => endColumn t col l
  | col, .char _ _ :: l => endColumn t (if col = 79 then 1 else col + 1) l
  | col, .tab :: l =>
    endColumn t (if col = 79 then t else if col + tabWidth t col < 80 then col + tabWidth t col else 0) l

/-- The rows of a line. -/
def rowsOf (t : Nat) (l : CellLine) : List (List Nat) := (lay t 0 l).1 :: (lay t 0 l).2

/-- In the last column of a row there is no character of several bytes and no escape sequence after it. -/
def RowFits (t : Nat) : Nat → CellLine → Prop
  | _, [] => True
  | col, .code _ :: l => col ≠ 79 ∧ RowFits t col l
  | col, .char _ m :: l => (m ≠ [] → col ≠ 78) ∧ RowFits t (if col = 79 then 1 else col + 1) l
  | col, .tab :: l => RowFits t (if col = 79 then t else if col + tabWidth t col < 80 then col + tabWidth t col else 0) l

/-- The rows of a text; with `squeeze`, an empty line after an empty line is left out. -/
def shownRows (t : Nat) (squeeze : Bool) : Bool → List CellLine → List (List Nat)
  | _, [] => []
  | prev, l :: ls =>
    if squeeze && prev && l.isEmpty then shownRows t squeeze prev ls
    else rowsOf t l ++ shownRows t squeeze l.isEmpty ls

/-- No empty line after a line that fills its last row. -/
def NoneLost (t : Nat) : Bool → List CellLine → Prop
  | _, [] => True
  | full, l :: ls => (full = true → l ≠ []) ∧ NoneLost t (l ≠ [] ∧ endColumn t 0 l = 79) ls

/-- The bytes of a file: lines, and the last one without newline. -/
def moreText (ls : List CellLine) (last : CellLine) : List Nat := (ls.flatMap fun l => l.bytes ++ [10]) ++ last.bytes

/-- Rows written: each with its newline. -/
def ended (rs : List (List Nat)) : List (List Nat) := rs.map (· ++ [10])

/-- Rows written, the last one without newline. -/
def endedButLast : List (List Nat) → List (List Nat)
  | [] => []
  | [r] => [r]
  | r :: rs => (r ++ [10]) :: endedButLast rs

/-- What the user can ask for at the prompt: a screen, one row, `P` and a number of rows, `S` and a number of rows to be skipped; a number is
ended by any other key. -/
inductive MoreKey where
  | enter
  | space
  | print (digits : List Nat) (c : Nat)
  | skip (digits : List Nat) (c : Nat)

/-- The value of decimal digits. -/
def digitsValue (ds : List Nat) : Nat := ds.foldl (fun n d => 10 * n + d) 0

def MoreKey.bytes : MoreKey → List Nat
  | .enter => [10]
  | .space => [32]
  | .print ds c => 112 :: (ds.map (48 + ·) ++ [c])
  | .skip ds c => 115 :: (ds.map (48 + ·) ++ [c])

def MoreKey.Valid : MoreKey → Prop
  | .enter => True
  | .space => True
  | .print ds c => (∀ d ∈ ds, d < 10) ∧ ¬ (48 ≤ c ∧ c ≤ 57)
  | .skip ds c => (∀ d ∈ ds, d < 10) ∧ ¬ (48 ≤ c ∧ c ≤ 57)

/-- The number of rows read for a key. -/
def MoreKey.count : MoreKey → Nat
  | .enter => 23
  | .space => 1
  | .print ds _ => digitsValue ds
  | .skip _ _ => 23

/-- The number of those rows that are not shown, when `old` rows remain to be skipped from before. -/
def MoreKey.hidden (old : Nat) : MoreKey → Nat
  | .skip ds _ => digitsValue ds
  | _ => old

/-- The pages shown: `n` rows of which the first `skip` are hidden, then what is asked for, until there are no rows. -/
def screens (rows : List (List Nat)) (skip n : Nat) : List MoreKey → List (List Nat)
  | [] => [((rows.take n).drop skip).flatten]
  | k :: ks =>
    ((rows.take n).drop skip).flatten ::
      if n < rows.length then screens (rows.drop n) (k.hidden (skip - n)) k.count ks else []

end PBat.Spec
