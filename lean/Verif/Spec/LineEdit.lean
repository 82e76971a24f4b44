/-!
What editing a line at the prompt means, in terms of characters: nothing here mentions bytes
other than the UTF-8 encoding itself, buffers or positions.
-/

namespace PBat.Spec

/-- UTF-8 (RFC 3629): the bytes of a code point -/
def uni (c : Nat) : List Nat :=
  if c < 0x80 then [c]
  else if c < 0x800 then [0xC0 + c / 64, 0x80 + c % 64]
  else if c < 0x10000 then [0xE0 + c / 4096, 0x80 + c / 64 % 64, 0x80 + c % 64]
  else [0xF0 + c / 262144, 0x80 + c / 4096 % 64, 0x80 + c / 64 % 64, 0x80 + c % 64]

/-- the bytes of a text -/
def uniText (cs : List Nat) : List Nat := cs.flatMap uni

/-- A code point of Unicode that is not zero -/
def Scalar (c : Nat) : Prop := 0 < c ∧ c < 0x110000

/-- The line being edited: the code points before and behind the cursor. -/
structure EdLine where
  before : List Nat
  after : List Nat
  deriving DecidableEq

/-- the text of the line -/
def EdLine.text (l : EdLine) : List Nat := l.before ++ l.after

/-- What the user sees as one character: a code point that is not a combining mark, and the
marks on it. -/
def OneChar (mark : Nat → Bool) (ch : List Nat) : Prop :=
  ∃ b ms, ch = b :: ms ∧ mark b = false ∧ ∀ m ∈ ms, mark m = true

/-- The text does not begin with a combining mark: it can be cut into characters. -/
def Starts (mark : Nat → Bool) (cs : List Nat) : Prop := ∀ c ∈ cs.head?, mark c = false

/-- The keys of the editor -/
inductive Key
  | char (c : Nat)
  | left | right | home | «end»
  | backspace | delete | ctrlD
  | killLine | killEnd | delWord | swap | redraw
  | up | down
  | ignored

/-- The code points that are keys of the editor and not text: the control keys A to F, H, I, K
to N, P, T, U, W, the escape and the backspace key. -/
def controlKeys : List Nat := [1, 2, 3, 4, 5, 6, 8, 9, 11, 12, 13, 14, 16, 20, 21, 23, 27, 127]

/-- The bytes a terminal sends for a key: the control characters, and the sequences of the
VT100 for the arrows, Home, End and Delete. -/
inductive KeyBytes : Key → List Nat → Prop
  | char {c} : Scalar c → c ∉ controlKeys → KeyBytes (.char c) (uni c)
  | left1 : KeyBytes .left [2]
  | left2 : KeyBytes .left [27, 91, 68]
  | right1 : KeyBytes .right [6]
  | right2 : KeyBytes .right [27, 91, 67]
  | home1 : KeyBytes .home [1]
  | home2 : KeyBytes .home [27, 91, 72]
  | home3 : KeyBytes .home [27, 79, 72]
  | end1 : KeyBytes .end [5]
  | end2 : KeyBytes .end [27, 91, 70]
  | end3 : KeyBytes .end [27, 79, 70]
  | backspace1 : KeyBytes .backspace [127]
  | backspace2 : KeyBytes .backspace [8]
  | delete : KeyBytes .delete [27, 91, 51, 126]
  | ctrlD : KeyBytes .ctrlD [4]
  | killLine : KeyBytes .killLine [21]
  | killEnd : KeyBytes .killEnd [11]
  | delWord : KeyBytes .delWord [23]
  | swap : KeyBytes .swap [20]
  | redraw : KeyBytes .redraw [12]
  | up1 : KeyBytes .up [16]
  | up2 : KeyBytes .up [27, 91, 65]
  | down1 : KeyBytes .down [14]
  | down2 : KeyBytes .down [27, 91, 66]
  | other1 {a b} : a ≠ 91 → a ≠ 79 → KeyBytes .ignored [27, a, b]
  | other2 {b} : b ∉ [65, 66, 67, 68, 70, 72] → b < 48 ∨ 57 < b → KeyBytes .ignored [27, 91, b]
  | other3 {b} : b ∉ [70, 72] → KeyBytes .ignored [27, 79, b]
  | other4 {a b} : 48 ≤ a → a ≤ 57 → ¬ (a = 51 ∧ b = 126) → KeyBytes .ignored [27, 91, a, b]

/-- the number of bytes a line may take -/
def lineRoom : Nat := 4095

/-- What the keys do to the line. -/
inductive Edit (mark : Nat → Bool) : EdLine → Key → EdLine → Prop
  /-- a character is put before the cursor -/
  | type {a b c} : (uniText (a ++ b)).length + (uni c).length ≤ lineRoom →
      Edit mark ⟨a, b⟩ (.char c) ⟨a ++ [c], b⟩
  /-- unless the line is full -/
  | full {a b c} : lineRoom < (uniText (a ++ b)).length + (uni c).length →
      Edit mark ⟨a, b⟩ (.char c) ⟨a, b⟩
  | left {a ch b} : OneChar mark ch → Edit mark ⟨a ++ ch, b⟩ .left ⟨a, ch ++ b⟩
  | left0 {b} : Edit mark ⟨[], b⟩ .left ⟨[], b⟩
  | right {a ch b} : OneChar mark ch → Starts mark b →
      Edit mark ⟨a, ch ++ b⟩ .right ⟨a ++ ch, b⟩
  | right0 {a} : Edit mark ⟨a, []⟩ .right ⟨a, []⟩
  | home {a b} : Edit mark ⟨a, b⟩ .home ⟨[], a ++ b⟩
  | «end» {a b} : Edit mark ⟨a, b⟩ .end ⟨a ++ b, []⟩
  | backspace {a ch b} : OneChar mark ch → Edit mark ⟨a ++ ch, b⟩ .backspace ⟨a, b⟩
  | backspace0 {b} : Edit mark ⟨[], b⟩ .backspace ⟨[], b⟩
  | delete {a ch b} : OneChar mark ch → Starts mark b → Edit mark ⟨a, ch ++ b⟩ .delete ⟨a, b⟩
  | delete0 {a} : Edit mark ⟨a, []⟩ .delete ⟨a, []⟩
  | ctrlD {a ch b} : OneChar mark ch → Starts mark b → Edit mark ⟨a, ch ++ b⟩ .ctrlD ⟨a, b⟩
  | ctrlD0 {a} : a ≠ [] → Edit mark ⟨a, []⟩ .ctrlD ⟨a, []⟩
  | killLine {a b} : Edit mark ⟨a, b⟩ .killLine ⟨[], []⟩
  | killEnd {a b} : Edit mark ⟨a, b⟩ .killEnd ⟨a, []⟩
  /-- the word before the cursor and the blanks behind it go -/
  | delWord {p w sp b} : (∀ c ∈ sp, c = 32) → (∀ c ∈ w, c ≠ 32) → (w = [] → p = []) →
      (∀ c ∈ p.getLast?, c = 32) → Edit mark ⟨p ++ w ++ sp, b⟩ .delWord ⟨p, b⟩
  /-- the characters before and behind the cursor change places; the cursor moves on, unless
  it is before the last one -/
  | swap {a x y b} : OneChar mark x → OneChar mark y → Starts mark b → b ≠ [] →
      Edit mark ⟨a ++ x, y ++ b⟩ .swap ⟨a ++ y ++ x, b⟩
  | swapLast {a x y} : OneChar mark x → OneChar mark y →
      Edit mark ⟨a ++ x, y⟩ .swap ⟨a ++ y, x⟩
  | swap0 {b} : Edit mark ⟨[], b⟩ .swap ⟨[], b⟩
  | swap1 {a} : Edit mark ⟨a, []⟩ .swap ⟨a, []⟩
  | redraw {a b} : Edit mark ⟨a, b⟩ .redraw ⟨a, b⟩
  | ignored {a b} : Edit mark ⟨a, b⟩ .ignored ⟨a, b⟩

/-- The editor with the lines entered before: those older than the one being edited, the
latest first, and those newer, the oldest first.  `stored` is the text the line being edited
has in the history. -/
structure Ed where
  line : EdLine
  stored : List Nat
  older : List (List Nat)
  newer : List (List Nat)
  deriving DecidableEq

/-- What the keys do, with those that go through the history: each line keeps the text it was
left with. -/
inductive EdStep (mark : Nat → Bool) : Ed → Key → Ed → Prop
  | edit {l l' s o n k} : Edit mark l k l' → EdStep mark ⟨l, s, o, n⟩ k ⟨l', s, o, n⟩
  | up {l s t o n} : EdStep mark ⟨l, s, t :: o, n⟩ .up ⟨⟨t, []⟩, t, o, l.text :: n⟩
  | up0 {l s t n} : EdStep mark ⟨l, s, [], t :: n⟩ .up ⟨l, l.text, [], t :: n⟩
  | up1 {l s} : EdStep mark ⟨l, s, [], []⟩ .up ⟨l, s, [], []⟩
  | down {l s t o n} : EdStep mark ⟨l, s, o, t :: n⟩ .down ⟨⟨t, []⟩, t, l.text :: o, n⟩
  | down0 {l s t o} : EdStep mark ⟨l, s, t :: o, []⟩ .down ⟨l, l.text, t :: o, []⟩
  | down1 {l s} : EdStep mark ⟨l, s, [], []⟩ .down ⟨l, s, [], []⟩

/-- A run of keys, with the bytes of each. -/
inductive EdRun (mark : Nat → Bool) (able : Ed → Key → Prop) :
    Ed → List (List Nat) → Ed → Prop
  | nil {e} : EdRun mark able e [] e
  | cons {e e1 e2 k bs rest} : KeyBytes k bs → able e k → EdStep mark e k e1 →
      EdRun mark able e1 rest e2 → EdRun mark able e (bs :: rest) e2

/-- the last `n` elements -/
def lastN {α} (n : Nat) (l : List α) : List α := l.drop (l.length - n)

/-- The lines that can be called back: the history without a blank entry at its end, of which
the last 99 fit beside the line being edited. -/
def recallable (h : List (List Nat)) : List (List Nat) :=
  lastN 99 (if h.getLast? = some [] then h.dropLast else h)

/-- The history as the user leaves it with Enter: the place of the new line is given up. -/
def Ed.kept (e : Ed) : List (List Nat) :=
  (e.older.reverse ++ [e.stored] ++ e.newer).dropLast

/-- A line joins the history, unless it repeats the last one. -/
def remember (h : List (List Nat)) (line : List Nat) : List (List Nat) :=
  if h.getLast? = some line then h else h ++ [line]

/-- The editor at the begin: an empty line behind the history. -/
def Ed.start (h : List (List Nat)) : Ed := ⟨⟨[], []⟩, [], (recallable h).reverse, []⟩

end PBat.Spec

namespace PBat.Spec

/-- The keys the partial theorem is about: a combining mark needs a character before it, only
characters of one byte are swapped, and a line called back leaves one byte of the room free. -/
def Able (mark : Nat → Bool) (e : Ed) : Key → Prop
  | .char c => mark c = true → e.line.before ≠ []
  | .swap => ∀ a x y b, e.line.before = a ++ [x] → e.line.after = y :: b →
      x < 128 ∧ y < 128 ∧ mark x = false ∧ Starts mark b
  | .up => ∀ t ∈ e.older.head?, (uniText t).length < lineRoom
  | .down => ∀ t ∈ e.newer.head?, (uniText t).length < lineRoom
  | _ => True

/-- A text that the editor can hold: code points, cut into characters, within the room. -/
def LineOk (mark : Nat → Bool) (t : List Nat) : Prop :=
  (∀ c ∈ t, Scalar c) ∧ Starts mark t ∧ (uniText t).length ≤ lineRoom

end PBat.Spec
