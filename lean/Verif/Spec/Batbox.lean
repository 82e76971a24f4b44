import Verif.Model.Batbox
import Verif.Spec.Num
import Verif.Spec.Prompt
/-
Specification of BATBOX, from its manual page.
-/
namespace PBat.Spec

/-- A subcommand in either case. -/
def BoxSwitch (c : Char) (p : List Char) : Prop := p = ['/', c] ∨ p = ['/', c.toUpper]

/-- What a subcommand shows or does. -/
inductive BoxEffect where
  | text (s : List Char)
  | go (col row : Int)
  | pause (ms : Int)
  | colours (back fore : Fin 16)
  | tracking (moves on : Bool)

/-- How a terminal is told, with the sequences of xterm: positions count from 1, the row first. -/
def BoxEffect.act : BoxEffect → Box.Act
  | .text s => .put s
  | .go c r => .put (Char.ofNat 27 :: ("[" ++ toString (r + 1) ++ ";" ++ toString (c + 1) ++ "H").toList)
  | .pause ms => .wait ms
  | .colours b f => .put (Char.ofNat 27 :: ("[" ++ toString (ansi 40 100 (some b)) ++ "m").toList ++
      Char.ofNat 27 :: ("[" ++ toString (ansi 30 90 (some f)) ++ "m").toList)
  | .tracking m on => .tty (Char.ofNat 27 :: ("[?" ++ (if m then "1003" else "1000") ++ (if on then "h" else "l")).toList)

/-- A number: written in one of the three bases, or the name, beginning with a letter, of a variable that holds one. -/
inductive BoxNum {E} (V : Box.Env E) (e : E) : List Char → Int → Prop
  | lit {t n} : Number t n → -2 ^ 31 ≤ n → n < 2 ^ 31 → BoxNum V e t n
  | var {c t b n} : c.isAlpha → V.get e (c :: t) = some b → Number b n → -2 ^ 31 ≤ n → n < 2 ^ 31 → BoxNum V e (c :: t) n

/-- The button of an xterm report and the type of the manual; `m` counts the modifier keys held. Moves are only reported on demand. -/
inductive MouseKind (moves : Bool) : Nat → Int → Prop
  | left {m} : m < 8 → MouseKind moves (4 * m) 1
  | right {m} : m < 8 → MouseKind moves (4 * m + 2) 2
  | middle {m} : m < 8 → MouseKind moves (4 * m + 1) 5
  | up {m} : m < 8 → MouseKind moves (4 * m + 64) 6
  | down {m} : m < 8 → MouseKind moves (4 * m + 65) 7
  | move {m} : m < 8 → moves = true → MouseKind moves (4 * m + 35) 0
  | leftMove {m} : m < 8 → moves = true → MouseKind moves (4 * m + 32) 1
  | rightMove {m} : m < 8 → moves = true → MouseKind moves (4 * m + 34) 2
  | middleMove {m} : m < 8 → moves = true → MouseKind moves (4 * m + 33) 5

/-- The report of the terminal for a button and a cell. -/
def mouseReport (b x y : Nat) : List Nat := [27, 91, 77, 32 + b, 33 + x, 33 + y]

/-- The names of the mouse subcommands: `/m` waits for clicks, `/m_` and `/y` for moves too. Only the lower case of the last two is
understood (see `C97_capitals`). -/
inductive MouseSwitch : List Char → Bool → Prop
  | click {p} : BoxSwitch 'm' p → MouseSwitch p false
  | move : MouseSwitch ['/', 'm', '_'] true
  | old : MouseSwitch ['/', 'y'] true

/-- The name of a variable: not a subcommand. -/
def BoxName (v : List Char) : Prop := v ≠ [] ∧ v.head? ≠ some '/'

/-- What a user keeps in mind: the origin set by `/o`, the last position given to `/g`, the variables. -/
structure BoxState (E : Type) where
  origin : Int × Int
  last : Int × Int
  env : E

/-- Rows and columns are small numbers. -/
def BoxCell (n : Int) : Prop := 0 ≤ n ∧ n < 32767

/-- One subcommand: the words, the bytes typed meanwhile, the answers about waiting keys, the effects. -/
inductive BoxStep {E} (V : Box.Env E) : BoxState E → List (List Char) → List Nat → List Bool → List BoxEffect → BoxState E → Prop
  | chr {s p t n} : BoxSwitch 'a' p → BoxNum V s.env t (n : Nat) → n < 256 → BoxStep V s [p, t] [] [] [.text [Char.ofNat n]] s
  | str {s p v} : BoxSwitch 'd' p → BoxStep V s [p, v] [] [] [.text v] s
  | go {s p t u x y} : BoxSwitch 'g' p → BoxNum V s.env t x → BoxNum V s.env u y → BoxCell (s.origin.1 + x) → BoxCell (s.origin.2 + y) →
      BoxStep V s [p, t, u] [] [] [.go (s.origin.1 + x) (s.origin.2 + y)] { s with last := (s.origin.1 + x, s.origin.2 + y) }
  | origin {s p t u x y} : BoxSwitch 'o' p → BoxNum V s.env t x → BoxNum V s.env u y → BoxCell x → BoxCell y →
      BoxStep V s [p, t, u] [] [] [] { s with origin := (x, y) }
  | next {s p} : BoxSwitch 'n' p → BoxCell (s.last.2 + 1) →
      BoxStep V s [p] [] [] [.go s.last.1 (s.last.2 + 1)] { s with last := (s.last.1, s.last.2 + 1) }
  | pause {s p t n} : BoxSwitch 'w' p → BoxNum V s.env t n → BoxStep V s [p, t] [] [] [.pause n] s
  | color {s p t} {b f : Fin 16} : BoxSwitch 'c' p → BoxNum V s.env t (16 * b.val + f.val : Nat) →
      BoxStep V s [p, t] [] [] [.colours b f] s
  | noKey {s c d} : c ∈ ['k', 'K', 'l', 'L'] → d = false → BoxStep V s [['/', c, '_']] [] [d] [] s
  | mouseVars {s p m X Y T typed b t} {x y : Nat} : MouseSwitch p m → BoxName X → BoxName Y → BoxName T → (∀ k ∈ typed, k ≠ 27) →
      MouseKind m b t → x < 223 → y < 223 →
      BoxStep V s [p, X, Y, T] (typed ++ mouseReport b x y) [] [.tracking m true, .tracking m false]
        { s with env := V.set (V.set (V.set s.env X (toString x).toList) Y (toString y).toList) T (toString t).toList }
  | mousePrint {s p m typed b t} {x y : Nat} : MouseSwitch p m → (∀ k ∈ typed, k ≠ 27) → MouseKind m b t → x < 223 → y < 223 →
      BoxStep V s [p] (typed ++ mouseReport b x y) []
        [.tracking m true, .tracking m false, .text (toString x ++ ":" ++ toString y ++ ":" ++ toString t ++ "\n").toList] s

/-- Several subcommands one after another. -/
inductive BoxSteps {E} (V : Box.Env E) : BoxState E → List (List Char) → List Nat → List Bool → List BoxEffect → BoxState E → Prop
  | nil {s} : BoxSteps V s [] [] [] [] s
  | cons {s s1 s2 w ws k ks h hs e es} : BoxStep V s w k h e s1 → BoxSteps V s1 ws ks hs es s2 →
      BoxSteps V s (w ++ ws) (k ++ ks) (h ++ hs) (e ++ es) s2

/-- How the command ends: with its words, or at a key subcommand without name when a key that sends one byte is pressed, the code being
returned. -/
inductive BoxEnd : List (List Char) → List Nat → List Bool → Int → Prop
  | done {ks hs} : BoxEnd [] ks hs 0
  | key {c k ks hs more} : c ∈ ['k', 'K', 'l', 'L'] → k ≠ 27 → k ≠ 224 → (∀ v ∈ more.head?, v.head? = some '/') →
      BoxEnd (['/', c] :: more) (k :: ks) hs k
  | hit {c k ks hs more} : c ∈ ['k', 'K', 'l', 'L'] → k ≠ 27 → k ≠ 224 → (∀ v ∈ more.head?, v.head? = some '/') →
      BoxEnd (['/', c, '_'] :: more) (k :: ks) (true :: hs) k

/-- The state of the program that a user's view describes. -/
def BoxView {E} (s : Box.St E) (v : BoxState E) : Prop :=
  v.origin = (s.origX, s.origY) ∧ v.last = (s.lastX, s.lastY) ∧ v.env = s.env

end PBat.Spec
