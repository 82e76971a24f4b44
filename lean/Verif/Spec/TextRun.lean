import Verif.Model.TextRun
import Verif.Spec.Program
import Verif.Spec.BlockRun
/-
Specification of running scripts with blocks: what a line means, from its text.
-/
namespace PBat.Spec.Txt
open PBat PBat.Spec PBat.Spec.Prog

/-- A command of a line: its redirections and the rest of its text. -/
abbrev Piece := Redir (List Char) × List Char

/-- What is run: a command without its redirections; pipelines with the operators before them; the same for each of the
values of a loop; a line; the lines of a block; a script from where
it is. -/
inductive Work (ν : Type) where
  | command (c : List Char)
  | parts (l : List (Link × Piece × List Piece))
  | rounds (vs : List ν) (l : List (Link × Piece × List Piece))
  | line (t : List Char)
  | lines (ls : List (List Char))
  | script

/-- Blanks and `@`. -/
def Lead (w : List Char) : Prop := ∀ c ∈ w, Blank c ∨ c = '@'

/-- The text does not begin with blanks or `@`. -/
def Bare (r : List Char) : Prop := ∀ c, r.head? = some c → ¬ Blank c ∧ c ≠ '@'

/-- The command is a block, or neither IF nor FOR. -/
def Usual {ν W τ : Type} (h : PBat.Prog.Host ν W τ) (c : List Char) : Prop :=
  ∀ w r, c = w ++ r → Lead w → Bare r → r.head? = some '(' ∨ h.cls r = .simple r ∨ ∃ i, h.cls r = .call i

/-- The command begins as a block does. -/
def Opens (c : List Char) : Prop := ∃ w r, c = w ++ '(' :: r ∧ Lead w

/-- The command runs further lines: it is a block or CALL. -/
def Nests {ν W τ : Type} (h : PBat.Prog.Host ν W τ) (c : List Char) : Prop :=
  Opens c ∨ ∃ w r i, c = w ++ r ∧ Lead w ∧ Bare r ∧ r.head? ≠ some '(' ∧ h.cls r = .call i

variable {ν W τ : Type}

/-- The files of the redirections are opened; the state after this and the streams of the command. -/
def enter (sys : Sys (List Char) ν (W × Script) τ) (r : Redir (List Char)) (s : τ × τ × τ) (x : W × Script) : (W × Script) × (τ × τ × τ) :=
  let i := tryOpen sys (r.input.map fun f => (f, none)) x
  let o := tryOpen sys (r.output.map fun f => (f.1, some f.2)) i.1
  let e := tryOpen sys (r.error.map fun f => (f.1, some f.2)) o.1
  let si := i.2.getD s.1
  let so := o.2.getD s.2.1
  let se := e.2.getD s.2.2
  (e.1, if r.errToOut then (si, so, so) else if r.outToErr then (si, se, se) else (si, so, se))

/-- The command without blanks and `@` at its beginning. -/
def bare (c : List Char) : List Char := c.dropWhile fun c => decide (Blank c ∨ c = '@')

/-- What is to run for a command: a block, or what it is known as. -/
def kind (h : PBat.Prog.Host ν W τ) (c : List Char) : Cmd (List Char) ν :=
  if (bare c).head? = some '(' then .simple (bare c) else h.cls (bare c)

/-- A pipeline: all commands but the last are started, with the pipes between them.  The input of the last one, if it is a pipe, the last
command, and the state. -/
def feed (h : PBat.Prog.Host ν W τ) (inp : Option τ) (c : Piece) :
    List Piece → W × Script → Option τ × Piece × (W × Script)
  | [], x => (inp, c, x)
  | d :: ds, x => feed h (some (h.base.pipe x).2) d ds (h.base.spawn c.1 (kind h c.2) inp (h.base.pipe x).2 .no (h.base.pipe x).1)

/-- A pipeline up to its last command: its text, its streams and the state it finds. -/
def before (h : PBat.Prog.Host ν W τ) (p : Piece × List Piece) (s : τ × τ × τ) (x : W × Script) :
    List Char × (τ × τ × τ) × (W × Script) :=
  let f := feed h none p.1 p.2 x
  let r := enter h.base f.2.1.1 (f.1.getD s.1, s.2) f.2.2
  (f.2.1.2, r.2, r.1)

/-- The line, its commands read as `rd` says. -/
def pieces (rd : List Char → Piece) (l : SrcLine) : List (Link × Piece × List Piece) :=
  ((.seq, l.first) :: l.more).map fun p => (p.1, rd p.2.1, p.2.2.map rd)

/-- A pipeline without IF and FOR, and without redirections of one output to the other on blocks and CALL. -/
def Regular (h : PBat.Prog.Host ν W τ) (p : Piece × List Piece) : Prop :=
  ∀ c ∈ p.1 :: p.2, Usual h c.2 ∧ ((c.1.errToOut = false ∧ c.1.outToErr = false) ∨ ¬ Nests h c.2)

/-- The command is IF, `y` being the text behind this word. -/
def IsIf (h : PBat.Prog.Host ν W τ) (c y : List Char) : Prop :=
  ∃ w r yes no, c = w ++ r ∧ Lead w ∧ Bare r ∧ r.head? ≠ some '(' ∧ h.cls r = .iff y yes no

/-- The command is FOR, `y` being the text behind this word. -/
def IsFor (h : PBat.Prog.Host ν W τ) (c y : List Char) : Prop :=
  ∃ w r xs ty r', c = w ++ r ∧ Lead w ∧ Bare r ∧ r.head? ≠ some '(' ∧ h.cls r = .loop xs [[(ty, r', .simple y)]]

/-- What IF or FOR governs: a block, or a command up to the end of the text; the inside of the block, or the command. -/
inductive Governs (strict : Bool) : List Char → List Char → Prop
  | block {w b v} : (∀ c ∈ w, Blank c) → Body strict b → (∀ c ∈ v, Blank c) → Governs strict (w ++ '(' :: (b ++ ')' :: v)) b
  | command {w g l} : (∀ c ∈ w, Blank c) → Line strict g l → (∀ c, l.head? = some c → ¬ Blank c ∧ c ≠ '(') → Governs strict (w ++ l) l

/-- The text behind the condition of IF: what it governs if it holds, and what is behind ELSE. -/
inductive IfCode (strict : Bool) : List Char → List Char → Option (List Char) → Prop
  | one {s yes} : Governs strict s yes → IfCode strict s yes none
  | both {w v k t yes no} : (∀ c ∈ w, Blank c) → Body strict yes → (∀ c ∈ v, Blank c) → k.map Char.toLower = "else".toList →
      (t = [] ∨ ∃ c r, t = c :: r ∧ Blank c) → Governs strict t no →
      IfCode strict (w ++ '(' :: (yes ++ ')' :: (v ++ (k ++ t)))) yes (some no)

/-- The next line of commands, which may be made of several lines of the script, is expanded with the variables of that moment; `x'` is the
state in which it runs. -/
def Next (h : PBat.Prog.Host ν W τ) (x : W × Script) (u : List Char) (x' : W × Script) : Prop :=
  ∃ (cs rest ts : List (List Char)) (strict : Bool), x.2.cmds.drop x.2.curr = cs ++ rest ∧ Each (Means h x.1) cs ts ∧
    ts.flatten = u ++ ['\n'] ∧ Whole strict u ∧ x' = (h.echo u x.1, { x.2 with curr := x.2.curr + cs.length })

/-- `Does q h work s x e x' e' a`: run with the streams `s`, from the state `x` and the error level `e`, the work ends in `x'` with the error
level `e'`, leaving the line, the block or the script as `a` says. -/
inductive Does (q : Char → Bool) (h : PBat.Prog.Host ν W τ) : Work ν → τ × τ × τ → W × Script → Int → W × Script → Int → Abort → Prop
  /-- A command runs once. -/
  | simple {w r s x e x' e' a} : Lead w → Bare r → r.head? ≠ some '(' → h.cls r = .simple r → h.base.exec r x e s = (x', e', a) →
      Does q h (.command (w ++ r)) s x e x' e' a
  /-- A block: its lines run, those that are not blank. -/
  | block {w b v rs strict s x e x' e' a} : Lead w → Rows strict true rs b → (∀ r ∈ rs, Nonblank r → ∃ c ∈ r, ¬ Blank c ∧ c ≠ '@') →
      (∀ c ∈ v, Blank c) → Does q h (.lines (rs.filter fun r => decide (Nonblank r))) s x e x' e' a →
      Does q h (.command (w ++ '(' :: (b ++ ')' :: v))) s x e x' e' a
  /-- Something behind a block is an error, nothing runs. -/
  | behind {w b v strict s x e} : Lead w → Body strict b → Nonblank v → Does q h (.command (w ++ '(' :: (b ++ ')' :: v))) s x e x 27 .no
  /-- No lines are left. -/
  | end {s x e} : Does q h (.lines []) s x e x e .no
  /-- A line leaves the block. -/
  | left {l ls s x e x' e' a} : Does q h (.line l) s x e x' e' a → a = .level ∨ a = .block → Does q h (.lines (l :: ls)) s x e x' e' a
  /-- After a line, the next ones. -/
  | next {l ls s x e x' e' a x'' e'' a'} : Does q h (.line l) s x e x' e' a → a = .no ∨ a = .line →
      Does q h (.lines ls) s x' e' x'' e'' a' → Does q h (.lines (l :: ls)) s x e x'' e'' a'
  /-- A line: its commands as they are written, joined by operators, each with its redirections, given by `items`, none of them twice. -/
  | line {t} {l : SrcLine} {items : List Char → List RedirItem} {s x e x' e' a} : unindent t = l.text → (∀ r, unindent t ≠ ':' :: r) →
      WellFormed l.first.1 l.tail → (∀ c ∈ l.cmds, RedirCommand q c (items c) ∧ Once (items c)) →
      Does q h (.parts (pieces (fun c => (redirs (h.full x.1) (items c), textOf (items c))) l)) s x e x' e' a → Does q h (.line t) s x e x' e' a
  /-- No commands are left. -/
  | stop {s x e} : Does q h (.parts []) s x e x e .no
  /-- The operator does not allow the pipeline. -/
  | skip {o p l s x e x' e' a} : o.allows e = false → (∀ c ∈ p.1 :: p.2, Usual h c.2) → Does q h (.parts l) s x e x' e' a →
      Does q h (.parts ((o, p) :: l)) s x e x' e' a
  /-- The last command of the pipeline leaves the line, unless pipes follow. -/
  | leave {o p l s x e x' e' a} : o.allows e = true → Regular h p →
      Does q h (.command (before h p s x).1) (before h p s x).2.1 (before h p s x).2.2 e x' e' a →
      a ≠ .no → (∀ z, l.head? = some z → z.2.2 = [] ∨ z.1.allows e' = false) → Does q h (.parts ((o, p) :: l)) s x e x' e' a
  /-- After the pipeline, the next ones. -/
  | go {o p l s x e x' e' x'' e'' a} : o.allows e = true → Regular h p →
      Does q h (.command (before h p s x).1) (before h p s x).2.1 (before h p s x).2.2 e x' e' .no →
      Does q h (.parts l) s x' e' x'' e'' a → Does q h (.parts ((o, p) :: l)) s x e x'' e'' a
  /-- IF: the block it governs, or the block behind ELSE, stands in its place, with its redirections and what follows in the line. -/
  | test {o p l y u yes no code strict} {b : Bool} {s x e x' e' a} : o.allows e = true → IsIf h p.1.2 y →
      h.cond y x e = (if b then .yes else .no, u) → IfCode strict u yes no → (if b then no = none ∧ code = yes else no = some code) →
      Does q h (.parts ((o, (p.1.1, '(' :: (code ++ [')'])), p.2) :: l)) s x e x' e' a → Does q h (.parts ((o, p) :: l)) s x e x' 0 a
  /-- IF with ELSE, when the condition holds: the block runs, without the redirections, and the rest of the line does not. -/
  | alone {o p l y u yes no strict s x e x' e' a} : o.allows e = true → IsIf h p.1.2 y →
      h.cond y x e = (.yes, u) → IfCode strict u yes (some no) → Does q h (.command ('(' :: (yes ++ [')']))) s x e x' e' a →
      Does q h (.parts ((o, p) :: l)) s x e x' 0 a
  /-- IF without ELSE, when the condition does not hold: nothing runs, not even the rest of the line. -/
  | nothing {o p l y u yes strict s x e} : o.allows e = true → IsIf h p.1.2 y →
      h.cond y x e = (.no, u) → IfCode strict u yes none → Does q h (.parts ((o, p) :: l)) s x e x 0 .no
  /-- Something else than ELSE behind the block of IF, when the condition does not hold. -/
  | extra {o p l y w b v z strict s x e} : o.allows e = true → IsIf h p.1.2 y →
      h.cond y x e = (.no, w ++ '(' :: (b ++ ')' :: (v ++ z))) → (∀ c ∈ w, Blank c) → Body strict b → (∀ c ∈ v, Blank c) → z ≠ [] →
      (∀ c, z.head? = some c → ¬ Blank c) →
      (¬ ∃ k t, z = k ++ t ∧ k.map Char.toLower = "else".toList ∧ (t = [] ∨ ∃ c r, t = c :: r ∧ Blank c)) →
      Does q h (.parts ((o, p) :: l)) s x e x 4 .no
  /-- An error in the condition. -/
  | refused {o p l y u s x e code} : o.allows e = true → IsIf h p.1.2 y →
      h.cond y x e = (.error code, u) ∨ (h.cond y x e = (.unknown, u) ∧ code = -1) → Does q h (.parts ((o, p) :: l)) s x e x code .no
  /-- The operator does not allow IF or FOR, to which the rest of the line belongs. -/
  | unasked {o p l y s x e} : o.allows e = false → IsIf h p.1.2 y ∨ IsFor h p.1.2 y → Does q h (.parts ((o, p) :: l)) s x e x e .no
  /-- FOR: the block it governs stands in its place, with its redirections and what follows in the line, and runs for each value; there is no IF
  or FOR in what follows.  At the end the variable is removed. -/
  | loop {o p l y u code strict vs s x x0 e x' e' a} : o.allows e = true → IsFor h p.1.2 y → h.forBehind y x = .ok u → Governs strict u code →
      h.forValues y x = (x0, .ok vs) → (∀ c ∈ p.2, Usual h c.2) → (∀ z ∈ l, ∀ c ∈ z.2.1 :: z.2.2, Usual h c.2) →
      Does q h (.rounds vs ((o, (p.1.1, '(' :: (code ++ [')'])), p.2) :: l)) s x0 e x' e' a →
      Does q h (.parts ((o, p) :: l)) s x e (h.base.setVar none x') 0 a
  /-- An error in the line of FOR, or in its values. -/
  | malformed {o p l y s x e code} : o.allows e = true → IsFor h p.1.2 y → h.forBehind y x = .error code →
      Does q h (.parts ((o, p) :: l)) s x e x code .no
  | valueless {o p l y u c strict s x x0 e code} : o.allows e = true → IsFor h p.1.2 y → h.forBehind y x = .ok u → Governs strict u c →
      h.forValues y x = (x0, .error code) → Does q h (.parts ((o, p) :: l)) s x e x0 code .no
  /-- Something behind the block of FOR. -/
  | beyond {o p l y w b v z strict s x e} : o.allows e = true → IsFor h p.1.2 y →
      h.forBehind y x = .ok (w ++ '(' :: (b ++ ')' :: (v ++ z))) → (∀ c ∈ w, Blank c) → Body strict b → (∀ c ∈ v, Blank c) → z ≠ [] →
      (∀ c, z.head? = some c → ¬ Blank c) → Does q h (.parts ((o, p) :: l)) s x e x 4 .no
  /-- No values are left. -/
  | over {l s x e} : Does q h (.rounds [] l) s x e x e .no
  /-- The loop is left. -/
  | broken {v vs l s x e x' e' a} : Does q h (.parts l) s (h.base.setVar (some v) x) e x' e' a → a ≠ .no →
      Does q h (.rounds (v :: vs) l) s x e x' e' a
  /-- The next values. -/
  | round {v vs l s x e x' e' x'' e'' a} : Does q h (.parts l) s (h.base.setVar (some v) x) e x' e' .no →
      Does q h (.rounds vs l) s x' e' x'' e'' a → Does q h (.rounds (v :: vs) l) s x e x'' e'' a
  /-- CALL: the script that is entered runs; leaving it leads back to where CALL is. -/
  | call {w r i s x x0 e x' e' a} : Lead w → Bare r → r.head? ≠ some '(' → h.cls r = .call i → h.base.enter i x = .ok x0 →
      Does q h .script s x0 e x' e' a → Does q h (.command (w ++ r)) s x e (h.base.leave x x') e' .no
  /-- There is nothing to be called. -/
  | uncalled {w r i s x e code} : Lead w → Bare r → r.head? ≠ some '(' → h.cls r = .call i → h.base.enter i x = .error code →
      Does q h (.command (w ++ r)) s x e x code .no
  /-- No lines of the script are left. -/
  | done {s x e} : x.2.cmds.drop x.2.curr = [] → Does q h .script s x e x e .no
  /-- A line leaves the script. -/
  | quit {u s x x0 e x' e'} : Next h x u x0 → Does q h (.line u) s x0 e x' e' .level → Does q h .script s x e x' e' .level
  /-- After a line of the script, those where it is now. -/
  | onward {u s x x0 e x' e' a x'' e'' a'} : Next h x u x0 → Does q h (.line u) s x0 e x' e' a → a ≠ .level →
      Does q h .script s x' e' x'' e'' a' → Does q h .script s x e x'' e'' a'

end PBat.Spec.Txt
