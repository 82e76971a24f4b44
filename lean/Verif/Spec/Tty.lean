import Verif.Model.Tty
import Verif.Spec.LineEdit
/-
How a user and the interpreter should get on at a terminal.
-/
namespace PBat.Spec.Tty
open PBat.Tty

/-- A history in which the user types keys only while the interpreter edits the line they are for: after the prompt has appeared (and the terminal
has been asked for the place of the cursor), and not after Enter until the next prompt; other keys, without Ctrl-C, at other times.
`entered`: the keys of the lines ended by Enter; `now`: those typed since. -/
inductive Patient (u : CharTables) (complete : List Nat → Reply) (s0 : St) : List (List (List Nat)) → List (List Nat) → St → Prop
  | start : Patient u complete s0 [] [] s0
  | type {entered now s l bs s'} : Patient u complete s0 entered now s → s.phase = .edit l → s.lines.length = entered.length →
      s.step u complete (.type bs) = some s' → Patient u complete s0 entered (now ++ [bs]) s'
  | enter {entered now s l s'} : Patient u complete s0 entered now s → s.phase = .edit l → s.lines.length = entered.length →
      s.step u complete (.type [13]) = some s' → Patient u complete s0 (entered ++ [now]) [] s'
  | press {entered now s bs s'} : Patient u complete s0 entered now s → (s.phase = .idle ∨ ∃ old got, s.phase = .key old got) → 3 ∉ bs →
      s.step u complete (.press bs) = some s' → Patient u complete s0 entered now s'
  | other {entered now s e s'} : Patient u complete s0 entered now s → (∀ bs, e ≠ .type bs) → (∀ bs, e ≠ .press bs) →
      s.step u complete e = some s' → Patient u complete s0 entered now s'

/-- The interpreter goes on as long as it need not wait. -/
inductive Reads (u : CharTables) (complete : List Nat → Reply) : St → St → Prop
  | refl {s} : Reads u complete s s
  | step {s s1 s2} : s.step u complete .read = some s1 → Reads u complete s1 s2 → Reads u complete s s2

/-- What may happen without harm for the modes of the terminal `m`: programs leave it as they found it, TIMEOUT is not used, and there is neither
Ctrl-C nor the end while a key is waited for. -/
def Calm (s : St) : Ev → Prop
  | .type bs => (∃ old got, s.phase = .key old got) → 3 ∉ bs
  | .press bs => (∃ old got, s.phase = .key old got) → 3 ∉ bs
  | .poll => False
  | .program m => m = s.mode
  | .quit => ¬ ∃ old got, s.phase = .key old got
  | _ => True

/-- A history of such events. -/
inductive CalmRun (u : CharTables) (complete : List Nat → Reply) (s0 : St) : St → Prop
  | start : CalmRun u complete s0 s0
  | step {s e s'} : CalmRun u complete s0 s → Calm s e → s.step u complete e = some s' → CalmRun u complete s0 s'

/-- The bytes that were typed and not yet taken. -/
def pending (s : St) : List Nat := s.hold ++ s.queue

/-- The bytes of one key at PAUSE: a plain one, an arrow and the like, Insert and the like. -/
inductive PauseKey : List Nat → Prop
  | plain {b} : b ≠ 27 → PauseKey [b]
  | esc {b} : b ≠ 27 → b ≠ 91 → PauseKey [27, b]
  | arrow {c} : c ≠ 27 → c ≠ 50 → c ≠ 51 → c ≠ 53 → c ≠ 54 → PauseKey [27, 91, c]
  | tilde {c d} : c = 50 ∨ c = 51 ∨ c = 53 ∨ c = 54 → d ≠ 27 → PauseKey [27, 91, c, d]

end PBat.Spec.Tty
