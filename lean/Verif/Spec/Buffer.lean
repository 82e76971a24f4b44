import Verif.Model.Buffer
/-
What a user expects of the output: each file holds the texts written to it, in the order of their writing, since it was last emptied.
-/
namespace PBat.Spec.Buf
open PBat.Buf

variable {β : Type}

/-- A text written to a file, or a file emptied. -/
inductive Ev (β : Type) where
  | write (c : Nat) (t : List β)
  | trunc (c : Nat)

/-- What file `c` holds after some events, if it held `l`. -/
def content (c : Nat) : List β → List (Ev β) → List β
  | l, [] => l
  | l, .write x t :: es => content c (if x = c then l ++ t else l) es
  | l, .trunc x :: es => content c (if x = c then [] else l) es

/-- The files on which commands and programs write: output, error. -/
def outOf (io : Io Nat) : Nat := io.streams.2.1
def errOf (io : Io Nat) : Nat := io.streams.2.2

/-- The events an operation should cause when the streams designate `io`. -/
def events (io : Io Nat) : Op β → List (Ev β)
  | .out t => [.write (outOf io) t]
  | .err t => [.write (errOf io) t]
  | .openOut f b => if b then [.trunc f] else []
  | .openErr f b => if b then [.trunc f] else []
  | .run ws => ws.map (fun w => .write (if w.1 then errOf io else outOf io) w.2)
  | .noStart m => [.write (errOf io) m]
  | _ => []

/-- What the streams designate after an operation. -/
def next (io0 io : Io Nat) : Op β → Io Nat
  | .openOut f _ => io.openOutput f .out
  | .openErr f _ => io.openOutput f .err
  | .errToOut => { io.openOutputD none .none with errOut := true }
  | .outToErr => { io.openOutputD none .none with outOwn := false }
  | .pop => io.pop
  | .brk => io0
  | _ => io

/-- The events of a history. -/
def history (io0 : Io Nat) : Io Nat → List (Op β) → List (Ev β)
  | _, [] => []
  | io, o :: os => events io o ++ history io0 (next io0 io o) os

/-- What the streams designate, and whether internal commands have printed on `_fOutput` and on `_fError` since these were last redirected. -/
structure View where
  io : Io Nat
  wo : Bool
  we : Bool

def view (io0 : Io Nat) (v : View) (o : Op β) : View :=
  let io := next io0 v.io o
  match o with
  | .out _ => if v.io.outOwn then ⟨io, true, v.we⟩ else ⟨io, v.wo, true⟩
  | .err _ => if v.io.errOut then ⟨io, true, v.we⟩ else ⟨io, v.wo, true⟩
  | .openOut .. => ⟨io, false, v.we⟩
  | .openErr .. => ⟨io, v.wo, false⟩
  | .pop =>
    match v.io.stack with
    | ⟨.out, _, _, false⟩ :: _ => ⟨io, false, v.we⟩
    | ⟨.err, _, _, false⟩ :: _ => ⟨io, v.wo, false⟩
    | _ => ⟨io, v.wo, v.we⟩
  | .brk => ⟨io, false, false⟩
  | _ => ⟨io, v.wo, v.we⟩

/-- A condition on each operation of a history. -/
def All (io0 : Io Nat) (P : View → Op β → Prop) : View → List (Op β) → Prop
  | _, [] => True
  | v, o :: os => P v o ∧ All io0 P (view io0 v o) os

/-- Commands have printed on a stream which designates file `c` since it was redirected there. -/
def Busy (tty : Nat → Bool) (c : Nat) (v : View) : Prop :=
  tty c = false ∧ (v.io.out = c ∧ v.wo = true ∨ v.io.err = c ∧ v.we = true)

/-- The order of what is written to file `c` is not in danger: once commands have printed on a stream which designates `c`, and as long as it
does, they do not print to `c` on the other stream, no program writes to `c`, `c` is not emptied, START is not used and Ctrl-C is not pressed.
Besides, START does not fail while `2>&1` sends its message to `c`. -/
def Tidy (tty : Nat → Bool) (c : Nat) (v : View) : Op β → Prop
  | .out _ => v.io.out = v.io.err → outOf v.io = c → tty c = true ∨ (if v.io.outOwn then v.we = false else v.wo = false)
  | .err _ => v.io.out = v.io.err → errOf v.io = c → tty c = true ∨ (if v.io.errOut then v.we = false else v.wo = false)
  | .openOut f b => b = true → f = c → ¬ Busy tty c v
  | .openErr f b => b = true → f = c → ¬ Busy tty c v
  | .run _ => outOf v.io = c ∨ errOf v.io = c → ¬ Busy tty c v
  | .start => ¬ Busy tty c v
  | .noStart _ => ¬ Busy tty c v ∧ (v.io.errOut = true → v.io.out ≠ c)
  | .brk => ¬ Busy tty c v
  | _ => True

end PBat.Spec.Buf
