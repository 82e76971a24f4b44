/-
A small model of C memory objects: an object is the list of its bytes (one `Char` each), every access
outside it is undefined behaviour.  `none` always means undefined behaviour.
-/
namespace PBat

/-- The terminating byte. -/
abbrev NUL : Char := Char.ofNat 0

/-- `strlen(b)`; reading past the object is undefined (`none`). C library. -/
def cstrlen : List Char → Option Nat
  | [] => none
  | c :: cs => if c = NUL then some 0 else (cstrlen cs).map (· + 1)

/-- The text held by the object as a C string. -/
def cstr (b : List Char) : Option (List Char) := (cstrlen b).map (b.take ·)

/-- Writing `bytes` at offset `off`; undefined outside the object. -/
def wr (b : List Char) (off : Nat) (bytes : List Char) : Option (List Char) :=
  if off + bytes.length ≤ b.length then some (b.take off ++ bytes ++ b.drop (off + bytes.length))
  else none

/-- `realloc(b, n)` when it succeeds: the new bytes are arbitrary (`g`). C library. -/
def resize (g : Nat → Char) (b : List Char) (n : Nat) : List Char :=
  b.take n ++ (List.range (n - b.length)).map g

/-- Conversion of a `size_t` to `int` (two's complement, 32 bits). -/
def toInt32 (n : Nat) : Int :=
  let m : Nat := n % 2 ^ 32
  if m < 2 ^ 31 then (m : Int) else (m : Int) - 2 ^ 32

/-- Conversion of an `int` to `size_t` (64 bits). -/
def toSize (i : Int) : Nat := (i % 2 ^ 64).toNat

end PBat

namespace PBat

/-- Outcome of a computation that may be undefined or never return. -/
inductive Res (α : Type) where
  | ok (a : α)
  | ub
  | hang
  deriving Repr, DecidableEq

/-- Sequencing of outcomes. -/
def Res.bind {α β : Type} : Res α → (α → Res β) → Res β
  | .ok a, f => f a
  | .ub, _ => .ub
  | .hang, _ => .hang

instance : Monad Res where
  pure := Res.ok
  bind := Res.bind

/-- Memory accesses as outcomes. -/
def Res.ofOption {α : Type} : Option α → Res α
  | some a => .ok a
  | none => .ub

@[simp] theorem Res.ok_bind {α β : Type} (a : α) (f : α → Res β) : (Res.ok a >>= f) = f a := rfl
@[simp] theorem Res.ub_bind {α β : Type} (f : α → Res β) : ((Res.ub : Res α) >>= f) = Res.ub := rfl
@[simp] theorem Res.hang_bind {α β : Type} (f : α → Res β) : ((Res.hang : Res α) >>= f) = Res.hang := rfl
@[simp] theorem Res.pure_eq {α : Type} (a : α) : (pure a : Res α) = Res.ok a := rfl
@[simp] theorem Res.ofOption_some {α : Type} (a : α) : Res.ofOption (some a) = Res.ok a := rfl
@[simp] theorem Res.ofOption_none {α : Type} : Res.ofOption (none : Option α) = Res.ub := rfl

end PBat
