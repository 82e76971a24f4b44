import Verif.Spec.Num
import Verif.Spec.Env
/-
Specification of the program DUMP, as described in man/en_US/dump.tea.
-/
namespace PBat.Spec

/-- The integral types: their name, number of bytes, and whether they have a sign. -/
def dumpKinds : List (List Char × Nat × Bool) :=
  [(['c'], 1, true), (['u', 'c'], 1, false), (['s'], 2, true), (['u', 's'], 2, false), (['i'], 4, true), (['u', 'i'], 4, false), (['l', 'l'], 8, true)]

/-- The number bytes stand for, the least first. -/
def littleEndian (bs : List Nat) : Nat := bs.foldr (fun b r => b + 256 * r) 0

/-- A number of `k` bytes. -/
def IsValue (k : Nat) (signed : Bool) (bs : List Nat) (v : Int) : Prop :=
  v % 2 ^ (8 * k) = littleEndian bs ∧ (if signed then -2 ^ (8 * k - 1) ≤ v ∧ v < 2 ^ (8 * k - 1) else 0 ≤ v ∧ v < 2 ^ (8 * k))

/-- Digits of a base that stand for a number. -/
def DigitsOf (b : Nat) (t : List Char) (n : Nat) : Prop := (∀ c ∈ t, c ∈ hexDigits.take b) ∧ valueIn b t = n

/-- A number in decimal digits with zeros, in a column of a width. -/
def DecShown (w : Nat) (v : Int) (t : List Char) : Prop :=
  t.length = w ∧ (0 ≤ v → DigitsOf 10 t v.toNat) ∧ (v < 0 → ∃ ds, t = '-' :: ds ∧ DigitsOf 10 ds (-v).toNat)

/-- How an element is shown: in decimal digits, or by its bytes in hexadecimal digits. -/
def ElementText (hex : Bool) (k : Nat) (signed : Bool) (w : Nat) (bs : List Nat) (t : List Char) : Prop :=
  if hex then t.length = 2 * k ∧ DigitsOf 16 t (littleEndian bs) else ∃ v, IsValue k signed bs v ∧ DecShown w v t

/-- The elements of a row, each followed by a blank. -/
inductive Elements (hex : Bool) (k : Nat) (signed : Bool) (w : Nat) : List (List Nat) → List Char → Prop
  | nil : Elements hex k signed w [] []
  | cons {e es t r} : ElementText hex k signed w e t → Elements hex k signed w es r → Elements hex k signed w (e :: es) (t ++ ' ' :: r)

/-- The place of a row in the file. -/
def AddressText (a : Nat) (t : List Char) : Prop :=
  if a = 0 then t = ['(', 'n', 'i', 'l', ')'] else ∃ ds, t = '0' :: 'x' :: ds ∧ DigitsOf 16 ds a

/-- A byte as a character: a point if it is not one. -/
def byteChar (b : Nat) : Char := if b < 32 ∨ 128 ≤ b then '.' else Char.ofNat b

/-- A row: its place, its elements and its characters. -/
def RowText (hex : Bool) (k : Nat) (signed : Bool) (w : Nat) (a : Nat) (es : List (List Nat)) (line : List Char) : Prop :=
  ∃ p t, AddressText a p ∧ Elements hex k signed w es t ∧ line = p ++ ' ' :: t ++ es.flatten.map byteChar ++ ['\n']

/-- The rows from a place on. -/
inductive DumpRows (hex : Bool) (k : Nat) (signed : Bool) (w : Nat) : Nat → List (List (List Nat)) → List Char → Prop
  | nil {a} : DumpRows hex k signed w a [] []
  | cons {a es rows line out} : RowText hex k signed w a es line → DumpRows hex k signed w (a + es.flatten.length) rows out →
      DumpRows hex k signed w a (es :: rows) (line ++ out)

/-- What can be given to the program: the type of the elements, hexadecimal digits, and names of files. -/
inductive DumpItem where
  | type (i : Nat)
  | hex
  | file (name : List Char)

/-- How an item is written. -/
inductive DumpWord : DumpItem → List Char → Prop
  | type {i name k sg t colon w} : dumpKinds[i]? = some (name, k, sg) → t.toLower = 't' → colon = [] ∨ colon = [':'] → fold w = name →
      DumpWord (.type i) ('/' :: t :: (colon ++ w))
  | hex {h} : h.toLower = 'h' → DumpWord .hex ['/', h]
  | file {name} : name.head? ≠ some '/' → DumpWord (.file name) name

/-- The type and the digits chosen by the items before. -/
def dumpMode : Nat × Bool → List DumpItem → Nat × Bool
  | m, [] => m
  | m, .type i :: r => dumpMode (i, m.2) r
  | m, .hex :: r => dumpMode (m.1, true) r
  | m, .file _ :: r => dumpMode m r

/-- What is written: each file after its name, as the items before it ask. -/
def dumpOutput (listing : Nat × Bool → List Char → List Char) : Nat × Bool → List DumpItem → List Char
  | _, [] => []
  | m, .type i :: r => dumpOutput listing (i, m.2) r
  | m, .hex :: r => dumpOutput listing (m.1, true) r
  | m, .file name :: r => name ++ " -----------------\n".toList ++ listing m name ++ dumpOutput listing m r

/-- Items written in order. -/
inductive DumpWords : List DumpItem → List (List Char) → Prop
  | nil : DumpWords [] []
  | cons {x xs a as} : DumpWord x a → DumpWords xs as → DumpWords (x :: xs) (a :: as)

end PBat.Spec
