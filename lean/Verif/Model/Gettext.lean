import Verif.Model.Args
/-
Model of the translations of messages: `microgettext/microgettext.c`, and LOCALE (`pbat/command/pBat_Locale.c`).

Files are lists of bytes (numbers below 256), messages as well; names of files, domains and locales are lists of characters.  Simplifications:
the machine is little-endian and reads integers at any address; a file that can be opened can be read whole; allocation does not fail (and
`malloc(0)` gives a pointer); `tolower` changes ASCII letters only; memory that is lost is not modelled; `bsearch` is that of glibc.
-/
namespace PBat

/-- `iso639`, microgettext/microgettext.c:71-265. -/
def iso639 : List (List Char × List Char) :=
  [(['a', 'b'], ['a', 'b', 'k', 'h', 'a', 'z', 'i', 'a', 'n']),
   (['a', 'a'], ['a', 'f', 'a', 'r']),
   (['a', 'f'], ['a', 'f', 'r', 'i', 'k', 'a', 'a', 'n', 's']),
   (['a', 'k'], ['a', 'k', 'a', 'n']),
   (['s', 'q'], ['a', 'l', 'b', 'a', 'n', 'i', 'a', 'n']),
   (['a', 'm'], ['a', 'm', 'h', 'a', 'r', 'i', 'c']),
   (['a', 'r'], ['a', 'r', 'a', 'b', 'i', 'c']),
   (['a', 'n'], ['a', 'r', 'a', 'g', 'o', 'n', 'e', 's', 'e']),
   (['h', 'y'], ['a', 'r', 'm', 'e', 'n', 'i', 'a', 'n']),
   (['a', 's'], ['a', 's', 's', 'a', 'm', 'e', 's', 'e']),
   (['a', 'v'], ['a', 'v', 'a', 'r', 'i', 'c']),
   (['a', 'e'], ['a', 'v', 'e', 's', 't', 'a', 'n']),
   (['a', 'y'], ['a', 'y', 'm', 'a', 'r', 'a']),
   (['a', 'z'], ['a', 'z', 'e', 'r', 'b', 'a', 'i', 'j', 'a', 'n', 'i']),
   (['b', 'm'], ['b', 'a', 'm', 'b', 'a', 'r', 'a']),
   (['b', 'a'], ['b', 'a', 's', 'h', 'k', 'i', 'r']),
   (['e', 'u'], ['b', 'a', 's', 'q', 'u', 'e']),
   (['e', 'u'], ['b', 'a', 's', 'q', 'u', 'e']),
   (['b', 'e'], ['b', 'e', 'l', 'a', 'r', 'u', 's', 'i', 'a', 'n']),
   (['b', 'n'], ['b', 'e', 'n', 'g', 'a', 'l', 'i']),
   (['b', 'h'], ['b', 'i', 'h', 'a', 'r', 'i']),
   (['b', 'i'], ['b', 'i', 's', 'l', 'a', 'm', 'a']),
   (['n', 'b'], ['b', 'o', 'k', 'm', 'a', 'l']),
   (['b', 's'], ['b', 'o', 's', 'n', 'i', 'a', 'n']),
   (['b', 'r'], ['b', 'r', 'e', 't', 'o', 'n']),
   (['b', 'g'], ['b', 'u', 'l', 'g', 'a', 'r', 'i', 'a', 'n']),
   (['m', 'y'], ['b', 'u', 'r', 'm', 'e', 's', 'e']),
   (['c', 'a'], ['c', 'a', 't', 'a', 'l', 'a', 'n']),
   (['k', 'm'], ['c', 'e', 'n', 't', 'r', 'a', 'l']),
   (['c', 'h'], ['c', 'h', 'a', 'm', 'o', 'r', 'r', 'o']),
   (['c', 'e'], ['c', 'h', 'e', 'c', 'h', 'e', 'n']),
   (['n', 'y'], ['c', 'h', 'i', 'c', 'h', 'e', 'w', 'a']),
   (['z', 'h'], ['c', 'h', 'i', 'n', 'e', 's', 'e']),
   (['c', 'u'], ['c', 'h', 'u', 'r', 'c', 'h']),
   (['c', 'v'], ['c', 'h', 'u', 'v', 'a', 's', 'h']),
   (['k', 'w'], ['c', 'o', 'r', 'n', 'i', 's', 'h']),
   (['c', 'o'], ['c', 'o', 'r', 's', 'i', 'c', 'a', 'n']),
   (['c', 'r'], ['c', 'r', 'e', 'e']),
   (['h', 'r'], ['c', 'r', 'o', 'a', 't', 'i', 'a', 'n']),
   (['c', 's'], ['c', 'z', 'e', 'c', 'h']),
   (['c', 's'], ['c', 'z', 'e', 'c', 'h']),
   (['d', 'a'], ['d', 'a', 'n', 'i', 's', 'h']),
   (['d', 'v'], ['d', 'i', 'v', 'e', 'h', 'i']),
   (['n', 'l'], ['d', 'u', 't', 'c', 'h']),
   (['n', 'l'], ['d', 'u', 't', 'c', 'h', ';']),
   (['d', 'z'], ['d', 'z', 'o', 'n', 'g', 'k', 'h', 'a']),
   (['e', 'n'], ['e', 'n', 'g', 'l', 'i', 's', 'h']),
   (['e', 'o'], ['e', 's', 'p', 'e', 'r', 'a', 'n', 't', 'o']),
   (['e', 't'], ['e', 's', 't', 'o', 'n', 'i', 'a', 'n']),
   (['e', 'e'], ['e', 'w', 'e']),
   (['f', 'o'], ['f', 'a', 'r', 'o', 'e', 's', 'e']),
   (['f', 'j'], ['f', 'i', 'j', 'i', 'a', 'n']),
   (['f', 'i'], ['f', 'i', 'n', 'n', 'i', 's', 'h']),
   (['f', 'r'], ['f', 'r', 'e', 'n', 'c', 'h']),
   (['f', 'r'], ['f', 'r', 'e', 'n', 'c', 'h']),
   (['f', 'y'], ['f', 'r', 'i', 's', 'i', 'a', 'n']),
   (['f', 'f'], ['f', 'u', 'l', 'a', 'h']),
   (['g', 'd'], ['g', 'a', 'e', 'l', 'i', 'c']),
   (['g', 'l'], ['g', 'a', 'l', 'i', 'c', 'i', 'a', 'n']),
   (['l', 'g'], ['g', 'a', 'n', 'd', 'a']),
   (['k', 'a'], ['g', 'e', 'o', 'r', 'g', 'i', 'a', 'n']),
   (['d', 'e'], ['g', 'e', 'r', 'm', 'a', 'n']),
   (['d', 'e'], ['g', 'e', 'r', 'm', 'a', 'n']),
   (['e', 'l'], ['g', 'r', 'e', 'e', 'k']),
   (['g', 'n'], ['g', 'u', 'a', 'r', 'a', 'n', 'i']),
   (['g', 'u'], ['g', 'u', 'j', 'a', 'r', 'a', 't', 'i']),
   (['h', 't'], ['h', 'a', 'i', 't', 'i', 'a', 'n']),
   (['h', 'a'], ['h', 'a', 'u', 's', 'a']),
   (['h', 'e'], ['h', 'e', 'b', 'r', 'e', 'w']),
   (['h', 'z'], ['h', 'e', 'r', 'e', 'r', 'o']),
   (['h', 'i'], ['h', 'i', 'n', 'd', 'i']),
   (['h', 'o'], ['h', 'i', 'r', 'i']),
   (['h', 'u'], ['h', 'u', 'n', 'g', 'a', 'r', 'i', 'a', 'n']),
   (['i', 's'], ['i', 'c', 'e', 'l', 'a', 'n', 'd', 'i', 'c']),
   (['i', 'o'], ['i', 'd', 'o']),
   (['i', 'g'], ['i', 'g', 'b', 'o']),
   (['i', 'd'], ['i', 'n', 'd', 'o', 'n', 'e', 's', 'i', 'a', 'n']),
   (['i', 'a'], ['i', 'n', 't', 'e', 'r', 'l', 'i', 'n', 'g', 'u', 'a']),
   (['i', 'e'], ['i', 'n', 't', 'e', 'r', 'l', 'i', 'n', 'g', 'u', 'e']),
   (['i', 'u'], ['i', 'n', 'u', 'k', 't', 'i', 't', 'u', 't']),
   (['i', 'k'], ['i', 'n', 'u', 'p', 'i', 'a', 'q']),
   (['g', 'a'], ['i', 'r', 'i', 's', 'h']),
   (['i', 't'], ['i', 't', 'a', 'l', 'i', 'a', 'n']),
   (['j', 'a'], ['j', 'a', 'p', 'a', 'n', 'e', 's', 'e']),
   (['j', 'v'], ['j', 'a', 'v', 'a', 'n', 'e', 's', 'e']),
   (['k', 'l'], ['k', 'a', 'l', 'a', 'a', 'l', 'l', 'i', 's', 'u', 't']),
   (['k', 'n'], ['k', 'a', 'n', 'n', 'a', 'd', 'a']),
   (['k', 'r'], ['k', 'a', 'n', 'u', 'r', 'i']),
   (['k', 's'], ['k', 'a', 's', 'h', 'm', 'i', 'r', 'i']),
   (['k', 'k'], ['k', 'a', 'z', 'a', 'k', 'h']),
   (['k', 'i'], ['k', 'i', 'k', 'u', 'y', 'u', ';']),
   (['r', 'w'], ['k', 'i', 'n', 'y', 'a', 'r', 'w', 'a', 'n', 'd', 'a']),
   (['k', 'y'], ['k', 'i', 'r', 'g', 'h', 'i', 'z']),
   (['k', 'v'], ['k', 'o', 'm', 'i']),
   (['k', 'g'], ['k', 'o', 'n', 'g', 'o']),
   (['k', 'o'], ['k', 'o', 'r', 'e', 'a', 'n']),
   (['k', 'j'], ['k', 'u', 'a', 'n', 'y', 'a', 'm', 'a']),
   (['k', 'u'], ['k', 'u', 'r', 'd', 'i', 's', 'h']),
   (['l', 'o'], ['l', 'a', 'o']),
   (['l', 'a'], ['l', 'a', 't', 'i', 'n']),
   (['l', 'v'], ['l', 'a', 't', 'v', 'i', 'a', 'n']),
   (['l', 'i'], ['l', 'i', 'm', 'b', 'u', 'r', 'g', 'a', 'n']),
   (['l', 'n'], ['l', 'i', 'n', 'g', 'a', 'l', 'a']),
   (['l', 't'], ['l', 'i', 't', 'h', 'u', 'a', 'n', 'i', 'a', 'n']),
   (['l', 'u'], ['l', 'u', 'b', 'a', '-', 'k', 'a', 't', 'a', 'n', 'g', 'a']),
   (['l', 'b'], ['l', 'u', 'x', 'e', 'm', 'b', 'o', 'u', 'r', 'g', 'i', 's', 'h']),
   (['m', 'k'], ['m', 'a', 'c', 'e', 'd', 'o', 'n', 'i', 'a', 'n']),
   (['m', 'k'], ['m', 'a', 'c', 'e', 'd', 'o', 'n', 'i', 'a', 'n']),
   (['m', 'g'], ['m', 'a', 'l', 'a', 'g', 'a', 's', 'y']),
   (['m', 's'], ['m', 'a', 'l', 'a', 'y']),
   (['m', 's'], ['m', 'a', 'l', 'a', 'y']),
   (['m', 'l'], ['m', 'a', 'l', 'a', 'y', 'a', 'l', 'a', 'm']),
   (['m', 't'], ['m', 'a', 'l', 't', 'e', 's', 'e']),
   (['g', 'v'], ['m', 'a', 'n', 'x']),
   (['m', 'i'], ['m', 'a', 'o', 'r', 'i']),
   (['m', 'r'], ['m', 'a', 'r', 'a', 't', 'h', 'i']),
   (['m', 'h'], ['m', 'a', 'r', 's', 'h', 'a', 'l', 'l', 'e', 's', 'e']),
   (['m', 'n'], ['m', 'o', 'n', 'g', 'o', 'l', 'i', 'a', 'n']),
   (['n', 'a'], ['n', 'a', 'u', 'r', 'u']),
   (['n', 'v'], ['n', 'a', 'v', 'a', 'j', 'o']),
   (['n', 'd'], ['n', 'd', 'e', 'b', 'e', 'l', 'e']),
   (['n', 'g'], ['n', 'd', 'o', 'n', 'g', 'a']),
   (['n', 'e'], ['n', 'e', 'p', 'a', 'l', 'i']),
   (['s', 'e'], ['n', 'o', 'r', 't', 'h', 'e', 'r', 'n']),
   (['n', 'o'], ['n', 'o', 'r', 'w', 'e', 'g', 'i', 'a', 'n']),
   (['o', 'c'], ['o', 'c', 'c', 'i', 't', 'a', 'n']),
   (['o', 'j'], ['o', 'j', 'i', 'b', 'w', 'a']),
   (['o', 'r'], ['o', 'r', 'i', 'y', 'a']),
   (['o', 'm'], ['o', 'r', 'o', 'm', 'o']),
   (['o', 's'], ['o', 's', 's', 'e', 't', 'i', 'a', 'n', ';']),
   (['p', 'i'], ['p', 'a', 'l', 'i']),
   (['p', 'a'], ['p', 'a', 'n', 'j', 'a', 'b', 'i']),
   (['f', 'a'], ['p', 'e', 'r', 's', 'i', 'a', 'n']),
   (['f', 'a'], ['p', 'e', 'r', 's', 'i', 'a', 'n']),
   (['p', 'l'], ['p', 'o', 'l', 'i', 's', 'h']),
   (['p', 't'], ['p', 'o', 'r', 't', 'u', 'g', 'u', 'e', 's', 'e']),
   (['p', 's'], ['p', 'u', 's', 'h', 't', 'o']),
   (['q', 'u'], ['q', 'u', 'e', 'c', 'h', 'u', 'a']),
   (['r', 'o'], ['r', 'o', 'm', 'a', 'n', 'i', 'a', 'n']),
   (['r', 'm'], ['r', 'o', 'm', 'a', 'n', 's', 'h']),
   (['r', 'n'], ['r', 'u', 'n', 'd', 'i']),
   (['r', 'u'], ['r', 'u', 's', 's', 'i', 'a', 'n']),
   (['s', 'm'], ['s', 'a', 'm', 'o', 'a', 'n']),
   (['s', 'g'], ['s', 'a', 'n', 'g', 'o']),
   (['s', 'a'], ['s', 'a', 'n', 's', 'k', 'r', 'i', 't']),
   (['s', 'c'], ['s', 'a', 'r', 'd', 'i', 'n', 'i', 'a', 'n']),
   (['s', 'r'], ['s', 'e', 'r', 'b', 'i', 'a', 'n']),
   (['s', 'n'], ['s', 'h', 'o', 'n', 'a']),
   (['i', 'i'], ['s', 'i', 'c', 'h', 'u', 'a', 'n']),
   (['s', 'd'], ['s', 'i', 'n', 'd', 'h', 'i']),
   (['s', 'i'], ['s', 'i', 'n', 'h', 'a', 'l', 'a']),
   (['s', 'k'], ['s', 'l', 'o', 'v', 'a', 'k']),
   (['s', 'k'], ['s', 'l', 'o', 'v', 'a', 'k']),
   (['s', 'l'], ['s', 'l', 'o', 'v', 'e', 'n', 'i', 'a', 'n']),
   (['s', 'o'], ['s', 'o', 'm', 'a', 'l', 'i']),
   (['s', 't'], ['s', 'o', 't', 'h', 'o']),
   (['e', 's'], ['s', 'p', 'a', 'n', 'i', 's', 'h', ';']),
   (['s', 'u'], ['s', 'u', 'n', 'd', 'a', 'n', 'e', 's', 'e']),
   (['s', 'w'], ['s', 'w', 'a', 'h', 'i', 'l', 'i']),
   (['s', 's'], ['s', 'w', 'a', 't', 'i']),
   (['s', 'v'], ['s', 'w', 'e', 'd', 'i', 's', 'h']),
   (['t', 'l'], ['t', 'a', 'g', 'a', 'l', 'o', 'g']),
   (['t', 'y'], ['t', 'a', 'h', 'i', 't', 'i', 'a', 'n']),
   (['t', 'g'], ['t', 'a', 'j', 'i', 'k']),
   (['t', 'a'], ['t', 'a', 'm', 'i', 'l']),
   (['t', 't'], ['t', 'a', 't', 'a', 'r']),
   (['t', 'e'], ['t', 'e', 'l', 'u', 'g', 'u']),
   (['t', 'h'], ['t', 'h', 'a', 'i']),
   (['b', 'o'], ['t', 'i', 'b', 'e', 't', 'a', 'n']),
   (['b', 'o'], ['t', 'i', 'b', 'e', 't', 'a', 'n']),
   (['t', 'i'], ['t', 'i', 'g', 'r', 'i', 'n', 'y', 'a']),
   (['t', 'o'], ['t', 'o', 'n', 'g', 'a']),
   (['t', 's'], ['t', 's', 'o', 'n', 'g', 'a']),
   (['t', 'n'], ['t', 's', 'w', 'a', 'n', 'a']),
   (['t', 'r'], ['t', 'u', 'r', 'k', 'i', 's', 'h']),
   (['t', 'k'], ['t', 'u', 'r', 'k', 'm', 'e', 'n']),
   (['t', 'w'], ['t', 'w', 'i']),
   (['u', 'g'], ['u', 'i', 'g', 'h', 'u', 'r', ';']),
   (['u', 'k'], ['u', 'k', 'r', 'a', 'i', 'n', 'i', 'a', 'n']),
   (['u', 'r'], ['u', 'r', 'd', 'u']),
   (['u', 'z'], ['u', 'z', 'b', 'e', 'k']),
   (['v', 'e'], ['v', 'e', 'n', 'd', 'a']),
   (['v', 'i'], ['v', 'i', 'e', 't', 'n', 'a', 'm', 'e', 's', 'e']),
   (['v', 'o'], ['v', 'o', 'l', 'a', 'p', 'u', 'k']),
   (['w', 'a'], ['w', 'a', 'l', 'l', 'o', 'o', 'n']),
   (['c', 'y'], ['w', 'e', 'l', 's', 'h']),
   (['c', 'y'], ['w', 'e', 'l', 's', 'h']),
   (['w', 'o'], ['w', 'o', 'l', 'o', 'f']),
   (['x', 'h'], ['x', 'h', 'o', 's', 'a']),
   (['y', 'i'], ['y', 'i', 'd', 'd', 'i', 's', 'h']),
   (['y', 'o'], ['y', 'o', 'r', 'u', 'b', 'a']),
   (['z', 'a'], ['z', 'h', 'u', 'a', 'n', 'g']),
   (['z', 'u'], ['z', 'u', 'l', 'u'])]

/-- An `int` of the buffer at byte `k`. -/
def readInt (buf : List Nat) (k : Int) : Option Int :=
  if k < 0 then none
  else
    match buf.drop k.toNat with
    | a :: b :: c :: d :: _ =>
      let v := a + 256 * b + 65536 * c + 16777216 * d
      some (if v < 2147483648 then (v : Int) else (v : Int) - 4294967296)
    | _ => none

/-- The loop of `microgettext_make_array`, microgettext/microgettext.c:352-360: `n` items remain, `i` are done.  The array has `len` items.
The check adds 1 to an `int`, then converts to `size_t`. -/
def moItems (buf : List Nat) (offset : Int) (i : Nat) : Nat → Res (Option (List Int))
  | 0 => .ok (some [])
  | n + 1 => do
    let v ← Res.ofOption (readInt buf (offset + 8 * i + 4))
    if v = 2147483647 then .ub
    else if (buf.length : Int) < (v + 1) % 18446744073709551616 then .ok none
    else if buf.length ≤ i then .ub
    else do
      let r ← moItems buf offset (i + 1) n
      .ok (r.map (v :: ·))

/-- `microgettext_make_array`, microgettext/microgettext.c:338-363; `nitems` is a `size_t`, and the check is done modulo 2^64. -/
def moArray (buf : List Nat) (nitems : Nat) (offset : Int) : Res (Option (List Int)) :=
  if (buf.length : Int) < (offset + 8 * nitems + 1) % 18446744073709551616 then .ok none
  else moItems buf offset 0 nitems

/-- A loaded file: `struct domain_t` without its name and link. -/
structure MoDomain where
  buf : List Nat
  strings : List Int
  translations : List Int
  deriving DecidableEq, Repr

/-- The check of the magic number, microgettext/microgettext.c:384-387: only done for files that are too short. -/
def moMagic (buf : List Nat) : Res Bool :=
  if buf.length < 20 then do
    let m ← Res.ofOption (readInt buf 0)
    .ok (m = 0x950412de - 4294967296 ∨ m = 0xde120495 - 4294967296)
  else .ok true

/-- The second table, microgettext/microgettext.c:398. -/
def moSecond (buf : List Nat) (nb : Nat) (strings : List Int) : Res (Option MoDomain) := do
  let t ← Res.ofOption (readInt buf 16)
  let ts ← moArray buf nb t
  .ok (ts.map fun ts => ⟨buf, strings, ts⟩)

/-- `microgettext_load_mofile` once the file is read, microgettext/microgettext.c:381-407. -/
def moLoad (buf : List Nat) : Res (Option MoDomain) := do
  let ok ← moMagic buf
  if ok then do
    let nb ← Res.ofOption (readInt buf 8)
    let o ← Res.ofOption (readInt buf 12)
    let ss ← moArray buf (nb % 18446744073709551616).toNat o
    match ss with
    | none => .ok none
    | some ss => moSecond buf (nb % 18446744073709551616).toNat ss
  else .ok none

/-- `strcmp` of a message with what is in the buffer: undefined if it reads beyond the end. -/
def cmpAt : List Nat → List Nat → Res Ordering
  | _, [] => .ub
  | [], b :: _ => .ok (if b = 0 then .eq else .lt)
  | k :: ks, b :: bs => if b = 0 then .ok .gt else if k = b then cmpAt ks bs else .ok (if k < b then .lt else .gt)

/-- `bsearch` (glibc): the middle of what remains. -/
def bsearchIdx (cmp : Nat → Res Ordering) (l u : Nat) : Res (Option Nat) :=
  if l < u then do
    let c ← cmp ((l + u) / 2)
    match c with
    | .lt => bsearchIdx cmp l ((l + u) / 2)
    | .gt => bsearchIdx cmp ((l + u) / 2 + 1) u
    | .eq => .ok (some ((l + u) / 2))
  else .ok none
termination_by u - l

/-- The pointers of a table. -/
def moPointer (d : MoDomain) (off : Int) : Option (List Nat) := if off < 0 then none else some (d.buf.drop off.toNat)

/-- `microgettext_strcmp` with item `i`, microgettext/microgettext.c:553-559. -/
def moCompare (d : MoDomain) (msg : List Nat) (i : Nat) : Res Ordering := do
  let off ← Res.ofOption d.strings[i]?
  let p ← Res.ofOption (moPointer d off)
  cmpAt msg p

/-- What the user of a pointer reads: the bytes up to the terminator. -/
def moText : List Nat → Res (List Nat)
  | [] => .ub
  | b :: bs => if b = 0 then .ok [] else do
    let r ← moText bs
    .ok (b :: r)

/-- The end of `dcgettext`, microgettext/microgettext.c:598-602, with what the caller reads. -/
def moLookup (d : MoDomain) (msg : List Nat) : Res (List Nat) := do
  let i ← bsearchIdx (moCompare d msg) 0 d.strings.length
  match i with
  | none => .ok msg
  | some i => do
    let off ← Res.ofOption d.translations[i]?
    let p ← Res.ofOption (moPointer d off)
    moText p

/-- `microgettext_lang_cmp`, microgettext/microgettext.c:464-470. -/
def langCompare (name : List Char) (i : Nat) : Res Ordering := do
  let p ← Res.ofOption iso639[i]?
  .ok (compare (name.map Char.toNat) (p.2.map Char.toNat))

/-- `microgettext_get_lang` with `size` 100, microgettext/microgettext.c:478-503, given the answer of `setlocale`. -/
def getLang (loc : List Char) : Res (List Char) := do
  let l := ((loc.take 99).takeWhile (· ≠ '_')).map Char.toLower
  let i ← bsearchIdx (langCompare l) 0 iso639.length
  match i with
  | none => .ok l
  | some i => do
    let p ← Res.ofOption iso639[i]?
    .ok (p.1.take 99)

/-- The categories. -/
inductive LocCat where
  | all | collate | ctype | monetary | numeric | time | other
  deriving DecidableEq, Repr

/-- `locale_strings`, microgettext/microgettext.c:62-69, 513-522. -/
def LocCat.dir : LocCat → List Char
  | .collate => "LC_COLLATE".toList
  | .ctype => "LC_CTYPE".toList
  | .monetary => "LC_MONETARY".toList
  | .numeric => "LC_NUMERIC".toList
  | .time => "LC_TIME".toList
  | _ => "LC_MESSAGES".toList

/-- The variables of the file: `domains`, `basedirs`, `current_domain`. -/
structure Gettext where
  domains : List (List Char × MoDomain) := []
  basedirs : List (List Char × List Char) := []
  current : List Char := []

/-- `microgettext_make_domain_path`, microgettext/microgettext.c:511-551: `snprintf` writes at most `len - 1` characters. -/
def domainPath (g : Gettext) (loc : LocCat → List Char) (d : List Char) (cat : LocCat) : Res (List Char) := do
  let l ← getLang (loc cat)
  let len := l.length + 2 + cat.dir.length + 2 + d.length + 4 + 1
  match g.basedirs.find? (·.1 == d) with
  | some b => .ok ((b.2 ++ '/' :: (l ++ '/' :: (cat.dir ++ '/' :: (d ++ ['.', 'm', 'o'])))).take (len + (b.2.length + 2) - 1))
  | none => .ok ((l ++ '/' :: (cat.dir ++ '/' :: (d ++ ['.', 'm', 'o']))).take (len - 1))

/-- A file that is not yet in the list, microgettext/microgettext.c:580-602. -/
def loadDomain (g : Gettext) (file : Option (List Nat)) (path : List Char) (msg : List Nat) : Res (List Nat × Gettext) :=
  match file with
  | none => .ok (msg, g)
  | some buf => do
    let r ← moLoad buf
    match r with
    | none => .ok (msg, g)
    | some m => do
      let t ← moLookup m msg
      .ok (t, { g with domains := (path, m) :: g.domains })

/-- `dcgettext`, microgettext/microgettext.c:565-614; `fs` gives the contents of the files that can be opened. -/
def dcgettext (fs : List Char → Option (List Nat)) (loc : LocCat → List Char) (g : Gettext) (d : List Char) (msg : List Nat) (cat : LocCat) :
    Res (List Nat × Gettext) := do
  let path ← domainPath g loc d cat
  match g.domains.find? (·.1 == path) with
  | some m => do
    let t ← moLookup m.2 msg
    .ok (t, g)
  | none => loadDomain g (fs path) path msg

/-- `gettext`, microgettext/microgettext.c:627-631. -/
def gettextMsg (fs : List Char → Option (List Nat)) (loc : LocCat → List Char) (g : Gettext) (msg : List Nat) : Res (List Nat × Gettext) :=
  dcgettext fs loc g (if g.current = [] then ['C'] else g.current) msg .all

/-- `textdomain` with a name, microgettext/microgettext.c:634-644. -/
def textdomain (g : Gettext) (d : List Char) : Gettext := { g with current := d.take 127 }

/-- The item found by `bindtextdomain` gets another directory. -/
def rebind (d dir : List Char) : List (List Char × List Char) → List (List Char × List Char)
  | [] => []
  | b :: bs => if b.1 == d then (b.1, dir) :: bs else b :: rebind d dir bs

/-- `bindtextdomain` with a directory, microgettext/microgettext.c:646-681. -/
def bindtextdomain (g : Gettext) (d dir : List Char) : Gettext :=
  { g with basedirs := if (g.basedirs.find? (·.1 == d)).isSome then rebind d dir g.basedirs else (d.take 99, dir) :: g.basedirs }

/-- The parameters seen by LOCALE, pbat/command/pBat_Locale.c:66-98; `done` tells whether there has been one.  The result is the directory
given to `pBat_LoadLocaleMessages` (if any), whether the help is shown, and whether there was an unexpected element. -/
def localeParams (ex : List Char → Res (List Char)) (full : List Char → List Char) (line : List Char) :
    Res (Option (List Char) × Bool × Bool) := do
  let p ← nextParam stdDelims ex line
  match p with
  | none => .ok (none, false, false)
  | some (t, rest) => do
    let q ← nextParam stdDelims ex rest
    .ok (if t = ['/', '?'] then none else some (full t), decide (t = ['/', '?']), q.isSome)

/-- LOCALE, pbat/command/pBat_Locale.c:66: it is given the whole line, with the name of the command. -/
def cmdLocale (ex : List Char → Res (List Char)) (full : List Char → List Char) (line : List Char) : Res (Option (List Char) × Bool × Bool) :=
  localeParams ex full line

end PBat
