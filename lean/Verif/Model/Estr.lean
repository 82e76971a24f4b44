import Verif.Model.Mem
/-
Model of the growable strings of `libpbat/estr/pBat_Estr.c`, on bytes of memory.

Every function takes `al`, telling whether an allocation of that size succeeds, and `g`, the arbitrary
contents of freshly allocated memory.  Results: `none` is undefined behaviour, `some (rc, e)` the returned
code and the new structure.  Simplification: `size_t` arithmetic does not wrap (no object of 2^63 bytes
exists), all `int` conversions are modelled.
-/
namespace PBat

/-- `struct ESTR`, libpbat/libpBat.h:188-191; `str` is the allocated object. -/
structure Estr where
  str : List Char
  len : Int

/-- `__fast_compute_size` loop, libpbat/estr/pBat_Estr.c:41-43. -/
def sizeLoop (r s : Nat) : Nat := if r < s ∧ 0 < r then sizeLoop (r * 2) s else r
termination_by s - r

/-- `PBAT_ESTR_SIZE`, libpbat/estr/pBat_Estr.c:37-45 (returns `int`). -/
def estrSize (s : Nat) : Int := toInt32 (sizeLoop 256 s)

/-- `pBat_EsInit`, libpbat/estr/pBat_Estr.c:71-104 (on allocation failure the process exits). -/
def esInit (g : Nat → Char) : Estr := { str := NUL :: (List.range 255).map g, len := 256 }

/-- The growing prologue of copies: `if (len < iLen) realloc`, with `iLen` a `size_t`:
libpbat/estr/pBat_Estr.c:298-305 and 316-324.  `none` = allocation failed. -/
def growSize (al : Nat → Bool) (g : Nat → Char) (e : Estr) (iLen : Nat) : Option Estr :=
  if toSize e.len < iLen then
    if al iLen then some { str := resize g e.str iLen, len := toInt32 iLen } else none
  else some e

/-- The same with `iLen` an `int`: libpbat/estr/pBat_Estr.c:344-351, 362-369, 381-388, 400-407. -/
def growInt (al : Nat → Bool) (g : Nat → Char) (e : Estr) (iLen : Int) : Option Estr :=
  if e.len < iLen then
    if al (toSize iLen) then some { str := resize g e.str (toSize iLen), len := iLen } else none
  else some e

/-- `pBat_EsCpy`, libpbat/estr/pBat_Estr.c:294-310. -/
def esCpy (al : Nat → Bool) (g : Nat → Char) (e : Estr) (s : List Char) : Option (Int × Estr) :=
  match growSize al g e (toSize (estrSize (s.length + 1))) with
  | none => some (-1, e)
  | some e => (wr e.str 0 (s ++ [NUL])).map fun b => (0, { e with str := b })

/-- The bytes `strncpy(_, s, n)` writes. C library. -/
def strncpyBytes (s : List Char) (n : Nat) : List Char := s.take n ++ List.replicate (n - s.length) NUL

/-- `pBat_EsCpyN`, libpbat/estr/pBat_Estr.c:312-337. -/
def esCpyN (al : Nat → Bool) (g : Nat → Char) (e : Estr) (s : List Char) (n : Nat) :
    Option (Int × Estr) :=
  match growSize al g e (toSize (estrSize (n + 1))) with
  | none => some (-1, e)
  | some e => do
    let b ← if n ≠ 0 then wr e.str 0 (strncpyBytes s n) else some e.str
    let b ← wr b n [NUL]
    pure (0, { e with str := b })

/-- `pBat_EsCat`, libpbat/estr/pBat_Estr.c:339-356. -/
def esCat (al : Nat → Bool) (g : Nat → Char) (e : Estr) (s : List Char) : Option (Int × Estr) := do
  let l ← cstrlen e.str
  match growInt al g e (estrSize (l + s.length + 1)) with
  | none => pure (-1, e)
  | some e =>
    let l ← cstrlen e.str
    let b ← wr e.str l (s ++ [NUL])
    pure (0, { e with str := b })

/-- `pBat_EsCatN`, libpbat/estr/pBat_Estr.c:358-374. -/
def esCatN (al : Nat → Bool) (g : Nat → Char) (e : Estr) (s : List Char) (n : Nat) :
    Option (Int × Estr) := do
  let l ← cstrlen e.str
  match growInt al g e (estrSize (l + n + 1)) with
  | none => pure (-1, e)
  | some e =>
    let l ← cstrlen e.str
    let b ← wr e.str l (s.take n ++ [NUL])
    pure (0, { e with str := b })

/-- `pBat_EsCpyE`, libpbat/estr/pBat_Estr.c:376-393. -/
def esCpyE (al : Nat → Bool) (g : Nat → Char) (e src : Estr) : Option (Int × Estr) := do
  let s ← cstr src.str
  match growInt al g e (estrSize (s.length + 1)) with
  | none => pure (-1, e)
  | some e =>
    let b ← wr e.str 0 (s ++ [NUL])
    pure (0, { e with str := b })

/-- `pBat_EsCatE`, libpbat/estr/pBat_Estr.c:395-412. -/
def esCatE (al : Nat → Bool) (g : Nat → Char) (e src : Estr) : Option (Int × Estr) := do
  let l ← cstrlen e.str
  let s ← cstr src.str
  match growInt al g e (estrSize (l + s.length + 1)) with
  | none => pure (-1, e)
  | some e =>
    let l ← cstrlen e.str
    let b ← wr e.str l (s ++ [NUL])
    pure (0, { e with str := b })

/-- The calls a history may contain; operands are C strings, `cpyE`/`catE` take another growable string. -/
inductive EsOp
  | cpy (s : List Char)
  | cpyN (s : List Char) (n : Nat)
  | cat (s : List Char)
  | catN (s : List Char) (n : Nat)
  | cpyE (src : Estr)
  | catE (src : Estr)

/-- One call of the API. -/
def esStep (al : Nat → Bool) (g : Nat → Char) (e : Estr) : EsOp → Option (Int × Estr)
  | .cpy s => esCpy al g e s
  | .cpyN s n => esCpyN al g e s n
  | .cat s => esCat al g e s
  | .catN s n => esCatN al g e s n
  | .cpyE src => esCpyE al g e src
  | .catE src => esCatE al g e src

end PBat
