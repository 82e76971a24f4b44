import Verif.Model.Mem
/-
Model of the conversion and of the writing of text by the library libcu8, which the interpreter uses on Windows instead of
`fputs` and `fprintf`: libcu8/src/encoding.c and libcu8/src/write.c.

Simplifications: the encodings are functions of the bytes (iconv without shift states); memory is not exhausted
(`realloc(NULL, 0)` gives a buffer, as the C library of Windows does); the encoding exists.
-/
namespace PBat.Cu8

/-- What iconv finds at the beginning of its input: `EINVAL`, `EILSEQ`, or a character of `used` bytes that becomes `out`. -/
inductive Next where
  | incomplete
  | invalid
  | char (used : Nat) (out : List Nat)
  deriving DecidableEq, Repr

/-- A conversion from one encoding to another, applied to input that is not empty. -/
abbrev Coder := List Nat → Next

/-- How a call of iconv ended. -/
inductive IStatus where
  | done | e2big | eilseq | einval
  deriving DecidableEq, Repr

/-- `iconv`: what it puts in the room left, the input left, the end. -/
def iconv (cd : Coder) (src : List Nat) (room : Nat) : List Nat × List Nat × IStatus :=
  match src with
  | [] => ([], [], .done)
  | b :: t =>
    match cd (b :: t) with
    | .incomplete => ([], b :: t, .einval)
    | .invalid => ([], b :: t, .eilseq)
    | .char used out =>
      if room < out.length then ([], b :: t, .e2big) else
        let r := iconv cd (t.drop (used - 1)) (room - out.length)
        (out ++ r.1, r.2)
termination_by src.length
decreasing_by simp; omega

/-- `CHUNK_SIZE`, libcu8/src/encoding.c:115. -/
def chunkSize : Nat := 256

/-- The loop of `libcu8_convert`, libcu8/src/encoding.c:283-339, and, without the bytes left, of `libcu8_xconvert`,
libcu8/src/encoding.c:170-214: the result and the bytes of an incomplete character.  `chunk` is the part of the chunk that is used.
`libcu8_cat_chunk` appends it, libcu8/src/encoding.c:116-141.  A chunk that is empty and too small is a loop without end. -/
def convertLoop (cd : Coder) (src chunk ret : List Nat) : Res (List Nat × List Nat) :=
  let r := iconv cd src (chunkSize - chunk.length)
  match r.2.2 with
  | .e2big =>
    if _h : r.2.1.length < src.length ∨ (r.2.1.length = src.length ∧ chunk ≠ []) then
      convertLoop cd r.2.1 [] (ret ++ (chunk ++ r.1)) else .hang
  | .einval => .ok (ret ++ (chunk ++ r.1), r.2.1)
  | .eilseq =>
    if _h : r.2.1.length ≤ src.length ∧ 0 < r.2.1.length then convertLoop cd (r.2.1.drop 1) (chunk ++ r.1) ret else .hang
  | .done => .ok (ret ++ (chunk ++ r.1), [])
termination_by (src.length, chunk.length)
decreasing_by
  · rcases _h with h | ⟨h, h'⟩
    · exact Prod.Lex.left _ _ h
    · rw [h]
      refine Prod.Lex.right _ ?_
      cases chunk with
      | nil => exact absurd rfl h'
      | cons _ _ => simp
  · refine Prod.Lex.left _ _ ?_
    change (r.2.1.drop 1).length < src.length
    rw [List.length_drop]
    omega

/-- `libcu8_xconvert`, libcu8/src/encoding.c:145-233. -/
def xconvert (cd : Coder) (src : List Nat) : Res (List Nat) := do
  let r ← convertLoop cd src [] []
  pure r.1

/-- The struct `fd_buffering_t` when writing, libcu8/src/internals.h:75-80, and the bytes written so far. -/
structure Sink where
  remainder : List Nat := []
  written : List Nat := []
  deriving DecidableEq, Repr

/-- `libcu8_convert`, libcu8/src/encoding.c:237-361.  `none`: `NULL`.  The buffer for the bytes left by an earlier call and the
new ones has the size of both, but `memcpy` puts as many bytes behind the first ones (lines 264-271). -/
def convert (cd : Coder) (src remainder : List Nat) : Res (Option (List Nat × List Nat)) :=
  let size := src.length + remainder.length
  let copied := size
  if remainder ≠ [] ∧ remainder.length + copied > size then .ub else do
    let r ← convertLoop cd (remainder ++ src) [] []
    if r.2.length > 4 then pure none else pure (some r)

/-- `libcu8_fputs`, libcu8/src/write.c:95-116 with 134-200: whether the result is not `EOF`.  `full`: the device takes no
more bytes. -/
def fputs (cd : Coder) (s : List Nat) (full : Bool) (f : Sink) : Res (Bool × Sink) := do
  match ← convert cd s f.remainder with
  | none => pure (false, f)
  | some (out, rest) => pure (true, { remainder := rest, written := if full then f.written else f.written ++ out })

/-- `libcu8_fputs` for each of the strings. -/
def fputsAll (cd : Coder) : List (List Nat) → Sink → Res Sink
  | [], f => pure f
  | s :: ss, f => do
    let r ← fputs cd s false f
    fputsAll cd ss r.2

/-- `_vsnprintf` of the C library of Windows for a text and a buffer of `n` bytes: -1 if it does not fit. -/
def vsnprintfWin (n : Nat) (text : List Nat) : Int := if text.length ≤ n then text.length else -1

/-- `libcu8_vfprintf`, libcu8/src/write.c:54-85: the result and the file.  When the text does not fit in 512 bytes the local
variable that is read at the end has no value, but the result does not depend on it. -/
def vfprintf (cd : Coder) (text : List Nat) (f : Sink) : Res (Int × Sink) :=
  let nd := vsnprintfWin 512 text
  if nd < 0 then pure (-1, f) else do
    let r ← fputs cd text false f
    pure (if r.1 then nd else -1, r.2)

/-! ### UTF-8 and UTF-16LE as iconv converts them -/

/-- The byte may follow the first one of a character in UTF-8. -/
def follows (b : Nat) : Bool := 128 ≤ b && b < 192

/-- A code point in UTF-16LE. -/
def utf16 (c : Nat) : List Nat :=
  if c < 65536 then [c % 256, c / 256]
  else
    let h := 55296 + (c - 65536) / 1024
    let l := 56320 + (c - 65536) % 1024
    [h % 256, h / 256, l % 256, l / 256]

/-- A code point in UTF-8. -/
def utf8 (c : Nat) : List Nat :=
  if c < 128 then [c]
  else if c < 2048 then [192 + c / 64, 128 + c % 64]
  else if c < 65536 then [224 + c / 4096, 128 + c / 64 % 64, 128 + c % 64]
  else [240 + c / 262144, 128 + c / 4096 % 64, 128 + c / 64 % 64, 128 + c % 64]

/-- A Unicode scalar value. -/
def scalar (c : Nat) : Bool := c < 55296 || (57344 ≤ c && c < 1114112)

/-- From UTF-8 to UTF-16LE: `iconv_open("UTF-16LE", "UTF-8")`, libcu8/src/encoding.c:92-94. -/
def toU16 : Coder
  | [] => .incomplete
  | a :: t =>
    if a < 128 then .char 1 (utf16 a)
    else if a < 194 then .invalid
    else if a < 224 then
      match t with
      | b :: _ => if follows b then .char 2 (utf16 ((a - 192) * 64 + (b - 128))) else .invalid
      | _ => .incomplete
    else if a < 240 then
      match t with
      | b :: c :: _ =>
        let w := ((a - 224) * 64 + (b - 128)) * 64 + (c - 128)
        if follows b && follows c && 2048 ≤ w && scalar w then .char 3 (utf16 w) else .invalid
      | _ => .incomplete
    else if a < 248 then
      match t with
      | b :: c :: d :: _ =>
        let w := (((a - 240) * 64 + (b - 128)) * 64 + (c - 128)) * 64 + (d - 128)
        if follows b && follows c && follows d && 65536 ≤ w && scalar w then .char 4 (utf16 w) else .invalid
      | _ => .incomplete
    else .invalid

/-- From UTF-16LE to UTF-8: `iconv_open("UTF-8", "UTF-16LE")`, libcu8/src/encoding.c:88-90. -/
def fromU16 : Coder
  | a :: b :: t =>
    let w := a + 256 * b
    if scalar w then .char 2 (utf8 w)
    else if w < 56320 then
      match t with
      | c :: d :: _ =>
        let l := c + 256 * d
        if 56320 ≤ l && l < 57344 then .char 4 (utf8 (65536 + (w - 55296) * 1024 + (l - 56320))) else .invalid
      | _ => .incomplete
    else .invalid
  | _ => .incomplete

end PBat.Cu8
