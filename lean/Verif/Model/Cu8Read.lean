/-
Model of the reading of text files by the library libcu8, which the interpreter uses on Windows instead of `fgets` and
`fgetc`: libcu8/src/read.c.  A file holds bytes of some encoding; the reader gets UTF-8.

Simplifications: the encoding is a function of the bytes of one character (iconv without shift states, and no character
longer than four bytes of UTF-8); reading does not fail; the bytes are those `fread` gives (after the translation of line ends).
-/
namespace PBat.Cu8

/-- What iconv makes of the bytes not converted yet: `EINVAL`, `EILSEQ`, or a character in UTF-8. -/
inductive Dec where
  | incomplete
  | invalid
  | char (utf8 : List Nat)
  deriving DecidableEq, Repr

/-- An encoding. -/
abbrev Codec := List Nat → Dec

/-- A file with its `struct fd_buffering_t`, libcu8/src/internals.h:75-80: the bytes not read yet, whether the end was met,
and `remain`. -/
structure Stream where
  file : List Nat
  eof : Bool := false
  remain : List Nat := []
  deriving DecidableEq, Repr

/-- `libcu8_write_buffered`, libcu8/src/read.c:1056-1077, into a buffer with `size` bytes free: what is put there, the bytes
still free, and `remain`. -/
def writeBuffered (size : Nat) (utf8 remain : List Nat) : List Nat × Nat × List Nat :=
  if size ≥ utf8.length then (utf8, size - utf8.length, remain) else (utf8.take size, 0, utf8.drop size)

/-- `libcu8_read_buffered`, libcu8/src/read.c:1079-1105. -/
def readBuffered (size : Nat) (remain : List Nat) : List Nat × Nat × List Nat :=
  if remain.length ≤ size then (remain, size - remain.length, [])
  else (remain.take size, 0, remain.drop size)

/-- `FILENAME_MAX` on Windows. -/
def filenameMax : Nat := 260

/-- The loop of `libcu8_readfile`, libcu8/src/read.c:116-161, with `libcu8_get_file_byte` and `libcu8_try_convert`,
libcu8/src/read.c:177-244.  `ansi`: the bytes not converted yet.  `none`: an error, otherwise the bytes written. -/
def readfile (cd : Codec) : List Nat → List Nat → Nat → List Nat → Option (List Nat) × Stream
  | file, _, 0, remain => (some [], { file := file, remain := remain })
  | [], _, _ + 1, remain => (some [], { file := [], eof := true, remain := remain })
  | b :: file, ansi, size + 1, remain =>
    if ansi.length ≥ filenameMax then (none, { file := b :: file, remain := remain }) else
      match cd (ansi ++ [b]) with
      | .incomplete => readfile cd file (ansi ++ [b]) (size + 1) remain
      | .invalid => readfile cd file [] (size + 1) remain
      | .char [] => readfile cd file [] (size + 1) remain
      | .char (u :: us) =>
        let w := writeBuffered (size + 1) (u :: us) remain
        if u = 10 then (some w.1, { file := file, remain := w.2.2 })
        else
          let r := readfile cd file [] w.2.1 w.2.2
          (r.1.map (w.1 ++ ·), r.2)

/-- `libcu8_fgets` on a file that is no terminal, libcu8/src/read.c:59-113: the string, or `none` for `NULL`. -/
def fgets (cd : Codec) (s : Nat) (f : Stream) : Option (List Nat) × Stream :=
  if s = 0 ∨ f.eof = true then (none, f) else
  if s = 1 then (some [], f) else
    let r := readBuffered (s - 1) f.remain
    if r.2.1 = 0 then (some r.1, { f with remain := r.2.2 }) else
      match readfile cd f.file [] r.2.1 r.2.2 with
      | (none, g) => (none, g)
      | (some w, g) => if w.length ≤ r.2.1 ∧ w ≠ [] then (some (r.1 ++ w), g) else (none, g)

/-- `libcu8_fgetc`, libcu8/src/read.c:46-57: a `char` is signed; `EOF` is -1. -/
def fgetc (cd : Codec) (f : Stream) : Int × Stream :=
  match fgets cd 2 f with
  | (none, g) => (-1, g)
  | (some s, g) =>
    let c := s.headD 0
    (if c < 128 then c else (c : Int) - 256, g)

/-- Calls of `libcu8_fgets` with buffers of given sizes. -/
def fgetsAll (cd : Codec) : List Nat → Stream → List (Option (List Nat))
  | [], _ => []
  | s :: ss, f => (fgets cd s f).1 :: fgetsAll cd ss (fgets cd s f).2

end PBat.Cu8
