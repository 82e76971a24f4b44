import Verif.Model.Gettext
/-
What a catalogue of translations is: files in the format of GNU gettext (little-endian), and where they are looked for.
-/
namespace PBat.Spec

/-- At byte `k` there is the number `v`, in four bytes, the least one first. -/
def IntAt (buf : List Nat) (k v : Nat) : Prop :=
  ∃ a b c d rest, buf.drop k = a :: b :: c :: d :: rest ∧ a < 256 ∧ b < 256 ∧ c < 256 ∧ d < 256 ∧ v = a + 256 * b + 65536 * c + 16777216 * d

/-- At byte `k` there is a text with its terminator. -/
def TextAt (buf : List Nat) (k : Nat) (t : List Nat) : Prop := (∃ rest, buf.drop k = t ++ 0 :: rest) ∧ 0 ∉ t

/-- A table at byte `k`: for each text its length and the place where it is. -/
def TableAt (buf : List Nat) (k : Nat) (ts : List (List Nat)) : Prop :=
  ∀ i t, ts[i]? = some t → ∃ off, IntAt buf (k + 8 * i + 4) off ∧ TextAt buf off t

/-- A file with the messages `cat`, each with its translation, the messages sorted. -/
def MoFile (buf : List Nat) (cat : List (List Nat × List Nat)) : Prop :=
  IntAt buf 0 0x950412de ∧ IntAt buf 8 cat.length ∧
  (∃ o, IntAt buf 12 o ∧ o + 8 * cat.length < buf.length ∧ TableAt buf o (cat.map (·.1))) ∧
  (∃ t, IntAt buf 16 t ∧ t + 8 * cat.length < buf.length ∧ TableAt buf t (cat.map (·.2))) ∧
  buf.length < 2147483648 ∧ cat.Pairwise (fun a b => a.1 < b.1)

/-- The translation of a message: itself if there is none. -/
def translation (cat : List (List Nat × List Nat)) (msg : List Nat) : List Nat := ((cat.find? (·.1 == msg)).map (·.2)).getD msg

/-- The languages of the table whose names are meant to be replaced by their codes. -/
def languageOf (table : List (List Char × List Char)) (loc : List Char) : List Char :=
  let l := (loc.takeWhile (· ≠ '_')).map Char.toLower
  ((table.find? (·.2 == l)).map (·.1)).getD l

/-- The file of a domain: below the directory of the domain, if there is one, that of the language and that of the category. -/
def cataloguePath (dir : Option (List Char)) (lang cat domain : List Char) : List Char :=
  (dir.map (· ++ ['/'])).getD [] ++ lang ++ ['/'] ++ cat ++ ['/'] ++ domain ++ ['.', 'm', 'o']

/-- What a program can ask for: to bind a domain to a directory, to choose a domain or a locale, the translation of a message in the domain
chosen or in another one. -/
inductive GtCall where
  | bind (d dir : List Char)
  | domain (d : List Char)
  | locale (l : List Char)
  | get (msg : List Nat)
  | dget (d : List Char) (msg : List Nat)

/-- The directory a domain is bound to, the last one bound being the first in the list. -/
def boundTo (h : List (List Char × List Char)) (d : List Char) : Option (List Char) := (h.find? (·.1 == d)).map (·.2)

/-- The answers, given the catalogues there are: `h` is what has been bound, `cur` the domain chosen, `loc` the locale. -/
def gtAnswers (table : List (List Char × List Char)) (C : List Char → Option (List (List Nat × List Nat))) (h : List (List Char × List Char))
    (cur loc : List Char) : List GtCall → List (List Nat)
  | [] => []
  | .bind d dir :: cs => gtAnswers table C ((d, dir) :: h) cur loc cs
  | .domain d :: cs => gtAnswers table C h d loc cs
  | .locale l :: cs => gtAnswers table C h cur l cs
  | .get msg :: cs =>
    ((C (cataloguePath (boundTo h cur) (languageOf table loc) "LC_MESSAGES".toList cur)).map (translation · msg)).getD msg ::
      gtAnswers table C h cur loc cs
  | .dget d msg :: cs =>
    ((C (cataloguePath (boundTo h d) (languageOf table loc) "LC_MESSAGES".toList d)).map (translation · msg)).getD msg ::
      gtAnswers table C h cur loc cs

/-- The directories of the categories of POSIX. -/
def categoryDir : LocCat → List Char
  | .numeric => ['L', 'C', '_', 'N', 'U', 'M', 'E', 'R', 'I', 'C']
  | .time => ['L', 'C', '_', 'T', 'I', 'M', 'E']
  | .collate => ['L', 'C', '_', 'C', 'O', 'L', 'L', 'A', 'T', 'E']
  | .monetary => ['L', 'C', '_', 'M', 'O', 'N', 'E', 'T', 'A', 'R', 'Y']
  | .ctype => ['L', 'C', '_', 'C', 'T', 'Y', 'P', 'E']
  | .all | .other => ['L', 'C', '_', 'M', 'E', 'S', 'S', 'A', 'G', 'E', 'S']

/-- Codes of ISO 639-1. -/
def isoCodes : List (List Char × List Char) :=
  [(['e', 'n', 'g', 'l', 'i', 's', 'h'], ['e', 'n']), (['f', 'r', 'e', 'n', 'c', 'h'], ['f', 'r']), (['g', 'e', 'r', 'm', 'a', 'n'], ['d', 'e']),
   (['i', 't', 'a', 'l', 'i', 'a', 'n'], ['i', 't']), (['d', 'a', 'n', 'i', 's', 'h'], ['d', 'a']), (['r', 'u', 's', 's', 'i', 'a', 'n'], ['r', 'u']),
   (['g', 'r', 'e', 'e', 'k'], ['e', 'l']), (['j', 'a', 'p', 'a', 'n', 'e', 's', 'e'], ['j', 'a']), (['p', 'o', 'l', 'i', 's', 'h'], ['p', 'l']),
   (['s', 'w', 'e', 'd', 'i', 's', 'h'], ['s', 'v']), (['t', 'u', 'r', 'k', 'i', 's', 'h'], ['t', 'r']), (['k', 'o', 'r', 'e', 'a', 'n'], ['k', 'o'])]

end PBat.Spec
