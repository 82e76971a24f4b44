import Verif.Model.Search
/-
Specification of the search of files: the meaning of a pattern, level by level, as described in man/en_US/spec/regexp.tea.
`m l e` says that the name `e` matches the level `l` (the meaning of `*` and `?` is the subject of C33).
-/
namespace PBat.Spec

/-- The levels of a pattern: the texts between the separators. -/
def levels : List Char → List (List Char)
  | [] => [[]]
  | c :: r =>
    if c = '/' then [] :: levels r
    else match levels r with
      | [] => [[c]]
      | l :: ls => (c :: l) :: ls

/-- A level with a joker. -/
def WildIn (l : List Char) : Prop := '*' ∈ l ∨ '?' ∈ l

instance (l) : Decidable (WildIn l) := by unfold WildIn; infer_instance

/-- The file `e` of the directory `d`; `none` is the current directory. -/
def inDir (d : Option (List Char)) (e : List Char) : List Char :=
  match d with
  | none => e
  | some d => if d.getLast? = some '/' then d ++ e else d ++ '/' :: e

/-- The names in a directory. -/
def namesIn (fs : FileSys) (d : Option (List Char)) : List (List Char) := (fs.list (d.getD ['.'])).getD []

/-- The names `.` and `..`. -/
def Dots (e : List Char) : Prop := e = ['.'] ∨ e = ['.', '.']

instance (l) : Decidable (Dots l) := by unfold Dots; infer_instance

/-- The names in a directory a search looks at: `hide` leaves out `.` and `..`. -/
def shown (fs : FileSys) (hide : Bool) (d : Option (List Char)) : List (List Char) :=
  (namesIn fs d).filter fun e => !(hide && decide (Dots e))

/-- The files `leaf d l` for the last level `l` in the directories `d` selected by the other levels. -/
def selected (fs : FileSys) (m : List Char → List Char → Bool) (hide : Bool) (leaf : Option (List Char) → List Char → List (List Char)) :
    Option (List Char) → List (List Char) → List (List Char)
  | _, [] => []
  | d, [l] => leaf d l
  | d, l :: l' :: ls =>
    if WildIn l then
      ((shown fs hide d).filter fun e => m l e && fs.isDir (inDir d e)).flatMap fun e =>
        selected fs m hide leaf (some (inDir d e)) (l' :: ls)
    else if fs.isDir (inDir d l) then selected fs m hide leaf (some (inDir d l)) (l' :: ls)
    else []

/-- The files in one directory for the last level. -/
def here (fs : FileSys) (m : List Char → List Char → Bool) (hide : Bool) (d : Option (List Char)) (l : List Char) : List (List Char) :=
  if WildIn l then ((shown fs hide d).filter (m l)).map (inDir d)
  else if fs.isReg (inDir d l) || fs.isDir (inDir d l) then [inDir d l] else []

/-- The files a pattern finds. -/
def matching (fs : FileSys) (m : List Char → List Char → Bool) (hide : Bool) (pat : List Char) : List (List Char) :=
  match pat with
  | '/' :: r => selected fs m hide (here fs m hide) (some ['/']) (levels r)
  | _ => selected fs m hide (here fs m hide) none (levels pat)

/-- The files below a directory whose names match `l`, with at most `k` directories one in the other: each directory with what is below
it, the directory first if `pre`, last otherwise. -/
def deep (fs : FileSys) (m : List Char → List Char → Bool) (hide pre : Bool) : Nat → Option (List Char) → List Char → List (List Char)
  | 0, _, _ => []
  | k + 1, d, l => (shown fs hide d).flatMap fun e =>
      (if pre && m l e then [inDir d e] else []) ++
      (if fs.isDir (inDir d e) && !decide (Dots e) then deep fs m hide pre k (some (inDir d e)) l else []) ++
      (if !pre && m l e then [inDir d e] else [])

/-- There are fewer than `k` directories one in the other below `d`. -/
def Depth (fs : FileSys) : Nat → Option (List Char) → Prop
  | 0, _ => False
  | k + 1, d => ∀ e ∈ namesIn fs d, ¬ Dots e → fs.isDir (inDir d e) = true → Depth fs k (some (inDir d e))

/-- The files a pattern finds in a search of subdirectories. -/
def matchingBelow (fs : FileSys) (m : List Char → List Char → Bool) (hide pre : Bool) (k : Nat) (pat : List Char) : List (List Char) :=
  match pat with
  | '/' :: r => selected fs m hide (deep fs m hide pre k) (some ['/']) (levels r)
  | _ => selected fs m hide (deep fs m hide pre k) none (levels pat)

/-- `b` is inside the directory `a`. -/
def Within (b a : List Char) : Prop := ∃ e, b = a ++ '/' :: e

/-- `d'` is `d` or a directory below it. -/
inductive Below (fs : FileSys) : Option (List Char) → Option (List Char) → Prop
  | here (d) : Below fs d d
  | down {d e d'} : e ∈ namesIn fs d → ¬ Dots e → fs.isDir (inDir d e) = true → Below fs (some (inDir d e)) d' → Below fs d d'

/-- What holds in every file system. -/
structure FileSysLaws (fs : FileSys) : Prop where
  /-- Nothing is a file and a directory. -/
  one : ∀ p, fs.isReg p = true → fs.isDir p = false
  /-- What is listed is a directory. -/
  listed : ∀ p, fs.list p ≠ none → fs.isDir p = true
  /-- Names are not empty and have no separator. -/
  name : ∀ p es, fs.list p = some es → ∀ e ∈ es, e ≠ [] ∧ '/' ∉ e
  /-- A directory has no two files of the same name. -/
  nodup : ∀ p es, fs.list p = some es → es.Nodup
  /-- What precedes a separator is a directory. -/
  parent : ∀ p e, p ≠ [] → fs.isReg (p ++ '/' :: e) = true ∨ fs.isDir (p ++ '/' :: e) = true → fs.isDir p = true

end PBat.Spec
