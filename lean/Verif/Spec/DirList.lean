import Verif.Spec.Env
import Verif.Spec.Attr
import Verif.Spec.Search
import Verif.Spec.Files
import Verif.Model.DirList
/-
Specification of the command DIR, as described in man/en_US/dir.tea.
-/
namespace PBat.Spec

/-- What a parameter of DIR asks: only names, subdirectories, attributes, or the files of a name. -/
inductive DirItem where
  | bare
  | deep
  | attr (l : List (Attr × Bool))
  | name (n : List Char)

/-- How it is written, whatever the case of the letters. -/
inductive DirWord : List Char → DirItem → Prop
  | bare {p} : fold p = ['/', 'b'] → DirWord p .bare
  | deep {p} : fold p = ['/', 's'] → DirWord p .deep
  | attr {b t l} : b.toLower = 'a' → AttrText t l → DirWord ('/' :: b :: t) (.attr l)
  | attrColon {b t l} : b.toLower = 'a' → AttrText t l → DirWord ('/' :: b :: ':' :: t) (.attr l)
  | name {n} : fold n ≠ ['/', 'b'] → fold n ≠ ['/', 's'] → n ≠ ['/', '?'] → (∀ b t, n = '/' :: b :: t → b.toLower ≠ 'a') → DirWord n (.name n)

/-- The words of a line. -/
inductive DirWords : List (List Char) → List DirItem → Prop
  | nil : DirWords [] []
  | cons {a i as is} : DirWord a i → DirWords as is → DirWords (a :: as) (i :: is)

/-- A parameter that asks attributes. -/
def isAttrItem : DirItem → Bool
  | .attr _ => true
  | _ => false

/-- A parameter asks only names. -/
def hasBare (is : List DirItem) : Bool := is.any fun i => match i with | .bare => true | _ => false

/-- A parameter asks subdirectories. -/
def hasDeep (is : List DirItem) : Bool := is.any fun i => match i with | .deep => true | _ => false

/-- The last attributes asked. -/
def askedAttr : List DirItem → List (Attr × Bool)
  | [] => []
  | .attr l :: is => if is.any isAttrItem then askedAttr is else l
  | _ :: is => askedAttr is

/-- The names asked. -/
def askedNames : List DirItem → List (List Char)
  | [] => []
  | .name n :: is => n :: askedNames is
  | _ :: is => askedNames is

/-- The unit of a size: a thousand times the one before. -/
inductive SizeUnit : Nat → List Char → Prop
  | o : SizeUnit 0 ['o']
  | ko : SizeUnit 1 ['k', 'o']
  | mo : SizeUnit 2 ['m', 'o']
  | go : SizeUnit 3 ['g', 'o']

/-- The text of a size: it is cut to three digits or fewer, never rounded up. -/
inductive SizeText : Nat → List Char → Prop
  | hundreds {n d i u} : SizeUnit i u → 100 ≤ d → d < 1000 → d * 1000 ^ i ≤ n → n < (d + 1) * 1000 ^ i →
      SizeText n (' ' :: (toString d).toList ++ ' ' :: u)
  | tens {n d i u} : SizeUnit i u → 10 ≤ d → d < 100 → d * 1000 ^ i ≤ n → n < (d + 1) * 1000 ^ i →
      SizeText n (' ' :: ' ' :: (toString d).toList ++ ' ' :: u)
  | ones {n d h i u x y} : SizeUnit i u → d < 10 → (i ≠ 0 → 1 ≤ d) → h < 100 → (d * 100 + h) * 1000 ^ i ≤ n * 100 →
      n * 100 < (d * 100 + h + 1) * 1000 ^ i → (toString (h / 10)).toList = [x] → (toString (h % 10)).toList = [y] →
      SizeText n ((toString d).toList ++ ',' :: x :: y :: ' ' :: u)

end PBat.Spec
namespace PBat.Spec

/-- What a file has. -/
def hasAttr (f : FileStat) : Attr → Bool
  | .void => f.size == 0
  | .archive => f.archive
  | .readonly => f.readonly
  | .hidden => f.hidden
  | .system => f.system
  | .dir => f.dir

/-- A file with the attributes asked. -/
def Wanted (l : List (Attr × Bool)) (f : FileStat) : Prop := ∀ x ∈ l, hasAttr f x.1 = x.2

instance (l f) : Decidable (Wanted l f) := by unfold Wanted; infer_instance

/-- The attributes a filter treats as it should (C34): none asked both ways, neither `-S` nor `-I`, and not `-H` with `S` or `I`. -/
structure GoodAttrs (l : List (Attr × Bool)) : Prop where
  both : ∀ a, ¬ ((a, true) ∈ l ∧ (a, false) ∈ l)
  neg : (Attr.system, false) ∉ l ∧ (Attr.void, false) ∉ l
  hidden : (Attr.hidden, false) ∈ l → (Attr.system, true) ∉ l ∧ (Attr.void, true) ∉ l

/-- The pattern DIR looks for: everything in the current directory if no name is given. -/
def dirPattern (cur : List Char) : List (List Char) → List Char
  | [] => cur ++ ['/', '*']
  | n :: _ => if Rooted n then n else cur ++ '/' :: n

/-- The file shown as `s`: names are relative to the current directory if the one asked is. -/
def dirFile (cur : List Char) (names : List (List Char)) (s : List Char) : List Char :=
  match names with
  | [] => cur ++ '/' :: s
  | n :: _ => if Rooted n then s else cur ++ '/' :: s

/-- One line of the listing: the time of the last change, the size, the attributes and the name. -/
inductive LongRow (i : DirInfo) (s : List Char) : List Char → Prop
  | dir : i.st.dir = true → LongRow i s (i.time ++ ' ' :: '<' :: 'R' :: 'E' :: 'P' :: '>' :: '\t' :: '\t' :: 'D' :: List.replicate 6 ' ' ++ '\t' :: s ++ ['\n'])
  | file {z} : i.st.dir = false → SizeText i.st.size z →
      LongRow i s (i.time ++ List.replicate 8 ' ' ++ z ++ '\t' :: List.replicate 7 ' ' ++ '\t' :: s ++ ['\n'])

/-- The lines of files, in order. -/
inductive LongRows : List (List Char × DirInfo) → List Char → Prop
  | nil : LongRows [] []
  | cons {s i l x y} : LongRow i s x → LongRows l y → LongRows ((s, i) :: l) (x ++ y)

/-- Four tabulations. -/
def tabs4 : List Char := ['\t', '\t', '\t', '\t']

/-- The listing of files: a title, their lines, and the numbers of files and directories. -/
def LongListing (w : DirSys) (es : List (List Char × DirInfo)) (out : List Char) : Prop :=
  ∃ x, LongRows es x ∧
    out = '\n' :: w.title ++ '\n' :: x ++ tabs4 ++ (toString (es.filter fun e => !e.2.st.dir).length).toList ++ ' ' :: w.files ++
      '\n' :: tabs4 ++ (toString (es.filter fun e => e.2.st.dir).length).toList ++ ' ' :: w.dirs ++ ['\n']

/-- Names one on each line. -/
def BareListing (names : List (List Char)) : List Char := names.flatMap fun s => s ++ ['\n']

end PBat.Spec
