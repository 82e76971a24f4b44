/-
Specification of the language of the program TEA, as described in man/en_US/tea_syntax.tea.
-/
namespace PBat.Spec

/-- A character as it is written: by itself, or escaped. -/
inductive DocTok where
  | plain (c : Char)
  | esc (c : Char)
  deriving DecidableEq

def DocTok.src : DocTok → List Char
  | .plain c => [c]
  | .esc c => ['\\', c]

/-- How a text is written. -/
def srcOf (ts : List DocTok) : List Char := (ts.map DocTok.src).flatten

/-- What separates words. -/
def docSpace (c : Char) : Bool := c == ' ' || c == '\t' || c == '\n'

def DocTok.blank : DocTok → Bool
  | .plain c => docSpace c
  | .esc _ => false

/-- What is shown of a character after another: one blank for those that separate two words. -/
def showTok (prev : Option DocTok) : DocTok → List Char
  | .esc c => [c]
  | .plain c => if docSpace c then (if prev.all DocTok.blank then [] else [' ']) else [c]

/-- What is shown of a text. -/
def showFrom (prev : Option DocTok) : List DocTok → List Char
  | [] => []
  | t :: ts => showTok prev t ++ showFrom (some t) ts

/-- A text in which `c` is written only escaped. -/
def NoPlain (c : Char) (ts : List DocTok) : Prop := DocTok.plain c ∉ ts

instance (c : Char) (ts : List DocTok) : Decidable (NoPlain c ts) := inferInstanceAs (Decidable (¬ _))

/-- What is in braces: an emphasis, or a link. -/
inductive DocInline where
  | emph (ts : List DocTok)
  | link (target text : List DocTok)

def DocInline.src : DocInline → List Char
  | .emph ts => '{' :: srcOf ts ++ ['}']
  | .link target text => '{' :: srcOf target ++ '|' :: srcOf text ++ ['}']

def DocInline.Ok : DocInline → Prop
  | .emph ts => NoPlain '\\' ts ∧ NoPlain '}' ts ∧ NoPlain '|' ts
  | .link target text => NoPlain '\\' target ∧ NoPlain '}' target ∧ NoPlain '|' target ∧ NoPlain '\\' text ∧ NoPlain '}' text

/-- The text of a paragraph. -/
structure DocText where
  first : List DocTok
  more : List (DocInline × List DocTok)

def moreSrc : List (DocInline × List DocTok) → List Char
  | [] => []
  | x :: xs => x.1.src ++ srcOf x.2 ++ moreSrc xs

def DocText.src (t : DocText) : List Char := srcOf t.first ++ moreSrc t.more

structure DocText.Ok (t : DocText) : Prop where
  first : NoPlain '\\' t.first ∧ NoPlain '{' t.first
  more : ∀ x ∈ t.more, x.1.Ok ∧ NoPlain '\\' x.2 ∧ NoPlain '{' x.2

/-- A paragraph: of a list of some level, of which the mark may be hidden. -/
structure DocPar where
  hide : Bool
  level : Nat
  text : DocText

def DocPar.src (p : DocPar) : List Char := (if p.hide then ['@'] else []) ++ List.replicate p.level '-' ++ p.text.src

/-- The text with the mark that is shown. -/
def DocPar.shown (p : DocPar) : DocText := if p.hide = false ∧ 0 < p.level then ⟨.plain '-' :: p.text.first, p.text.more⟩ else p.text

structure DocPar.Ok (p : DocPar) : Prop where
  text : p.text.Ok
  solid : p.src.head?.all docSpace = false
  noDash : p.text.src.head? ≠ some '-'
  noAt : p.hide = false → p.level = 0 → p.text.src.head? ≠ some '@'
  some : p.hide = true → ∃ c ∈ p.text.src, docSpace c = false

/-- An empty line in a text. -/
def HasGap (s : List Char) : Prop := ∃ a b c, s = a ++ '\n' :: b ++ '\n' :: c ∧ ∀ x ∈ b, x = ' ' ∨ x = '\t'

/-- What separates paragraphs. -/
inductive IsGap : List Char → Prop
  | mk {b w} : (∀ x ∈ b, x = ' ' ∨ x = '\t') → (∀ x ∈ w, docSpace x = true) → IsGap ('\n' :: b ++ '\n' :: w)

/-- Some paragraphs: all that are followed by empty lines, and one that may be not. -/
structure DocRegion where
  lead : List Char
  pars : List (DocPar × List Char)
  last : Option DocPar

def parsSrc : List (DocPar × List Char) → List Char
  | [] => []
  | x :: xs => x.1.src ++ x.2 ++ parsSrc xs

def lastSrc (l : Option DocPar) : List Char := (l.map DocPar.src).getD []

def DocRegion.src (r : DocRegion) : List Char := r.lead ++ parsSrc r.pars ++ lastSrc r.last

def DocRegion.list (r : DocRegion) : List DocPar := r.pars.map Prod.fst ++ r.last.toList

structure DocRegion.Ok (r : DocRegion) : Prop where
  lead : ∀ c ∈ r.lead, docSpace c = true
  pars : ∀ x ∈ r.pars, x.1.Ok ∧ IsGap x.2 ∧ ¬ HasGap (x.1.src ++ ['\n'])
  last : ∀ p, r.last = some p → p.Ok ∧ ¬ HasGap p.src

/-- Text in which braces come in pairs. -/
inductive BracePairs : List Char → Prop
  | nil : BracePairs []
  | char {c s} : c ≠ '\\' → c ≠ '{' → c ≠ '}' → BracePairs s → BracePairs (c :: s)
  | esc {c s} : BracePairs s → BracePairs ('\\' :: c :: s)
  | pair {s t} : BracePairs s → BracePairs t → BracePairs ('{' :: s ++ '}' :: t)

/-- A title, or code. -/
inductive DocSpecial where
  | heading (ts : List DocTok)
  | code (c : List Char)

def DocSpecial.src : DocSpecial → List Char
  | .heading ts => '{' :: '{' :: srcOf ts ++ ['}', '}']
  | .code c => '$' :: '{' :: c ++ ['}']

/-- A text with two characters beside each other. -/
def HasPair (a b : Char) (s : List Char) : Prop := ∃ x y, s = x ++ a :: b :: y

inductive DocSpecial.Ok : DocSpecial → Prop
  | heading {ts} : NoPlain '\\' ts → ¬ HasPair '}' '}' (srcOf ts ++ ['}']) → (∀ a c b x, ts = a ++ .esc c :: .plain x :: b → docSpace x = false) →
      (∃ c ∈ showFrom none ts, docSpace c = false) → Ok (.heading ts)
  | code {c} : BracePairs c → (∃ x ∈ c, docSpace x = false) → Ok (.code c)

/-- A page. -/
structure DocPage where
  start : DocRegion
  more : List (DocSpecial × DocRegion)

def pageMore : List (DocSpecial × DocRegion) → List Char
  | [] => []
  | x :: xs => x.1.src ++ x.2.src ++ pageMore xs

def DocPage.src (d : DocPage) : List Char := d.start.src ++ pageMore d.more

/-- A region that is not taken for a title or code, before other things (`some`) or at the end of the page. -/
def NotOpen (s : List Char) : Prop := ¬ HasPair '{' '{' s ∧ ¬ HasPair '$' '{' s

/-- The region is followed by something if `next`. -/
def regionOpen (r : DocRegion) (next : Bool) : Prop := r.Ok ∧ NotOpen (r.src ++ if next then ['{'] else [])

inductive MoreOk : List (DocSpecial × DocRegion) → Prop
  | nil : MoreOk []
  | cons {x xs} : x.1.Ok → regionOpen x.2 (!xs.isEmpty) → MoreOk xs → MoreOk (x :: xs)

structure DocPage.Ok (d : DocPage) : Prop where
  start : regionOpen d.start (!d.more.isEmpty)
  more : MoreOk d.more

/-- What a page is made of. -/
inductive DocItem where
  | par (p : DocPar)
  | special (s : DocSpecial)

def itemsMore : List (DocSpecial × DocRegion) → List DocItem
  | [] => []
  | x :: xs => .special x.1 :: x.2.list.map .par ++ itemsMore xs

def DocPage.items (d : DocPage) : List DocItem := d.start.list.map .par ++ itemsMore d.more

end PBat.Spec
