import Verif.Spec.TeaSyntax
/-
Specification of the part of HTML that is needed for pages: how it is read, and what is to be read of a page of the program TEA.
-/
namespace PBat.Spec

/-! ### Reading HTML -/

/-- What HTML is made of: characters, ends of lines, tags. -/
inductive HTok where
  | char (c : Char)
  | line
  | opening (name : List Char) (href : Option (List Char))
  | closing (name : List Char)
  deriving DecidableEq, Repr

/-- A character that is written by its name. -/
def htmlRef (n : List Char) : Option Char :=
  if n = ['a', 'm', 'p'] then some '&' else if n = ['l', 't'] then some '<' else if n = ['g', 't'] then some '>' else none

/-- The value of an attribute; `r` is the name of a character that has begun. -/
def htmlValue (r : Option (List Char)) : List Char → Option (List Char)
  | [] => if r.isNone then some [] else none
  | c :: s => match r with
    | none => if c = '&' then htmlValue (some []) s else if c = '<' ∨ c = '>' ∨ c = '"' then none else (htmlValue none s).map (c :: ·)
    | some n => if c = ';' then (htmlRef n).bind fun d => (htmlValue none s).map (d :: ·) else htmlValue (some (n ++ [c])) s

/-- The name of a tag. -/
def tagName (n : List Char) : Option (List Char) := if n ≠ [] ∧ n.all Char.isAlphanum then some n else none

/-- The text between `<` and `>`. -/
def htmlTag (t : List Char) : Option HTok :=
  if t = ['b', 'r', ' ', '/'] then some .line
  else if t.head? = some '/' then (tagName (t.drop 1)).map .closing
  else if ['a', ' ', 'h', 'r', 'e', 'f', '=', '"'].isPrefixOf t then
    if t.getLast? = some '"' ∧ 8 < t.length then (htmlValue none ((t.drop 8).dropLast)).map fun v => .opening ['a'] (some v) else none
  else (tagName t).map fun n => .opening n none

/-- Whether a tag, or the name of a character, has begun. -/
inductive LexMode where
  | text
  | tag (t : List Char)
  | ref (n : List Char)

/-- HTML into what it is made of. -/
def lexHtml : LexMode → List Char → Option (List HTok)
  | .text, [] => some []
  | _, [] => none
  | .text, c :: s =>
    if c = '<' then lexHtml (.tag []) s
    else if c = '&' then lexHtml (.ref []) s
    else if c = '>' then none
    else (lexHtml .text s).map (.char c :: ·)
  | .tag t, c :: s =>
    if c = '>' then (htmlTag t).bind fun k => (lexHtml .text s).map (k :: ·)
    else lexHtml (.tag (t ++ [c])) s
  | .ref n, c :: s =>
    if c = ';' then (htmlRef n).bind fun d => (lexHtml .text s).map (.char d :: ·)
    else lexHtml (.ref (n ++ [c])) s

/-- How a character is shown. -/
inductive HStyle where
  | normal
  | strong
  | link (target : List Char)
  deriving DecidableEq, Repr

/-- What is seen in a page: titles, paragraphs and code, in how many lists they are, whether they begin an item, and their text. -/
structure Seen where
  tag : List Char
  depth : Nat
  fresh : Bool
  text : List (HStyle × Char)
  deriving DecidableEq, Repr

/-- Where the reader is: between blocks, in a list but in none of its items, in a block, in `<pre>` before or after `<code>`. -/
inductive HState where
  | flow (depth : Nat) (fresh : Bool)
  | items (depth : Nat)
  | block (tag : List Char) (depth : Nat) (fresh : Bool) (style : HStyle) (text : List (HStyle × Char))
  | pre (depth : Nat) (fresh : Bool)
  | endPre (depth : Nat)

/-- In a block: an end of line in the source is a blank, save in code. -/
def readText (tag : List Char) (depth : Nat) (fresh : Bool) (style : HStyle) (text : List (HStyle × Char)) : HTok → Option (HState × List Seen)
  | .char c => some (.block tag depth fresh style (text ++ [(style, if c = '\n' ∧ tag ≠ ['c', 'o', 'd', 'e'] then ' ' else c)]), [])
  | .line => some (.block tag depth fresh style (text ++ [(style, '\n')]), [])
  | .opening n href => match style, href with
    | .normal, none => if n = ['s', 't', 'r', 'o', 'n', 'g'] then some (.block tag depth fresh .strong text, []) else none
    | .normal, some h => if n = ['a'] then some (.block tag depth fresh (.link h) text, []) else none
    | _, _ => none
  | .closing n => match style with
    | .normal =>
      if n = tag then
        some (if tag = ['c', 'o', 'd', 'e'] then .endPre depth else .flow depth false, [⟨tag, depth, fresh, text⟩])
      else none
    | .strong => if n = ['s', 't', 'r', 'o', 'n', 'g'] then some (.block tag depth fresh .normal text, []) else none
    | .link _ => if n = ['a'] then some (.block tag depth fresh .normal text, []) else none

def readStep : HState → HTok → Option (HState × List Seen)
  | .flow depth fresh, .char c => if docSpace c then some (.flow depth fresh, []) else none
  | .flow depth fresh, .opening n none =>
    if n = ['u', 'l'] then some (.items (depth + 1), [])
    else if n = ['p', 'r', 'e'] then some (.pre depth fresh, [])
    else if n = ['p'] ∨ n = ['h', '1'] ∨ n = ['h', '2'] then some (.block n depth fresh .normal [], [])
    else none
  | .flow (depth + 1) _, .closing n => if n = ['l', 'i'] then some (.items (depth + 1), []) else none
  | .items depth, .opening n none => if n = ['l', 'i'] then some (.flow depth true, []) else none
  | .items (depth + 1), .closing n => if n = ['u', 'l'] then some (.flow depth false, []) else none
  | .pre depth fresh, .opening n none => if n = ['c', 'o', 'd', 'e'] then some (.block n depth fresh .normal [], []) else none
  | .endPre depth, .closing n => if n = ['p', 'r', 'e'] then some (.flow depth false, []) else none
  | .block tag depth fresh style text, t => readText tag depth fresh style text t
  | _, _ => none

/-- What is seen in HTML; it must end outside all tags. -/
def readToks : HState → List HTok → Option (List Seen)
  | .flow 0 _, [] => some []
  | _, [] => none
  | st, t :: ts => (readStep st t).bind fun r => (readToks r.1 ts).map (r.2 ++ ·)

def readHtml (s : List Char) : Option (List Seen) := (lexHtml .text s).bind (readToks (.flow 0 false))

/-! ### What is to be seen -/

/-- The target of a link has an extension if there is a dot after its last slash; links to elsewhere have none. -/
def withExtension (t : List Char) : List Char :=
  if (t.reverse.takeWhile (· != '/')).contains '.' ∨ ['h', 't', 't', 'p', ':', '/', '/'].isPrefixOf t ∨ ['h', 't', 't', 'p', 's', ':', '/', '/'].isPrefixOf t ∨
    ['m', 'a', 'i', 'l', ':', '/', '/'].isPrefixOf t then t else t ++ ['.', 'h', 't', 'm', 'l']

def DocTok.chr : DocTok → Char
  | .plain c => c
  | .esc c => c

def inlinePart : DocInline → HStyle × List DocTok
  | .emph ts => (.strong, ts)
  | .link target text => (.link (withExtension (target.map DocTok.chr)), text)

def moreParts : List (DocInline × List DocTok) → List (HStyle × List DocTok)
  | [] => []
  | x :: xs => inlinePart x.1 :: (.normal, x.2) :: moreParts xs

/-- The parts of a text. -/
def textParts (t : DocText) : List (HStyle × List DocTok) := (.normal, t.first) :: moreParts t.more

/-- What is shown of them, after a character. -/
def showParts (p : Option DocTok) : List (HStyle × List DocTok) → List (HStyle × Char)
  | [] => []
  | x :: xs => (showFrom p x.2).map (fun c => (x.1, c)) ++ showParts (x.2.getLast?.or p) xs

/-- The mark of an item that is shown. -/
def DocPar.marked (p : DocPar) : Bool := !p.hide && 0 < p.level

/-- What is to be seen of a page: the first title is the greatest; paragraphs are in as many lists as their level, those with a mark begin an item;
code is in the item before. -/
def seenPage : Bool → Nat → List DocItem → List Seen
  | _, _, [] => []
  | first, last, .par p :: is =>
    ⟨['p'], p.level, p.marked || last < p.level, showParts (if p.marked then some (.plain '-') else none) (textParts p.text)⟩ :: seenPage first p.level is
  | first, _, .special (.heading ts) :: is => ⟨if first then ['h', '1'] else ['h', '2'], 0, false, (showFrom none ts).map fun c => (.normal, c)⟩ :: seenPage false 0 is
  | first, last, .special (.code c) :: is =>
    ⟨['c', 'o', 'd', 'e'], last, false, c.map fun c => (.normal, if c = '\t' then ' ' else c)⟩ :: seenPage first last is

end PBat.Spec
