import Verif.Model.Tea
import Verif.Model.Shift
/-
Model of the output as HTML of the program TEA, `tea/src/out/tea_html_out.c`.

Simplifications: allocations succeed; the files of the options are read as texts; the name of the encoding is a text.
-/
namespace PBat

/-- `Tea_HtmlEscapeChar`, tea/src/out/tea_html_out.c:421-427, which `Tea_HtmlParseHandler`, 406-419, calls for the source. -/
def teaHtmlEscape (s : List Char) : Res (List Char) := do
  let s ← replaceIn ['&'] ['&', 'a', 'm', 'p', ';'] s
  let s ← replaceIn ['<'] ['&', 'l', 't', ';'] s
  replaceIn ['>'] ['&', 'g', 't', ';'] s

/-- `strrchr`. C library. -/
def teaLastAt (d : Char) : List Char → Option (List Char)
  | [] => none
  | c :: s => match teaLastAt d s with
    | some t => some t
    | none => if c = d then some (c :: s) else none

/-- The extension of the target of a link, tea/src/out/tea_html_out.c:352-369. -/
def teaExt (md : Bool) (target : List Char) : List Char :=
  let ext := (teaLastAt '/' target).getD target
  let ext := if ext.contains '.' then [] else ['.', 'h', 't', 'm', 'l']
  if ['h', 't', 't', 'p', ':', '/', '/'].isPrefixOf target ∨ ['h', 't', 't', 'p', 's', ':', '/', '/'].isPrefixOf target ∨
    ['m', 'a', 'i', 'l', ':', '/', '/'].isPrefixOf target ∨ md then [] else ext

/-- A part of a paragraph, tea/src/out/tea_html_out.c:350-398. -/
def teaHtmlNode (md first : Bool) (n : TeaNode) : List Char :=
  match n.kind with
  | .plain => if first ∧ n.content.head? = some '-' then n.content.drop 1 else n.content
  | .link => ['<', 'a', ' ', 'h', 'r', 'e', 'f', '=', '"'] ++ n.target ++ teaExt md n.target ++ ['"', '>'] ++ n.content ++ ['<', '/', 'a', '>']
  | .emph => ['<', 's', 't', 'r', 'o', 'n', 'g', '>'] ++ n.content ++ ['<', '/', 's', 't', 'r', 'o', 'n', 'g', '>']

/-- `Tea_HtmlOutputParagraph`, tea/src/out/tea_html_out.c:343-404. -/
def teaHtmlNodes (md first : Bool) : List TeaNode → List Char
  | [] => []
  | n :: ns => teaHtmlNode md first n ++ teaHtmlNodes md false ns

/-- `</li></ul>\n`. -/
def teaLiDown : List Char := ['<', '/', 'l', 'i', '>', '<', '/', 'u', 'l', '>', '\n']

/-- `<ul><li>\n`. -/
def teaLiUp : List Char := ['<', 'u', 'l', '>', '<', 'l', 'i', '>', '\n']

/-- The loops on `iLastLevel`, tea/src/out/tea_html_out.c:239-251 and 268-280. -/
def teaHtmlLevels (last level : Nat) : List Char :=
  (List.replicate (last - level) teaLiDown).flatten ++ (List.replicate (level - last) teaLiUp).flatten

/-- A block, tea/src/out/tea_html_out.c:206-301; `first` is that `lpHeadTag` is still `<h1>`. -/
def teaHtmlBlock (md : Bool) (last : Nat) (first : Bool) (b : TeaBlock × List TeaNode) : Res (List Char) :=
  match b.1.kind with
  | .heading => do
    let s ← replaceIn ['\n'] ['<', 'b', 'r', ' ', '/', '>'] b.1.content
    let n := if first then '1' else '2'
    pure (teaHtmlLevels last 0 ++ ['<', 'h', n, '>'] ++ s ++ ['<', '/', 'h', n, '>'] ++ ['\n', '\n'])
  | .code => do
    let s ← replaceIn ['\n'] ['<', 'b', 'r', ' ', '/', '>'] b.1.content
    pure (teaHtmlLevels last b.1.level ++ ['<', 'p', 'r', 'e', '>', '<', 'c', 'o', 'd', 'e', '>'] ++ s ++
      ['<', '/', 'c', 'o', 'd', 'e', '>', '<', '/', 'p', 'r', 'e', '>'] ++ ['\n', '\n'])
  | .par =>
    pure (teaHtmlLevels last b.1.level ++ (if ¬ last < b.1.level ∧ b.1.noMark = false ∧ b.1.level ≠ 0 then ['<', '/', 'l', 'i', '>', '<', 'l', 'i', '>'] else []) ++
      ['<', 'p', '>'] ++ teaHtmlNodes md true b.2 ++ ['<', '/', 'p', '>'] ++ ['\n', '\n'])

/-- The blocks and the ends of the lists, tea/src/out/tea_html_out.c:204-315. -/
def teaHtmlBody (md : Bool) (last : Nat) (first : Bool) : List (TeaBlock × List TeaNode) → Res (List Char)
  | [] => .ok (List.replicate last teaLiDown).flatten
  | b :: bs => do
    let o ← teaHtmlBlock md last first b
    let os ← teaHtmlBody md (if b.1.kind = .heading then 0 else b.1.level) (first && b.1.kind != .heading) bs
    pure (o ++ os)

/-- `Tea_HtmlGetTitle`, tea/src/out/tea_html_out.c:429-446. -/
def teaHtmlTitle (p : List (TeaBlock × List TeaNode)) : List Char := ((p.find? fun b => b.1.kind == .heading).map (·.1.content)).getD []

/-- `lpEsTitle`, `lpEsMeta`, `lpEsHead`, `lpEsFoot`, `lpEsEncoding` and `iCompMode`. -/
structure TeaHtmlOptions where
  title : List Char := []
  metas : List Char := []
  head : List Char := []
  foot : List Char := []
  encoding : List Char := []
  mode : Nat := 0

/-- What precedes `<meta`, tea/src/out/tea_html_out.c:143-149, 162-168 and 183-189. -/
def teaHtmlStart (mode : Nat) : List Char :=
  if mode = 0 then "<!DOCTYPE html>\n<!--\n\tThis HTML5 compliant page was generated by the\n\tTEA text processor (version 2.0)\n\n\tLearn more or get involved at http://www.picobat.org\n-->\n<html>\n<head>\n<meta charset=\"".toList
  else if mode = 1 then "<!DOCTYPE HTML PUBLIC \"-//W3C//DTD HTML 4.01//EN\" \"http://www.w3c.org/TR/html4/strict.dtd\">\n<!--\n\tThis HTML 4.01 compliant page was generated by the\n\tTEA text processor (version 2.0)\n\n\tLearn more or get involved at http://www.picobat.org\n-->\n<html>\n<head>\n<meta http-equiv=\"Content-Type\" content=\"text/html; charset=".toList
  else "<!DOCTYPE html PUBLIC \"-//W3C//DTD//XHTML 1.0 Strict//EN\" \"http://www.w3c.org/TR/xhtml1/DTD/xhtml1-strict.dtd\">\n<!--\n\tThis xHTML 1.1 compliant page was generated by the\n\tTEA text processor (version 2.0)\n\n\tLearn more or get involved at http://www.picobat.org\n-->\n<html xmlns=\"http://www.w3c.org/1999/xhtml\">\n<head>\n<meta http-equiv=\"Content-Type\" content=\"text/html; charset=".toList

/-- What is before the blocks, tea/src/out/tea_html_out.c:136-202. -/
def teaHtmlHead (o : TeaHtmlOptions) (p : List (TeaBlock × List TeaNode)) : List Char :=
  let title := o.title ++ teaHtmlTitle p
  if o.mode = 3 then "---\nTitle: ".toList ++ title ++ "\nDescription: ".toList ++ title ++ "\ntemplate: index\n---\n\n".toList
  else teaHtmlStart o.mode ++ o.encoding ++ "\" />\n<title>".toList ++ title ++ "</title>\n".toList ++ o.metas ++ "\n</head>\n<body>\n".toList ++ o.head ++ ['\n']

/-- What is after, tea/src/out/tea_html_out.c:317-322. -/
def teaHtmlFoot (o : TeaHtmlOptions) : List Char := if o.mode = 3 then [] else o.foot ++ "\n</body>\n</html>".toList

/-- `Tea_HtmlOutputHandler` after its options, tea/src/out/tea_html_out.c:134-330. -/
def teaHtml (o : TeaHtmlOptions) (p : List (TeaBlock × List TeaNode)) : Res (List Char) := do
  let b ← teaHtmlBody (o.mode == 3) 0 true p
  pure (teaHtmlHead o p ++ b ++ teaHtmlFoot o)

/-- The program with `/O:HTML`, tea/src/tea.c:80-86 and 152-178: the text of the source to that of the output; `none` if the source is not read. -/
def teaHtmlRun (o : TeaHtmlOptions) (src : List Char) : Res (Option (List Char)) := do
  let s ← teaHtmlEscape src
  match teaPage id s with
  | none => .ok none
  | some p => do
    let t ← teaHtml o p
    .ok (some t)

end PBat
