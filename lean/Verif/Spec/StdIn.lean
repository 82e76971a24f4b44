import Verif.Model.StdIn
/-
What commands should read: each source of input gives its bytes once and in order, to whoever reads while it is the current one.
-/
namespace PBat.Spec.In
open PBat.In

/-- The bytes the current source has still to give, and those of the sources that were put aside, the last first. -/
structure Src where
  cur : List UInt8
  aside : List (List UInt8)
  deriving DecidableEq, Repr

/-- The first line, with its newline if it has one. -/
def line (t : List UInt8) : List UInt8 := t.takeWhile (· != 10) ++ (t.dropWhile (· != 10)).take 1

/-- What a command reads, and what the sources have left. -/
def step (t : Src) : Op → List UInt8 × Src
  | .getc _ => (t.cur.take 1, { t with cur := t.cur.drop 1 })
  | .gets _ => (line t.cur, { t with cur := t.cur.drop (line t.cur).length })
  | .all _ => (t.cur, { t with cur := [] })
  | .direct n => (t.cur.take n, { t with cur := t.cur.drop n })
  | .openIn d => ([], { cur := d.data.drop d.pos, aside := t.cur :: t.aside })
  | .pop => ([], match t.aside with
    | [] => t
    | c :: r => { cur := c, aside := r })

/-- A history. -/
def run : Src → List Op → List (List UInt8)
  | _, [] => []
  | t, o :: os => (step t o).1 :: run (step t o).2 os

/-- The sources of an interpreter that has read nothing ahead. -/
def sources (s : St) : Src := { cur := s.cur.data.drop s.cur.pos, aside := s.stack.map fun d => d.data.drop d.pos }

/-- The stream has read nothing ahead and has not met the end. -/
def Fresh (s : St) : Prop := s.buf = [] ∧ s.eof = false

/-- Something is changed about the input only when the stream has read nothing ahead and (if that lasts) has not met the end; with a library
that drops what was read ahead, reading ahead of a file does no harm to redirections. -/
def Calm (l : Lib) (s : St) : Op → Prop
  | .direct _ => s.buf = []
  | .openIn _ | .pop =>
    (l.sticky = true → s.eof = false) ∧ (s.buf = [] ∨ (l.sync = .drop ∧ s.cur.seek = true))
  | _ => True

/-- A history in which it is always so. -/
def AllCalm (l : Lib) : St → List Op → Prop
  | _, [] => True
  | s, o :: os => Calm l s o ∧ AllCalm l (PBat.In.step l s o).2 os

/-- Redirections of files only, and nobody reads beside the stream. -/
def Plain : Op → Prop
  | .direct _ => False
  | .openIn d => d.seek = true
  | _ => True

end PBat.Spec.In
