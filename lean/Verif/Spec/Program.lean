import Verif.Model.Program
import Verif.Spec.Run
import Verif.Spec.Parse
import Verif.Spec.Redir
import Verif.Spec.Script
import Verif.Spec.Expand
/-
Specification of running a script: what the lines written in it mean.
-/
namespace PBat.Spec.Prog
open PBat PBat.Spec

/-- A pipeline as written: its first command and the others. -/
abbrev Pipeline := List Char × List (List Char)

/-- A line as written: its first pipeline, and the others with the operators before them. -/
structure SrcLine where
  first : Pipeline
  more : List (Link × Pipeline)

/-- The operator written for a link. -/
def opOf : Link → Op
  | .seq => .seq
  | .and => .and
  | .or => .or

/-- A pipeline after its first command. -/
def pipes (p : Pipeline) : List (Op × List Char) := p.2.map fun c => (.pipe, c)

/-- Everything after the first command of the line. -/
def SrcLine.tail (l : SrcLine) : List (Op × List Char) :=
  pipes l.first ++ l.more.flatMap fun x => (opOf x.1, x.2.1) :: pipes x.2

/-- The text of the line. -/
def SrcLine.text (l : SrcLine) : List Char := written l.first.1 l.tail

/-- The commands of the line. -/
def SrcLine.cmds (l : SrcLine) : List (List Char) := l.first.1 :: l.tail.map (·.2)

/-- The redirections of a command made of the given items. -/
def redirs (full : List Char → List Char) (is : List RedirItem) : Redir (List Char) where
  input := (insOf is).head?.map full
  output := (outsOf false is).head?.map fun p => (full p.2, !p.1)
  error := (outsOf true is).head?.map fun p => (full p.2, !p.1)
  errToOut := (mergesOf is).head? == some true
  outToErr := (mergesOf is).head? == some false

variable {ν W τ : Type}

/-- Opens a file, if there is one to open. -/
def tryOpen (sys : Sys (List Char) ν W τ) (f : Option (List Char × Option Bool)) (w : W) : W × Option τ :=
  match f with
  | none => (w, none)
  | some f => sys.openFile f.1 f.2 w

/-- The last command of a pipeline: the files it names are opened, and it runs once, with the streams of the line except for those it
redirects; the input is the pipe, if there is one. -/
def lastCommand (sys : Sys (List Char) ν W τ) (inp : Option τ) (r : Redir (List Char)) (c : List Char) (st : St W τ) : St W τ :=
  let i := tryOpen sys (r.input.map fun f => (f, none)) st.world
  let o := tryOpen sys (r.output.map fun f => (f.1, some f.2)) i.1
  let e := tryOpen sys (r.error.map fun f => (f.1, some f.2)) o.1
  let si := i.2.getD (inp.getD st.io.inp)
  let so := o.2.getD st.io.out
  let se := e.2.getD st.io.err
  let x := sys.exec c e.1 st.err (if r.errToOut then (si, so, so) else if r.outToErr then (si, se, se) else (si, so, se))
  { st with world := x.1, err := x.2.1, abort := x.2.2 }

/-- A pipeline: all commands but the last are started with the pipes between them, then the last one runs.  `rd` gives the redirections and
the text of a command. -/
def pipelineFrom (sys : Sys (List Char) ν W τ) (rd : List Char → Redir (List Char) × List Char) (inp : Option τ) (c : List Char) :
    List (List Char) → St W τ → St W τ
  | [], st => lastCommand sys inp (rd c).1 (rd c).2 st
  | d :: ds, st =>
    let p := sys.pipe st.world
    pipelineFrom sys rd (some p.2) d ds { st with world := sys.spawn (rd c).1 (.simple (rd c).2) inp p.2 st.abort p.1 }

/-- A line: its pipelines one after the other, as the operators say, until the line is left. -/
def runSrc (sys : Sys (List Char) ν W τ) (rd : List Char → Redir (List Char) × List Char) (l : SrcLine) (st : St W τ) : Option (St W τ) :=
  chain (fun p s => some (pipelineFrom sys rd none p.1 p.2 s)) (·.err) (fun s => s.abort ≠ .no) ((.seq, l.first) :: l.more) st

/-- The line has no pipes. -/
def SrcLine.NoPipes (l : SrcLine) : Prop := l.first.2 = [] ∧ ∀ x ∈ l.more, x.2.2 = []

/-- The text expands to the other one (C13), with the arguments and the variables of that moment. -/
def Means (h : PBat.Prog.Host ν W τ) (w : W) (s t : List Char) : Prop :=
  Expands '%' id (fun s v rest => ArgStart s ∧ LocalValue (h.args w) (h.mods w) s v rest) (fun n => .ok (h.vars w n)) s t

/-- Texts that expand one by one to texts, none of them empty. -/
def Each (ex : List Char → List Char → Prop) : List (List Char) → List (List Char) → Prop
  | [], [] => True
  | c :: cs, t :: ts => ex c t ∧ t ≠ [] ∧ Each ex cs ts
  | _, _ => False

/-- A line of commands as it is written: the commands are joined by the operators, each with its redirections, given by `items`, none of
them twice. -/
structure Sentence (q : Char → Bool) (items : List Char → List RedirItem) (l : SrcLine) : Prop where
  whole : ∃ strict, Whole strict l.text
  joined : WellFormed l.first.1 l.tail
  redirected : ∀ c ∈ l.cmds, RedirCommand q c (items c)
  once : ∀ c ∈ l.cmds, Once (items c)
  noColon : ∀ w r, l.text = w ++ ':' :: r → ∃ c ∈ w, ¬ Blank c

/-- The next line of commands, which may be made of several lines of the script, is expanded with the variables of that moment and runs as
it is written. -/
def Step (q : Char → Bool) (h : PBat.Prog.Host ν W τ) (st st' : St (W × Script) τ) : Prop :=
  ∃ (cs rest ts : List (List Char)) (l : SrcLine) (items : List Char → List RedirItem),
    st.world.2.cmds.drop st.world.2.curr = cs ++ rest ∧ Each (Means h st.world.1) cs ts ∧ ts.flatten = l.text ++ ['\n'] ∧
    Sentence q items l ∧ (∀ c ∈ l.cmds, h.cls (textOf (items c)) = .simple (textOf (items c))) ∧
    runSrc h.base (fun c => (redirs (h.full (h.echo l.text st.world.1)) (items c), textOf (items c))) l
      { st with world := (h.echo l.text st.world.1, { st.world.2 with curr := st.world.2.curr + cs.length }) } = some st' ∧
    (l.NoPipes ∨ st'.abort = .no)

/-- What running a script means, from a state with the script at some line: line by line, from where the commands leave the script, until
they leave it or it ends. -/
inductive Runs (q : Char → Bool) (h : PBat.Prog.Host ν W τ) : St (W × Script) τ → St (W × Script) τ → Prop
  | done {st} : st.world.2.cmds.drop st.world.2.curr = [] → Runs q h st st
  | left {st st'} : Step q h st st' → st'.abort = .level → Runs q h st st'
  | next {st st' st''} : Step q h st st' → st'.abort ≠ .level → Runs q h { st' with abort := .no } st'' → Runs q h st st''

/-- Commands, files and pipes that do not move the script. -/
structure Stays (h : PBat.Prog.Host ν W τ) : Prop where
  exec : ∀ c x e s, (h.base.exec c x e s).1.2 = x.2
  opens : ∀ f m x, (h.base.openFile f m x).1.2 = x.2
  pipe : ∀ x, (h.base.pipe x).1.2 = x.2
  spawn : ∀ r c i t a x, (h.base.spawn r c i t a x).2 = x.2

/-- A script as a list of lines of commands: they run one after the other until the script is left. -/
def program (h : PBat.Prog.Host ν W τ) (items : List Char → List RedirItem) : List SrcLine → St (W × Script) τ → Option (St (W × Script) τ)
  | [], st => some st
  | l :: ls, st =>
    (runSrc h.base (fun c => (redirs (h.full (h.echo l.text st.world.1)) (items c), textOf (items c))) l
      { st with world := (h.echo l.text st.world.1, { st.world.2 with curr := st.world.2.curr + 1 }) }).bind fun st' =>
        if st'.abort = .level then some st' else program h items ls { st' with abort := .no }

end PBat.Spec.Prog
