import Verif.Model.Pipe
/-
Specification of pipelines: which streams every command gets, from the text of the commands alone.
-/
namespace PBat.Spec
open PBat.Pipe

variable {ι φ : Type}

/-- The three streams of a command. -/
structure Streams (φ : Type) where
  inp : Chan φ
  out : Chan φ
  err : Chan φ

/-- `< f`, `> f`, `2> f`, then `2>&1`. -/
def Streams.under (s : Streams φ) (r : Redirs φ) : Streams φ :=
  let i := (r.inp.map .file).getD s.inp
  let o := (r.out.map .file).getD s.out
  let e := (r.err.map .file).getD s.err
  ⟨i, o, if r.merge then o else e⟩

/-- The commands that run, with their streams; the number of clones started so far; whether EXIT was met. -/
abbrev Run (ι φ : Type) := List (Event ι φ) × Nat × Bool

mutual
/-- A command of the thread `π`. -/
def usesC (π : Name) : Cmd ι φ → Streams φ → Nat → Run ι φ
  | .run i, s, n => ([⟨π, i, s.inp, s.out, s.err⟩], n, false)
  | .exit, _, n => ([], n, true)
  | .block b, s, n => usesB π b s n
  | .start b, s, n => ((usesB (n :: π) b s 0).1, n + 1, false)
  | .feed b body, s, n =>
    let q := usesB π body s (n + 1)
    ((usesB (n :: π) b { s with out := .wr (n :: π) } 0).1 ++ q.1, q.2)
/-- Commands that follow each other: none after EXIT. -/
def usesB (π : Name) : Cmds ι φ → Streams φ → Nat → Run ι φ
  | .nil, _, n => ([], n, false)
  | .cons p rest, s, n =>
    let r := usesL π p s n
    if r.2.2 then r else
      let q := usesB π rest s r.2.1
      (r.1 ++ q.1, q.2)
/-- A pipeline: each command writes into the pipe the next one reads. -/
def usesL (π : Name) : Line ι φ → Streams φ → Nat → Run ι φ
  | .last r c, s, n => usesC π c (s.under r) n
  | .pipe r c rest, s, n =>
    let q := usesL π rest { s with inp := .rd (n :: π) } (n + 1)
    ((usesC (n :: π) c (Streams.under { s with out := .wr (n :: π) } r) 0).1 ++ q.1, q.2)
end

mutual
/-- No `> f` for a part of a command that has `2>&1`. -/
def UnmixedC : Bool → Cmd ι φ → Prop
  | _, .run _ => True
  | _, .exit => True
  | m, .block b => UnmixedB m b
  | _, .start b => UnmixedB false b
  | m, .feed b body => UnmixedB false b ∧ UnmixedB m body
/-- See `UnmixedC`. -/
def UnmixedB : Bool → Cmds ι φ → Prop
  | _, .nil => True
  | m, .cons p rest => UnmixedL m p ∧ UnmixedB m rest
/-- See `UnmixedC`. -/
def UnmixedL : Bool → Line ι φ → Prop
  | m, .last r c => (m = true → r.out = none) ∧ UnmixedC (r.merge || (m && r.err.isNone)) c
  | m, .pipe r c rest => UnmixedC r.merge c ∧ UnmixedL m rest
end

mutual
/-- EXIT only where it is allowed: in a member of a pipeline or a clone, but not in the loop of a FOR /F. -/
def TidyC : Bool → Cmd ι φ → Prop
  | _, .run _ => True
  | ok, .exit => ok = true
  | ok, .block b => TidyB ok b
  | _, .start b => TidyB true b
  | _, .feed b body => TidyB true b ∧ TidyB false body
/-- See `TidyC`. -/
def TidyB : Bool → Cmds ι φ → Prop
  | _, .nil => True
  | ok, .cons p rest => TidyL ok p ∧ TidyB ok rest
/-- See `TidyC`. -/
def TidyL : Bool → Line ι φ → Prop
  | ok, .last _ c => TidyC ok c
  | ok, .pipe _ c rest => TidyC true c ∧ TidyL ok rest
end

/-- A process in which the interpreter has three descriptors of its own, and no pipes yet. -/
structure Fresh (tab : Nat → Option (Chan φ)) (regs : Reg → Nat) (i o e : φ) : Prop where
  inp : tab (regs .inp) = some (.file i)
  out : tab (regs .out) = some (.file o)
  err : tab (regs .err) = some (.file e)
  apart : regs .inp ≠ regs .out ∧ regs .inp ≠ regs .err ∧ regs .out ≠ regs .err
  files : ∀ fd c, tab fd = some c → ∃ f, c = .file f

/-- A thread that is over. -/
def Over (s : Sys ι φ) (i : Nat) : Prop := (s.thr i).prog = .done

/-- All threads are over. -/
def AllOver (s : Sys ι φ) : Prop := ∀ i < s.size, Over s i

end PBat.Spec
