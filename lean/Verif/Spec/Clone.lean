import Verif.Model.Clone
/-
Specification for copies of the interpreter: what an instance holds, as values, and which cells of memory belong to it.

An assertion describes a part of memory exactly; `P ⋆ Q` describes two parts without common address.
-/
namespace PBat.Spec

/-- Two parts of memory without common address. -/
def Apart (h g : Heap) : Prop := ∀ a, h a = none ∨ g a = none

/-- Both parts together. -/
def both (h g : Heap) : Heap := fun a => match h a with | some o => some o | none => g a

/-- Descriptions of a part of memory. -/
abbrev HProp := Heap → Prop

/-- Nothing. -/
def hemp : HProp := fun h => ∀ a, h a = none

/-- One cell. -/
def pts (a : Nat) (o : HObj) : HProp := fun h => ∀ x, h x = if x = a then some o else none

/-- Two separate parts. -/
def hstar (P Q : HProp) : HProp := fun h => ∃ h1 h2, Apart h1 h2 ∧ h = both h1 h2 ∧ P h1 ∧ Q h2

@[inherit_doc] infixr:60 " ⋆ " => hstar

/-- A fact, and nothing in memory. -/
def fact (φ : Prop) : HProp := fun h => φ ∧ hemp h

/-- Some choice. -/
def hex {α : Type} (P : α → HProp) : HProp := fun h => ∃ x, P x h

/-- Whatever is there (memory that nobody uses any more). -/
def lost : HProp := fun _ => True

/-- Texts, one for each pointer that is not null. -/
def textsAt : List (Option Nat) → List (Option (List Char)) → HProp
  | [], [] => hemp
  | none :: ps, none :: vs => textsAt ps vs
  | some p :: ps, some v :: vs => pts p (.text v) ⋆ textsAt ps vs
  | _, _ => fact False

/-- A block of 128 local variables or arguments, with the values `vs`; codes up to 0x20 are no names. -/
def localsAt (b : Nat) (stack : Bool) (vs : List (Option (List Char))) : HProp :=
  hex fun l => fact (l.length = 128 ∧ vs.take 33 = List.replicate 33 none) ⋆ pts b (.ptrs stack l) ⋆ textsAt l vs

/-- The stack of directories, the last one on top. -/
def dirsAt (d : DirStack) (vs : List (List Char)) : HProp :=
  match d.paths with
  | none => fact (vs = [] ∧ d.count = 0)
  | some a => hex fun l => fact (l.length = vs.length ∧ d.count = vs.length) ⋆ pts a (.ptrs false l) ⋆ textsAt l (vs.map some)

/-- A variable: name and value (none if it was removed), the mark for inheritance, the values saved by procedures. -/
structure Slot where
  live : Option (List Char × List Char)
  inherit : Bool
  old : List (List Char × List Char × Bool)
  deriving DecidableEq, Repr

/-- The saved values. -/
def chainAt : Option Nat → List (List Char × List Char × Bool) → HProp
  | none, [] => hemp
  | some a, o :: os => hex fun p => hex fun q => hex fun v =>
      pts a (.var (some p) (some q) o.2.2 v) ⋆ pts p (.text o.1) ⋆ pts q (.text o.2.1) ⋆ chainAt v os
  | _, _ => fact False

/-- One variable. -/
def slotAt (a : Nat) (s : Slot) : HProp :=
  match s.live with
  | none => fact (s.old = []) ⋆ pts a (.var none none s.inherit none)
  | some nc => hex fun p => hex fun q => hex fun v =>
      pts a (.var (some p) (some q) s.inherit v) ⋆ pts p (.text nc.1) ⋆ pts q (.text nc.2) ⋆ chainAt v s.old

/-- The variables of a table. -/
def slotsAt : List (Option Nat) → List Slot → HProp
  | [], [] => hemp
  | some a :: ps, s :: ss => slotAt a s ⋆ slotsAt ps ss
  | _, _ => fact False

/-- An environment. -/
def envAt (e : Nat) (ss : List Slot) : HProp :=
  hex fun buf => hex fun l => hex fun junk =>
    pts e (.envbuf (l ++ junk).length l.length buf) ⋆ pts buf (.ptrs false (l ++ junk)) ⋆ slotsAt l ss

/-- A table of commands: the code of a command, or the text of a macro. -/
inductive CTree where
  | nil
  | node (name : List Char) (body : Nat ⊕ List Char) (left right : CTree)
  deriving DecidableEq, Repr

/-- The depth of a table. -/
def CTree.depth : CTree → Nat
  | .nil => 0
  | .node _ _ l r => max l.depth r.depth + 1

/-- The body of an entry. -/
def bodyAt (isDef : Bool) (q : Nat) : Nat ⊕ List Char → HProp
  | .inl c => fact (isDef = false ∧ q = c)
  | .inr t => fact (isDef = true) ⋆ pts q (.text t)

/-- A table of commands in memory. -/
def treeAt : Option Nat → CTree → HProp
  | none, .nil => hemp
  | some a, .node n b l r => hex fun p => hex fun d => hex fun q => hex fun x => hex fun y =>
      pts a (.node p d q x y) ⋆ pts p (.text n) ⋆ bodyAt d q b ⋆ treeAt x l ⋆ treeAt y r
  | _, _ => fact False

/-- The environments put aside by SETLOCAL. -/
def stackAt : List (Nat × Bool × Bool) → List (List Slot × Bool × Bool) → HProp
  | [], [] => hemp
  | x :: xs, v :: vs => fact (x.2 = v.2) ⋆ envAt x.1 v.1 ⋆ stackAt xs vs
  | _, _ => fact False

/-- What an instance of the interpreter holds. -/
structure IView where
  commands : CTree
  locals : List (Option (List Char))
  args : List (Option (List Char))
  dirs : List (List Char)
  env : List Slot
  stack : List (List Slot × Bool × Bool)
  set : Settings
  deriving DecidableEq, Repr

/-- The memory of an instance and what it holds; `stack` tells that its blocks are on the stack (inside CALL). -/
def instAt (stack : Bool) (i : Inst) (v : IView) : HProp :=
  fact (i.set = v.set) ⋆ treeAt (some i.commands) v.commands ⋆ localsAt i.locals stack v.locals ⋆ localsAt i.args stack v.args ⋆
    dirsAt i.dirs v.dirs ⋆ envAt i.env v.env ⋆ stackAt i.envStack v.stack

/-- A variable of the copy: same name and value; nothing is saved for procedures that do not run in the copy. -/
def Slot.fresh (s : Slot) : Slot := ⟨s.live, false, []⟩

/-- What the copy holds: the same, without the environments put aside. -/
def IView.copy (v : IView) : IView := { v with env := v.env.map Slot.fresh, stack := [] }

/-- Code that only uses the memory given (and what `malloc` gives it), is defined, and ends with `Q`. -/
def Works {α : Type} : HM α → (α → HProp) → HProp
  | .ret a, Q => Q a
  | .ub, _ => fun _ => False
  | .hang, _ => fun _ => False
  | .read a k, Q => fun h => ∃ o, h a = some o ∧ Works (k o) Q h
  | .write a o k, Q => fun h => (∃ o', h a = some o') ∧ Works k Q (h.put a (some o))
  | .alloc o k, Q => fun h => ∀ x, h x = none → Works (k x) Q (h.put x (some o))
  | .free a k, Q => fun h => (∃ o, h a = some o ∧ ∀ l, o ≠ .ptrs true l) ∧ Works k Q (h.put a none)

/-- Code that starts with the memory `P` ends, defined, with `Q`, and uses no other memory. -/
def Triple {α : Type} (P : HProp) (m : HM α) (Q : α → HProp) : Prop := ∀ h, P h → Works m Q h

/-- A run alone is defined and ends with `Q` (unless `malloc` has no address left). -/
def GoodRun {α : Type} (Q : α → HProp) : HRes α → Prop
  | .ok a h _ => Q a h
  | .stuck => True
  | _ => False

/-- Two threads have done nothing undefined so far, and `Q` holds. -/
def GoodPar {α β : Type} (Q : HM α → HM β → HProp) : PRes α β → Prop
  | .now m n h _ => Q m n h
  | .stuck => True
  | _ => False

/-- Commands that change what an instance holds. -/
inductive COp where
  | setLocal (c : Nat) (t : Option (List Char))
  | setArg (c : Nat) (t : Option (List Char))
  | pushDir (t : List Char)
  | popDir
  | pushEnv
  | popEnv
  | settings (f : Settings → Settings)

/-- What a command means for the values. -/
def COp.apply : COp → IView → IView
  | .setLocal c t, v => if c < 128 ∧ 32 < c then { v with locals := v.locals.set c t } else v
  | .setArg c t, v => if c < 128 ∧ 32 < c then { v with args := v.args.set c t } else v
  | .pushDir t, v => { v with dirs := v.dirs ++ [t] }
  | .popDir, v => { v with dirs := v.dirs.dropLast }
  | .pushEnv, v => { v with env := v.env.map Slot.fresh, stack := (v.env, v.set.delayed, v.set.cmdly) :: v.stack }
  | .popEnv, v =>
    match v.stack with
    | [] => v
    | s :: ss => { v with env := s.1, stack := ss, set := { v.set with delayed := s.2.1, cmdly := s.2.2 } }
  | .settings f, v => { v with set := f v.set }

/-- How a command is run. -/
def COp.run : COp → Inst → HM Inst
  | .setLocal c t, i => do
    heapSetLocal i.locals c t
    pure i
  | .setArg c t, i => do
    heapSetLocal i.args c t
    pure i
  | .pushDir t, i => do
    let d ← heapPushDir i.dirs t
    pure { i with dirs := d }
  | .popDir, i => do
    let r ← heapPopDir i.dirs
    pure { i with dirs := r.2 }
  | .pushEnv, i => heapPushEnv i
  | .popEnv, i => heapPopEnv i
  | .settings f, i => pure { i with set := f i.set }

/-- The commands of a thread. -/
def runOps : List COp → Inst → HM Inst
  | [], i => pure i
  | o :: os, i => do
    let i ← o.run i
    runOps os i

/-- What they mean. -/
def applyOps : List COp → IView → IView
  | [], v => v
  | o :: os, v => applyOps os (o.apply v)

end PBat.Spec
