import Verif.Lemmas.Buffer
/-
C104: what commands and programs print appears once and in order.
-/
namespace PBat.Buf
open PBat.Spec.Buf

variable {β : Type}

/-- When the interpreter ends, a file holds exactly the texts written to it, in order, whatever the libc writes early and whichever stream is
flushed first, if the history is tidy for this file.  Missing: other histories, for which this is false (below). -/
theorem C104_order_partial (lc : Libc β) (out err c : Nat) (d : Disk β) (os : List (Op β)) (errFirst : Bool)
    (ht : All (init out err d).io (Tidy lc.tty c) ⟨(init out err d).io, false, false⟩ os) :
    (finish errFirst (steps lc (init out err d).io (init out err d) os)).disk c = content c (d c) (history (init out err d).io (init out err d).io os) := by
  obtain ⟨v, h⟩ := inv_steps lc (init out err d).io c os _ _ _ (inv_init lc c out err d) ht
  exact inv_finish lc c _ v _ errFirst h

/-- Until then the file holds a prefix of these texts: nothing appears twice, nothing is skipped. -/
theorem C104_prefix_partial (lc : Libc β) (out err c : Nat) (d : Disk β) (os : List (Op β))
    (ht : All (init out err d).io (Tidy lc.tty c) ⟨(init out err d).io, false, false⟩ os) :
    (steps lc (init out err d).io (init out err d) os).disk c <+: content c (d c) (history (init out err d).io (init out err d).io os) := by
  obtain ⟨v, h⟩ := inv_steps lc (init out err d).io c os _ _ _ (inv_init lc c out err d) ht
  exact ⟨_, h.text⟩

theorem tidy_tty (tty : Nat → Bool) (c : Nat) (hc : tty c = true) (io0 : Io Nat) (os : List (Op β)) (v : View)
    (h : All io0 (fun v o => ∀ m, o = .noStart m → v.io.errOut = false) v os) : All io0 (Tidy tty c) v os := by
  induction os generalizing v with
  | nil => trivial
  | cons o os ih =>
    refine ⟨?_, ih _ h.2⟩
    have h1 := h.1
    have hb : ¬ Busy tty c v := by simp [Busy, hc]
    cases o <;> simp_all [Tidy]

/-- On a terminal the texts of commands and programs appear at once, in order, after any history: programs, redirections, START and Ctrl-C
included.  The exception is START failing inside `2>&1`. -/
theorem C104_terminal_partial (lc : Libc β) (out err c : Nat) (d : Disk β) (os : List (Op β)) (hc : lc.tty c = true)
    (hs : All (init out err d).io (fun v o => ∀ m, o = .noStart m → v.io.errOut = false) ⟨(init out err d).io, false, false⟩ os) :
    (steps lc (init out err d).io (init out err d) os).disk c = content c (d c) (history (init out err d).io (init out err d).io os) := by
  obtain ⟨v, h⟩ := inv_steps lc (init out err d).io c os _ _ _ (inv_init lc c out err d) (tidy_tty _ c hc _ os _ hs)
  have hw := idle_waiting c _ (idle lc c _ v _ h (by simp [Busy, hc]))
  have := h.text
  rwa [hw, List.append_nil] at this

/-- Without programs, START, Ctrl-C and files emptied while they are in use, and if the streams never designate the same file, each file is right:
whatever commands print and however they are redirected. -/
theorem C104_commands_partial (lc : Libc β) (out err c : Nat) (d : Disk β) (os : List (Op β)) (errFirst : Bool)
    (ho : ∀ o ∈ os, match o with | .run _ | .start | .noStart _ | .brk => False | .openOut _ b | .openErr _ b => b = false | _ => True)
    (ha : All (init out err d).io (fun v _ => v.io.out ≠ v.io.err) ⟨(init out err d).io, false, false⟩ os) :
    (finish errFirst (steps lc (init out err d).io (init out err d) os)).disk c = content c (d c) (history (init out err d).io (init out err d).io os) := by
  refine C104_order_partial lc out err c d os errFirst ?_
  generalize (⟨(init out err d).io, false, false⟩ : View) = v at ha ⊢
  induction os generalizing v with
  | nil => trivial
  | cons o os ih =>
    refine ⟨?_, ih (fun x hx => ho x (List.mem_cons_of_mem _ hx)) _ ha.2⟩
    have h1 := ho o List.mem_cons_self
    have h2 := ha.1
    cases o <;> simp_all [Tidy]

/-- A libc which keeps texts of fewer than `n` characters in the buffer of a stream which is not a terminal. -/
def Keeps (lc : Libc β) (n : Nat) : Prop := ∀ l : List β, l.length < n → lc.spill l = 0

/-- Violation: with the output in a file, what a program prints comes before what commands printed before it was run. -/
theorem C104_program_first (lc : Libc β) (n out err : Nat) (d : Disk β) (t p : List β) (e : Bool) (hk : Keeps lc n) (ho : lc.tty out = false)
    (hn : t.length < n) :
    (finish e (steps lc (init out err d).io (init out err d) [.out t, .run [(false, p)]])).disk out = d out ++ p ++ t ∧
    content out (d out) (history (init out err d).io (init out err d).io [.out t, .run [(false, p)]]) = d out ++ t ++ p := by
  have h0 : lc.spill t = 0 := hk t hn
  constructor
  · cases e <;> simp [steps, step, printOut, putOut, init, finish, flushOut, flushErr, ho, h0, writes, Io.streams, app_sel, sel_nil, sel_eq rfl]
  · simp [history, events, next, init, content_write, content, outOf, errOf, Io.streams, sel_eq rfl]

/-- Violation: when START gives a document to the start script, what commands printed before appears twice. -/
theorem C104_twice (lc : Libc β) (n out err : Nat) (d : Disk β) (t : List β) (e : Bool) (hk : Keeps lc n) (ho : lc.tty out = false)
    (hn : t.length < n) :
    (finish e (steps lc (init out err d).io (init out err d) [.out t, .start])).disk out = d out ++ t ++ t ∧
    content out (d out) (history (init out err d).io (init out err d).io [.out t, .start]) = d out ++ t := by
  have h0 : lc.spill t = 0 := hk t hn
  constructor
  · cases e <;> simp [steps, step, printOut, putOut, init, finish, flushOut, flushErr, ho, h0, app_sel, sel_nil, sel_eq rfl]
  · simp [history, events, next, init, content_write, content, outOf, Io.streams, sel_eq rfl]

/-- Violation: Ctrl-C makes the interpreter forget what commands printed. -/
theorem C104_lost (lc : Libc β) (n out err : Nat) (d : Disk β) (t : List β) (e : Bool) (hk : Keeps lc n) (ho : lc.tty out = false)
    (hn : t.length < n) :
    (finish e (steps lc (init out err d).io (init out err d) [.out t, .brk])).disk out = d out ∧
    content out (d out) (history (init out err d).io (init out err d).io [.out t, .brk]) = d out ++ t := by
  have h0 : lc.spill t = 0 := hk t hn
  constructor
  · cases e <;> simp [steps, step, printOut, putOut, init, finish, flushOut, flushErr, ho, h0, app_sel, sel_nil]
  · simp [history, events, next, init, content_write, content, outOf, Io.streams, sel_eq rfl]

/-- Violation: with the output and the errors in the same file, an error printed between two texts comes before or after both. -/
theorem C104_errors (lc : Libc β) (n out : Nat) (d : Disk β) (t u m : List β) (e : Bool) (hk : Keeps lc n) (ho : lc.tty out = false)
    (hn : (t ++ u).length < n) (hm : m.length < n) :
    (finish e (steps lc (init out out d).io (init out out d) [.out t, .err m, .out u])).disk out =
      (if e then d out ++ m ++ t ++ u else d out ++ t ++ u ++ m) ∧
    content out (d out) (history (init out out d).io (init out out d).io [.out t, .err m, .out u]) = d out ++ t ++ m ++ u := by
  have h0 : lc.spill t = 0 := hk t (by simp at hn; omega)
  have h1 : lc.spill (t ++ u) = 0 := hk _ hn
  have h2 : lc.spill m = 0 := hk _ hm
  constructor
  · cases e <;> simp [steps, step, printOut, printErr, putOut, putErr, init, finish, flushOut, flushErr, ho, h0, h1, h2, app_sel, sel_nil, sel_eq rfl]
  · simp [history, events, next, init, content_write, content, outOf, errOf, Io.streams, sel_eq rfl]

/-- Violation: a text printed to a file before this file is emptied by `>` stays in it: `(echo t & echo u > f) > f`. -/
theorem C104_emptied (lc : Libc β) (n out err f : Nat) (d : Disk β) (t u : List β) (e : Bool) (hk : Keeps lc n) (hf : lc.tty f = false)
    (hn : t.length < n) (hu : u.length < n) :
    let os : List (Op β) := [.openOut f true, .out t, .openOut f true, .out u, .pop, .pop]
    (finish e (steps lc (init out err d).io (init out err d) os)).disk f = t ++ u ∧
    content f (d f) (history (init out err d).io (init out err d).io os) = u := by
  have h0 : lc.spill t = 0 := hk t hn
  have h1 : lc.spill u = 0 := hk u hu
  intro os
  constructor
  · cases e <;>
      simp [os, steps, step, openFd, flushFd, pop, Io.openOutput, Io.dupTo, Io.get, Io.pop, Io.unwind, Io.applySubst, Io.subst, cut, printOut, putOut,
        init, finish, flushOut, flushErr, hf, h0, h1, app_sel, sel_nil, sel_eq rfl]
  · simp [os, history, events, next, init, content_write, content, outOf, Io.streams, Io.openOutput, Io.dupTo, Io.get, Io.subst, Io.pop, Io.unwind, Io.applySubst, sel_eq rfl]

/-- Violation: the message of START is lost inside `2>&1`, even on a terminal. -/
theorem C104_message (lc : Libc β) (out err : Nat) (d : Disk β) (m : List β) (e : Bool) :
    (finish e (steps lc (init out err d).io (init out err d) [.errToOut, .noStart m])).disk out = d out ∧
    content out (d out) (history (init out err d).io (init out err d).io [.errToOut, .noStart m]) = d out ++ m := by
  constructor
  · cases e <;> simp [steps, step, init, finish, flushOut, flushErr, app_sel, sel_nil, Io.openOutputD, Io.dupTo]
  · simp [history, events, next, init, content_write, content, errOf, Io.streams, Io.openOutputD, Io.dupTo, sel_eq rfl]

/-- A libc with buffers of four characters. -/
def demoLibc : Libc Char := ⟨fun c => c == 0, fun l => if l.length < 4 then 0 else l.length⟩

/-- All files are empty. -/
def noDisk : Disk Char := fun _ => []

/-- `echo ab > 5`, a program writing to file 7, `(echo cd & echo ef 2> 6) 2>&1`: a history tidy for file 5 and for file 9, the initial output. -/
def demoOps : List (Op Char) :=
  [.openOut 5 true, .out ['a', 'b'], .pop, .openOut 7 false, .run [(false, ['x']), (true, ['y'])], .pop, .errToOut, .out ['c', 'd'], .err ['!'],
   .openErr 6 false, .err ['e'], .pop, .out ['f'], .pop]

example : All (init 9 8 noDisk).io (Tidy demoLibc.tty 5) ⟨(init 9 8 noDisk).io, false, false⟩ demoOps := by
  simp [All, demoOps, Tidy, Busy, view, next, init, outOf, errOf, Io.streams, Io.openOutput, Io.openOutputD, Io.dupTo, Io.get, Io.subst, Io.pop,
    Io.unwind, Io.applySubst]

example : All (init 9 8 noDisk).io (Tidy demoLibc.tty 9) ⟨(init 9 8 noDisk).io, false, false⟩ demoOps := by
  simp [All, demoOps, Tidy, Busy, view, next, init, outOf, errOf, Io.streams, Io.openOutput, Io.openOutputD, Io.dupTo, Io.get, Io.subst, Io.pop,
    Io.unwind, Io.applySubst]

example : (finish true (steps demoLibc (init 9 8 noDisk).io (init 9 8 noDisk) demoOps)).disk 9 = ['c', 'd', '!', 'f'] := by decide

/-- Cases of `C104_terminal_partial`, `C104_commands_partial` and of the violations. -/
example : (steps demoLibc (init 0 0 noDisk).io (init 0 0 noDisk)
    [.out ['a'], .run [(false, ['x'])], .err ['b'], .start, .out ['c'], .brk, .noStart ['m']]).disk 0 = ['a', 'x', 'b', 'c', 'm'] := by decide
example : (finish true (steps demoLibc (init 9 8 noDisk).io (init 9 8 noDisk)
    [.out ['a'], .outToErr, .out ['b'], .err ['c'], .openOut 5 false, .out ['d', 'e', 'f', 'g', 'h'], .pop, .pop, .out ['z']])).disk 8 = ['b', 'c'] := by decide
example : Keeps demoLibc 4 := fun _ h => if_pos h

end PBat.Buf
