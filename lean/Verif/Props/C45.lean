import Verif.Props.C17
/-
C45: what the streams designate under redirections.
-/
namespace PBat
namespace Spec

/-- The streams of a command: a successfully opened file, or what the stream designated before; then `2>&1` or `1>&2`. -/
def redirected {τ : Type} (inp out err : Option τ) (errToOut outToErr : Bool) (s : τ × τ × τ) : τ × τ × τ :=
  let i := inp.getD s.1
  let o := out.getD s.2.1
  let e := err.getD s.2.2
  if errToOut then (i, o, o) else if outToErr then (i, e, e) else (i, o, e)

end Spec

variable {ι ν W τ : Type}

/-- The file a redirection opens, given the world: the next world and the file, if any. -/
def opened (sys : Sys ι ν W τ) (f : Option (ι × Option Bool)) (w : W) : W × Option τ :=
  match f with
  | none => (w, none)
  | some f => sys.openFile f.1 f.2 w

theorem openRedir_eq (sys : Sys ι ν W τ) (f : Option (ι × Option Bool)) (fd : Fd) (st : St W τ) :
    openRedir sys f fd st = { st with
      world := (opened sys f st.world).1
      io := match (opened sys f st.world).2 with | none => st.io | some t => st.io.openOutput t fd } := by
  unfold openRedir opened
  cases f with
  | none => rfl
  | some f =>
    obtain ⟨name, mode⟩ := f
    simp only
    cases h : sys.openFile name mode st.world with
    | mk w t => cases t <;> rfl

/-- Unless a redirection `2>&1` or `1>&2` is already in force, the streams of a command are those its redirections name,
for all combinations, also when files cannot be opened.  (Files are opened in the order input, output, error.) -/
theorem C45_streams_partial (sys : Sys ι ν W τ) (r : Redir ι) (st : St W τ) (ho : st.io.outOwn = true) (he : st.io.errOut = false) :
    let i := opened sys (r.input.map (fun f => (f, none))) st.world
    let o := opened sys (r.output.map (fun f => (f.1, some f.2))) i.1
    let e := opened sys (r.error.map (fun f => (f.1, some f.2))) o.1
    (execOutput sys r st).io.streams = Spec.redirected i.2 o.2 e.2 r.errToOut r.outToErr st.io.streams ∧
    (execOutput sys r st).world = e.1 := by
  unfold execOutput
  simp only [openRedir_eq]
  generalize opened sys (r.input.map (fun f => (f, none))) st.world = i
  obtain ⟨w1, i⟩ := i
  simp only
  generalize opened sys (r.output.map (fun f => (f.1, some f.2))) w1 = o
  obtain ⟨w2, o⟩ := o
  simp only
  generalize opened sys (r.error.map (fun f => (f.1, some f.2))) w2 = e
  obtain ⟨w3, e⟩ := e
  cases i <;> cases o <;> cases e <;> cases r.errToOut <;> cases r.outToErr <;>
    simp [Spec.redirected, Io.streams, Io.openOutput, Io.openOutputD, Io.dupTo, ho, he]

/-- Whatever is in force, a stream that is redirected to a file designates that file, unless `1>&2` moves output too, and
the input only depends on its own redirection. -/
theorem C45_named (sys : Sys ι ν W τ) (f : Option (ι × Option Bool)) (fd : Fd) (st : St W τ) (t : τ)
    (h : (opened sys f st.world).2 = some t) :
    (fd = .inp → (openRedir sys f fd st).io.streams = (t, st.io.streams.2)) ∧
    (fd = .out → (openRedir sys f fd st).io.streams.2.1 = t ∧ (openRedir sys f fd st).io.streams.1 = st.io.streams.1) ∧
    (fd = .err → (openRedir sys f fd st).io.streams.2.2 = t ∧ (openRedir sys f fd st).io.streams.1 = st.io.streams.1) := by
  rw [openRedir_eq, h]
  refine ⟨?_, ?_, ?_⟩ <;> rintro rfl <;> simp [Io.openOutput, Io.dupTo, Io.streams]

/-- The claim is false inside `2>&1`: in `(a > f) 2>&1` the error stream of `a` goes to `f` too. -/
theorem C45_inside_dup :
    (runLine demoSys 9 [(.none, { errToOut := true }, .block [[(.none, { output := some ("f", true) }, .simple "a")]])]
      ⟨[], 0, .no, ⟨"tty0", "tty1", "tty2", true, false, []⟩⟩).map (fun x => x.2.world) =
    some [("a", "tty0", "f", "f")] := by decide +kernel

/-- Inside `1>&2`, redirecting the error stream moves the output: `(a 2> f) 1>&2`. -/
theorem C45_inside_dup_err :
    (runLine demoSys 9 [(.none, { outToErr := true }, .block [[(.none, { error := some ("f", true) }, .simple "a")]])]
      ⟨[], 0, .no, ⟨"tty0", "tty1", "tty2", true, false, []⟩⟩).map (fun x => x.2.world) =
    some [("a", "tty0", "f", "f")] := by decide +kernel

/-- A case of `C45_streams_partial`. -/
example : (execOutput demoSys { input := some "bad", output := some ("f", true), errToOut := true }
    ⟨[], 0, .no, ⟨"tty0", "tty1", "tty2", true, false, []⟩⟩).io.streams = ("tty0", "f", "f") := by decide +kernel

end PBat
