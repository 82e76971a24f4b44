import Verif.Lemmas.Stream
/-
C17: redirections are undone.
-/
namespace PBat

variable {ι ν W τ : Type}

/-- Once a line has run, the streams and the stack of redirections are what they were before it: for all commands,
redirections (also failing ones), pipelines, nested blocks, IF, FOR and calls, and every number of steps. -/
theorem C17_line (sys : Sys ι ν W τ) (n : Nat) (nodes nodes' : List (Node ι ν)) (st st' : St W τ)
    (h : runLine sys n nodes st = some (nodes', st')) : st'.io = st.io := (run_io sys n).1 _ _ _ _ h

/-- The same for each command of a line and for a whole script. -/
theorem C17_command (sys : Sys ι ν W τ) (n : Nat) (node : Node ι ν) (rest after : List (Node ι ν)) (more : Bool)
    (st st' : St W τ) (h : runCmd sys n node rest st = some (after, more, st')) : st'.io = st.io :=
  (run_io sys n).2.2 _ _ _ _ _ _ h

theorem C17_script (sys : Sys ι ν W τ) (n : Nat) (st st' : St W τ) (h : runBatch sys n st = some st') : st'.io = st.io :=
  (run_io sys n).2.1 _ _ h

/-- Operations on the stack, as a callee may perform them in any order. -/
inductive StackOp (τ : Type) where
  | opened (t : τ) (fd : Fd)
  | duplicated (t : Option τ) (fd : Fd)
  | errToOut
  | outToErr
  | pop
  | popAll

/-- The effect of an operation. -/
def StackOp.run (io : Io τ) : StackOp τ → Io τ
  | .opened t fd => io.openOutput t fd
  | .duplicated t fd => io.openOutputD t fd
  | .errToOut => { io.openOutputD none .none with errOut := true }
  | .outToErr => { io.openOutputD none .none with outOwn := false }
  | .pop => io.pop
  | .popAll => io.popUntilLock

/-- Once the caller has locked the stack, nothing a callee does undoes the redirections of the caller, and popping the
rest restores the streams in last-in first-out order to exactly what the caller had. -/
theorem C17_callee (io : Io τ) (ops : List (StackOp τ)) :
    (ops.foldl StackOp.run (io.setLock true)).popUntilLock.setLock io.lockState = io := by
  have key : ∀ (ops : List (StackOp τ)) (j : Io τ), (ops.foldl StackOp.run j).popUntilLock = j.popUntilLock := by
    intro ops
    induction ops with
    | nil => intro j; rfl
    | cons o ops ih =>
      intro j
      rw [List.foldl_cons, ih]
      cases o with
      | opened t fd => exact Io.popUntilLock_open j t fd
      | duplicated t fd => exact Io.popUntilLock_openD' j t fd
      | errToOut => exact Io.popUntilLock_openD j none .none _ _
      | outToErr => exact Io.popUntilLock_openD j none .none _ _
      | pop => exact Io.popUntilLock_pop j
      | popAll => exact Io.popUntilLock_locked _ (Io.lockState_popUntilLock j)
  rw [key, Io.popUntilLock_locked _ (Io.lockState_setLock io), Io.unlock]

/-- In particular the items of the caller stay at the bottom of the stack, whatever the callee does. -/
theorem C17_callee_below (io : Io τ) (ops : List (StackOp τ)) :
    ∃ above, (ops.foldl StackOp.run (io.setLock true)).stack = above ++ (io.setLock true).stack := by
  have key : ∀ (ops : List (StackOp τ)) (j : Io τ) (above : List (SItem τ)), j.stack = above ++ (io.setLock true).stack →
      ∃ above', (ops.foldl StackOp.run j).stack = above' ++ (io.setLock true).stack := by
    have hlocked := Io.lockState_setLock io
    have hgo : ∀ (above : List (SItem τ)) (j : Io τ), j.stack = above ++ (io.setLock true).stack →
        ∃ above', j.popUntilLock.stack = above' ++ (io.setLock true).stack := by
      intro above
      induction above with
      | nil =>
        intro j hj
        refine ⟨[], ?_⟩
        rw [Io.popUntilLock_locked j (by
          unfold Io.lockState at hlocked ⊢
          rw [hj]
          exact hlocked)]
        exact hj
      | cons it above ih =>
        intro j hj
        cases hl : it.lock with
        | true =>
          refine ⟨it :: above, ?_⟩
          rw [Io.popUntilLock_locked j (by unfold Io.lockState; rw [hj]; exact hl)]
          exact hj
        | false =>
          rw [Io.popUntilLock_cons j hj hl]
          exact ih _ rfl
    intro ops
    induction ops with
    | nil => intro j above hj; exact ⟨above, hj⟩
    | cons o ops ih =>
      intro j above hj
      rw [List.foldl_cons]
      have hdup : ∀ fd t, (j.dupTo fd t).stack = j.stack := by
        intro fd t
        cases fd <;> cases t <;> rfl
      have : ∃ above', (StackOp.run j o).stack = above' ++ (io.setLock true).stack := by
        cases o with
        | opened t fd => exact ⟨_ :: above, by simp only [StackOp.run, Io.openOutput, hj, List.cons_append]; rfl⟩
        | duplicated t fd => exact ⟨_ :: above, by simp only [StackOp.run, Io.openOutputD, hj, List.cons_append]; rfl⟩
        | errToOut => exact ⟨_ :: above, by simp only [StackOp.run, Io.openOutputD, hj, List.cons_append]; rfl⟩
        | outToErr => exact ⟨_ :: above, by simp only [StackOp.run, Io.openOutputD, hj, List.cons_append]; rfl⟩
        | pop =>
          simp only [StackOp.run, Io.pop]
          split
          · exact ⟨above, hj⟩
          · next it rest hs =>
            split
            · exact ⟨above, hj⟩
            · next hl =>
              cases above with
              | nil =>
                exfalso
                unfold Io.lockState at hlocked
                rw [List.nil_append] at hj
                rw [← hj, hs] at hlocked
                exact hl hlocked
              | cons a above =>
                rw [hs] at hj
                simp only [List.cons_append, List.cons.injEq] at hj
                exact ⟨above, hj.2⟩
        | popAll => exact hgo above j hj
      obtain ⟨above', h'⟩ := this
      exact ih _ above' h'
  exact key ops (io.setLock true) [] rfl

/-- A redirected command inside a redirected block, run by an interpreter whose world is the list of streams seen. -/
def demoSys : Sys String String (List (String × String × String × String)) String where
  exec i w e s := ((i, s) :: w, e, .no)
  test _ _ _ := .yes
  setVar _ w := w
  openFile name _ w := (w, if name = "bad" then none else some name)
  pipe w := (w, "pipe")
  spawn _ _ _ _ _ w := w
  enter _ w := .ok w
  leave _ w := w
  fetch _ := none

/-- Nested redirections are in force inside, failing ones are ignored, and all are undone. -/
example : (runLine demoSys 9
    [(.none, { output := some ("f", true), errToOut := true },
      .block [[(.none, { input := some "g", output := some ("bad", true) }, .simple "a"), (.none, { error := some ("h", false) }, .simple "b")]]),
     (.pipe, {}, .simple "c"), (.none, {}, .simple "d")]
    ⟨[], 0, .no, ⟨"tty0", "tty1", "tty2", true, false, []⟩⟩).map (fun x => (x.2.world, x.2.io)) =
    some ([("d", "tty0", "tty1", "tty2"), ("c", "pipe", "tty1", "tty2")],
      ⟨"tty0", "tty1", "tty2", true, false, []⟩) := by decide +kernel

example : (runLine demoSys 9
    [(.none, { output := some ("f", true) },
      .block [[(.none, { input := some "g", output := some ("bad", true) }, .simple "a"), (.none, { error := some ("h", false) }, .simple "b")]]),
     (.none, {}, .simple "d")]
    ⟨[], 0, .no, ⟨"tty0", "tty1", "tty2", true, false, []⟩⟩).map (fun x => (x.2.world, x.2.io)) =
    some ([("d", "tty0", "tty1", "tty2"), ("b", "tty0", "f", "h"), ("a", "g", "f", "tty2")],
      ⟨"tty0", "tty1", "tty2", true, false, []⟩) := by decide +kernel

end PBat
