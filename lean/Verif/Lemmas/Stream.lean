import Verif.Model.Run
/-
Lemmas on the stack of redirections.
-/
namespace PBat

variable {ι ν W τ : Type}

theorem Io.unwind_openOutput (io : Io τ) (t : τ) (fd : Fd) :
    (io.openOutput t fd).unwind { fd := fd, old := io.get fd, subst := io.subst, lock := false } io.stack = io := by
  cases io
  cases fd <;> rfl

theorem Io.popUntilLock_cons (io : Io τ) {it : SItem τ} {rest : List (SItem τ)} (h : io.stack = it :: rest)
    (hl : it.lock = false) : io.popUntilLock = (io.unwind it rest).popUntilLock := by
  unfold Io.popUntilLock
  rw [h]
  simp only [Io.popUntilLock.go, hl]
  rfl

theorem Io.popUntilLock_locked (io : Io τ) (h : io.lockState = true) : io.popUntilLock = io := by
  unfold Io.popUntilLock
  unfold Io.lockState at h
  cases hs : io.stack with
  | nil => rfl
  | cons it rest =>
    rw [hs] at h
    simp only at h
    simp [Io.popUntilLock.go, h]

theorem Io.popUntilLock_open (io : Io τ) (t : τ) (fd : Fd) : (io.openOutput t fd).popUntilLock = io.popUntilLock := by
  rw [Io.popUntilLock_cons (io.openOutput t fd) (it := { fd := fd, old := io.get fd, subst := io.subst, lock := false })
    (rest := io.stack) rfl rfl, Io.unwind_openOutput]

theorem Io.popUntilLock_openD (io : Io τ) (t : Option τ) (fd : Fd) (a b : Bool) :
    ({ io.openOutputD t fd with outOwn := a, errOut := b } : Io τ).popUntilLock = io.popUntilLock := by
  rw [Io.popUntilLock_cons _ (it := { fd := fd, old := io.get fd, subst := io.subst, lock := false })
    (rest := io.stack) rfl rfl]
  congr 1
  cases io
  cases fd <;> cases t <;> rfl

theorem Io.popUntilLock_openD' (io : Io τ) (t : Option τ) (fd : Fd) :
    (io.openOutputD t fd).popUntilLock = io.popUntilLock :=
  Io.popUntilLock_openD io t fd (io.openOutputD t fd).outOwn (io.openOutputD t fd).errOut

theorem Io.popUntilLock_pop (io : Io τ) : io.pop.popUntilLock = io.popUntilLock := by
  unfold Io.pop
  split
  · rfl
  · next it rest h =>
    split
    · rfl
    · next hl => rw [Io.popUntilLock_cons io h (by simpa using hl)]

theorem Io.lockState_popUntilLock (io : Io τ) : io.popUntilLock.lockState = true := by
  have : ∀ (s : List (SItem τ)) (io : Io τ), io.stack = s → io.popUntilLock.lockState = true := by
    intro s
    induction s with
    | nil =>
      intro io h
      rw [Io.popUntilLock_locked io (by unfold Io.lockState; rw [h])]
      unfold Io.lockState; rw [h]
    | cons it rest ih =>
      intro io h
      cases hl : it.lock with
      | true =>
        have : io.lockState = true := by unfold Io.lockState; rw [h]; exact hl
        rw [Io.popUntilLock_locked io this, this]
      | false =>
        rw [Io.popUntilLock_cons io h hl]
        exact ih _ rfl
  exact this _ io rfl

theorem Io.lockState_setLock (io : Io τ) : (io.setLock true).lockState = true := by
  unfold Io.setLock
  split
  · next h => unfold Io.lockState; rw [h]
  · rfl

theorem Io.setLock_setLock (io : Io τ) (a b : Bool) : (io.setLock a).setLock b = io.setLock b := by
  unfold Io.setLock
  cases io with
  | mk i o e p q s => cases s <;> rfl

theorem Io.setLock_lockState (io : Io τ) : io.setLock io.lockState = io := by
  unfold Io.setLock Io.lockState
  cases io with
  | mk i o e p q s => cases s <;> rfl

theorem Io.unlock (io : Io τ) : (io.setLock true).setLock io.lockState = io := by
  rw [Io.setLock_setLock, Io.setLock_lockState]

theorem openRedir_pop (sys : Sys ι ν W τ) (f : Option (ι × Option Bool)) (fd : Fd) (st : St W τ) :
    (openRedir sys f fd st).io.popUntilLock = st.io.popUntilLock := by
  unfold openRedir
  split
  · rfl
  · split
    · rfl
    · exact Io.popUntilLock_open _ _ _

theorem execOutput_pop (sys : Sys ι ν W τ) (r : Redir ι) (st : St W τ) :
    (execOutput sys r st).io.popUntilLock = st.io.popUntilLock := by
  unfold execOutput
  split
  · exact (Io.popUntilLock_openD _ _ _ _ _).trans (by simp only [openRedir_pop])
  · split
    · exact (Io.popUntilLock_openD _ _ _ _ _).trans (by simp only [openRedir_pop])
    · simp only [openRedir_pop]

theorem pipeLoop_io (sys : Sys ι ν W τ) (lastin : Option τ) (node : Node ι ν) (rest : List (Node ι ν)) (st : St W τ) :
    (pipeLoop sys lastin node rest st).2.2.2.2.io = st.io := by
  induction rest generalizing lastin node st with
  | nil => rfl
  | cons next rest ih =>
    simp only [pipeLoop]
    split
    · exact ih _ _ _
    · rfl

theorem pipeLoop_state (sys : Sys ι ν W τ) (lastin : Option τ) (node : Node ι ν) (rest : List (Node ι ν)) (st : St W τ) :
    (pipeLoop sys lastin node rest st).2.2.2.2.err = st.err ∧ (pipeLoop sys lastin node rest st).2.2.2.2.abort = st.abort := by
  induction rest generalizing lastin node st with
  | nil => exact ⟨rfl, rfl⟩
  | cons next rest ih =>
    simp only [pipeLoop]
    split
    · exact ih _ _ _
    · exact ⟨rfl, rfl⟩

theorem launch_pop (sys : Sys ι ν W τ) (go : Bool) (node : Node ι ν) (rest : List (Node ι ν)) (st : St W τ) :
    (launch sys go node rest st).2.2.2.io.popUntilLock = st.io.popUntilLock := by
  unfold launch
  split
  · simp only
    split
    · rw [pipeLoop_io]
    · simp only [Io.popUntilLock_openD', pipeLoop_io]
  · rfl

theorem launch_state (sys : Sys ι ν W τ) (go : Bool) (node : Node ι ν) (rest : List (Node ι ν)) (st : St W τ) :
    (launch sys go node rest st).2.2.2.err = st.err ∧ (launch sys go node rest st).2.2.2.abort = st.abort := by
  unfold launch
  split
  · have := pipeLoop_state sys none node rest st
    simp only
    split <;> exact this
  · exact ⟨rfl, rfl⟩

/-- Whatever was pushed since the lock, closing the line restores the streams. -/
theorem closeLine_io {io : Io τ} {st : St W τ} (h : st.io.popUntilLock = (io.setLock true).popUntilLock) :
    (closeLine io.lockState st).io = io := by
  unfold closeLine
  simp only [h]
  rw [Io.popUntilLock_locked _ (Io.lockState_setLock io), Io.unlock]

/-- A runner of commands that leaves the streams as they are. -/
def KeepsIo (rc : Node ι ν → List (Node ι ν) → St W τ → Option (List (Node ι ν) × Bool × St W τ)) : Prop :=
  ∀ node rest st after more st', rc node rest st = some (after, more, st') → st'.io = st.io

theorem runNodes_io (sys : Sys ι ν W τ) {rc : Node ι ν → List (Node ι ν) → St W τ → Option (List (Node ι ν) × Bool × St W τ)}
    (hrc : KeepsIo rc) : ∀ (n : Nat) (nodes : List (Node ι ν)), nodes.length ≤ n → ∀ (st : St W τ) nodes' st',
    runNodes sys rc nodes st = some (nodes', st') → st'.io = st.io := by
  intro n
  induction n with
  | zero =>
    intro nodes hn st nodes' st' h
    have : nodes = [] := List.length_eq_zero_iff.1 (by omega)
    subst this
    rw [runNodes] at h
    cases h
    rfl
  | succ n ih =>
    intro nodes hn st nodes' st' h
    cases nodes with
    | nil => rw [runNodes] at h; cases h; rfl
    | cons node rest =>
      rw [runNodes.eq_2] at h
      simp only at h
      have hlen := launch_length sys (!skips node.1 st.err && !node.2.2.look) node rest { st with io := st.io.setLock true }
      have hpop := launch_pop sys (!skips node.1 st.err && !node.2.2.look) node rest { st with io := st.io.setLock true }
      generalize launch sys (!skips node.1 st.err && !node.2.2.look) node rest { st with io := st.io.setLock true } = r at *
      obtain ⟨front, cur, rest', st1⟩ := r
      simp only at h hlen hpop
      simp only [List.length_cons] at hn
      split at h
      · have hc := closeLine_io (st := st1) hpop
        split at h
        · cases h; exact hc
        · split at h
          · cases h; exact hc
          · split at h
            · cases h
            · next hr =>
              cases h
              rw [ih rest' (by omega) _ _ _ hr, hc]
      · split at h
        · cases h
        · next after more st2 hrun =>
          have h2 := hrc _ _ _ _ _ _ hrun
          have hc : (closeLine st.io.lockState st2).io = st.io := by
            apply closeLine_io
            rw [h2]
            split
            · exact hpop
            · rw [execOutput_pop]; exact hpop
          split at h
          · cases h; exact hc
          · split at h
            · cases h
            · next hr =>
              cases h
              rw [ih rest' (by omega) _ _ _ hr, hc]

theorem runLines_io {rl : List (Node ι ν) → St W τ → Option (List (Node ι ν) × St W τ)}
    (hrl : ∀ nodes st nodes' st', rl nodes st = some (nodes', st') → st'.io = st.io) :
    ∀ ls st st', runLines rl ls st = some st' → st'.io = st.io := by
  intro ls
  induction ls with
  | nil => intro st st' h; rw [runLines] at h; cases h; rfl
  | cons l ls ih =>
    intro st st' h
    rw [runLines] at h
    split at h
    · cases h
    · next st1 hl =>
      have h1 := hrl _ _ _ _ hl
      split at h
      · cases h; exact h1
      · rw [ih _ _ h]; exact h1

theorem runLoop_io (sys : Sys ι ν W τ) {rl : List (Node ι ν) → St W τ → Option (List (Node ι ν) × St W τ)}
    (hrl : ∀ nodes st nodes' st', rl nodes st = some (nodes', st') → st'.io = st.io) :
    ∀ xs nodes st nodes' st', runLoop sys rl xs nodes st = some (nodes', st') → st'.io = st.io := by
  intro xs
  induction xs with
  | nil => intro nodes st nodes' st' h; rw [runLoop] at h; cases h; rfl
  | cons x xs ih =>
    intro nodes st nodes' st' h
    rw [runLoop] at h
    split at h
    · cases h
    · next st1 hl =>
      have h1 := hrl _ _ _ _ hl
      split at h
      · cases h; exact h1
      · rw [ih _ _ _ _ h]; exact h1

/-- The streams are restored by all the mutually recursive parts of the interpreter. -/
theorem run_io (sys : Sys ι ν W τ) : ∀ (n : Nat),
    (∀ nodes st nodes' st', runLine sys n nodes st = some (nodes', st') → st'.io = st.io) ∧
    (∀ st st', runBatch sys n st = some st' → st'.io = st.io) ∧
    KeepsIo (runCmd sys n) := by
  intro n
  induction n with
  | zero =>
    refine ⟨?_, ?_, ?_⟩
    · intro nodes st nodes' st' h; rw [runLine] at h; cases h
    · intro st st' h; rw [runBatch] at h; cases h
    · intro node rest st after more st' h; rw [runCmd] at h; cases h
  | succ n ih =>
    obtain ⟨ih1, ih3, ih5⟩ := ih
    have ih2 := runLines_io ih1
    have ih4 := runLoop_io sys ih1
    refine ⟨?_, ?_, ?_⟩
    · intro nodes st nodes' st' h
      rw [runLine] at h
      exact runNodes_io sys ih5 _ nodes (Nat.le_refl _) _ _ _ h
    · intro st st' h
      rw [runBatch] at h
      split at h
      · cases h; rfl
      · split at h
        · cases h
        · next st1 hl =>
          have h1 := ih1 _ _ _ _ hl
          split at h
          · cases h; exact h1
          · rw [ih3 _ _ h]; exact h1
    · intro node rest st after more st' h
      obtain ⟨ty, r, c⟩ := node
      cases c with
      | simple i => rw [runCmd] at h; cases h; rfl
      | block lines =>
        rw [runCmd.eq_def] at h
        simp only at h
        split at h
        · cases h
        · next st1 hl =>
          have h1 := ih2 _ _ _ hl
          cases h
          simp only at h1 ⊢
          rw [h1, Io.unlock]
      | iff c yes no =>
        rw [runCmd.eq_def] at h
        simp only at h
        split at h
        · cases h; rfl
        · cases h; rfl
        · split at h
          · split at h
            · cases h
            · next hl =>
              have h1 := ih1 _ _ _ _ hl
              cases h
              exact h1
          · split at h
            · cases h
            · next hl =>
              have h1 := ih1 _ _ _ _ hl
              cases h
              exact h1
        · split at h
          · cases h; rfl
          · split at h
            · cases h
            · next hl =>
              have h1 := ih1 _ _ _ _ hl
              cases h
              exact h1
      | loop xs body =>
        rw [runCmd] at h
        split at h
        · cases h
        · next hl =>
          have h1 := ih4 _ _ _ _ _ hl
          cases h
          exact h1
      | call i =>
        rw [runCmd] at h
        split at h
        · cases h; rfl
        · simp only at h
          split at h
          · cases h
          · next st1 hl =>
            have h1 := ih3 _ _ hl
            cases h
            simp only at h1 ⊢
            rw [h1, Io.unlock]

end PBat
