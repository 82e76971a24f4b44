import Verif.Props.C16
/-
C46: leaving a line, a block or a level.
-/
namespace PBat
open Spec

variable {ι ν W τ : Type}

/-- Whether a line has no pipeline. -/
def NoPipe (nodes : List (Node ι ν)) : Prop := ∀ p ∈ nodes.tail, p.1 ≠ .pipe

/-- Once the line, block or level was left, the rest of a line without pipelines has no effect at all. -/
theorem C46_line_partial (sys : Sys ι ν W τ) (n : Nat) (nodes : List (Node ι ν)) (hp : NoPipe nodes) (st : St W τ)
    (ha : st.abort ≠ .no) : runLine sys (n + 1) nodes st = some (nodes, st) := by
  rw [runLine]
  cases nodes with
  | nil => rw [runNodes]
  | cons node rest =>
    have hl : ∀ st : St W τ, pipeLoop sys none node rest st = ([], node, rest, none, st) := by
      intro st
      cases rest with
      | nil => rfl
      | cons m rest => rw [pipeLoop, if_neg (hp m (by simp))]
    have hlaunch : ∀ (b : Bool) (st : St W τ), launch sys b node rest st = ([], node, rest, st) := by
      intro b st
      unfold launch
      cases b <;> simp [hl]
    rw [runNodes.eq_2]
    simp only [hlaunch]
    rw [if_pos (by simp [ha]), closeLine_eq st _ rfl, if_pos (by simpa using ha)]
    rfl

/-- Leaving a block or a level ends the lines of the block: the others have no effect, and the state stays left. -/
theorem C46_block (sys : Sys ι ν W τ) (n : Nat) (l nodes : List (Node ι ν)) (ls : List (List (Node ι ν))) (st st1 : St W τ)
    (h : runLine sys n l st = some (nodes, st1)) (ha : st1.abort = .block ∨ st1.abort = .level) :
    runLines (runLine sys n) (l :: ls) st = some st1 := by
  rw [runLines, h]
  simp only
  rw [if_pos ha.symm]

/-- Leaving a level ends the script. -/
theorem C46_level (sys : Sys ι ν W τ) (n : Nat) (l nodes : List (Node ι ν)) (w : W) (st st1 : St W τ)
    (hf : sys.fetch st.world = some (l, w)) (h : runLine sys n l { st with world := w } = some (nodes, st1))
    (ha : st1.abort = .level) : runBatch sys (n + 1) st = some st1 := by
  rw [runBatch.eq_def]
  simp only [hf, h]
  rw [if_pos ha]

/-- A command that leaves the line, in a line without pipelines: the rest has no effect, whatever it is.  The command may
be a block or a call in which something left. -/
theorem C46_rest_partial (sys : Sys ι ν W τ) (n : Nat) (node : Node ι ν) (hl : node.2.2.look = false)
    (rest : List (Node ι ν)) (hp : ∀ p ∈ rest, p.1 ≠ .pipe) (st st' : St W τ) (after : List (Node ι ν))
    (h : runLine sys (n + 1) [node] st = some (after, st')) (ha : st'.abort ≠ .no) :
    (runLine sys (n + 1) (node :: rest) st).map (·.2) = some st' := by
  rw [runLine] at h ⊢
  have hpl : ∀ (rest : List (Node ι ν)) (hp : ∀ p ∈ rest, p.1 ≠ .pipe) (st : St W τ),
      pipeLoop sys none node rest st = ([], node, rest, none, st) := by
    intro rest hp st
    cases rest with
    | nil => rfl
    | cons m rest => rw [pipeLoop, if_neg (hp m (by simp))]
  have hlaunch : ∀ (rest : List (Node ι ν)) (hp : ∀ p ∈ rest, p.1 ≠ .pipe) (b : Bool) (st : St W τ),
      launch sys b node rest st = ([], node, rest, st) := by
    intro rest hp b st
    unfold launch
    cases b <;> simp [hpl rest hp]
  have hrest : ∀ st : St W τ, st.abort ≠ .no → runNodes sys (runCmd sys n) rest st = some (rest, st) := by
    intro st ha
    have := C46_line_partial sys n rest (fun p hp' => hp p (List.mem_of_mem_tail hp')) st ha
    rw [runLine] at this
    exact this
  have hnil : ∀ st : St W τ, runNodes sys (runCmd sys n) [] st = some ([], st) := fun st => by rw [runNodes]
  rw [runNodes.eq_2] at h ⊢
  simp only [hlaunch rest hp, hlaunch [] (by simp), hl, Bool.false_eq_true, if_false, Bool.or_false, hnil,
    List.nil_append] at h ⊢
  obtain ⟨ct, cr, cc⟩ := node
  split
  · next hsk =>
    rw [if_pos hsk] at h
    have hst : st' = closeLine st.io.lockState { st with io := st.io.setLock true } := by
      split at h <;> cases h <;> rfl
    subst hst
    rw [if_pos (by simpa using ha)]
    rfl
  · next hsk =>
    rw [if_neg hsk] at h
    rw [(runCmd_plain sys n) ct cr cc rest _ hl]
    rw [(runCmd_plain sys n) ct cr cc [] _ hl] at h
    simp only at h ⊢
    cases hrc : runCmd sys n (NodeType.none, cr, cc) [] (execOutput sys cr { st with io := st.io.setLock true }) with
    | none => rw [hrc] at h; cases h
    | some x =>
      rw [hrc] at h
      simp only [Option.map_some] at h ⊢
      have hst : st' = closeLine st.io.lockState x.2.2 := by
        split at h <;> cases h <;> rfl
      subst hst
      split
      · rfl
      · rw [hrest _ ha]; rfl

/-- Leaving inside an iteration ends a loop. -/
theorem C46_loop (sys : Sys ι ν W τ) (n : Nat) (x : ν) (xs : List ν) (nodes after : List (Node ι ν)) (st st1 : St W τ)
    (h : runLine sys n nodes { st with world := sys.setVar (some x) st.world } = some (after, st1)) (ha : st1.abort ≠ .no) :
    (runLoop sys (runLine sys n) (x :: xs) nodes st).map (·.2) = some st1 := by
  rw [runLoop, h]
  simp only
  rw [if_pos ha]
  rfl

/-- Whatever a called script or label leaves, the line calling it goes on: after a call nothing is left. -/
theorem C46_call (sys : Sys ι ν W τ) (n : Nat) (ty : NodeType) (r : Redir ι) (i : ι) (st st' : St W τ) (nodes : List (Node ι ν))
    (ha : st.abort = .no) (h : runLine sys n [(ty, r, .call i)] st = some (nodes, st')) : st'.abort = .no := by
  have hexec : ∀ st : St W τ, st.abort = .no → (execOutput sys r st).abort = .no := by
    have ho : ∀ f fd (st : St W τ), st.abort = .no → (openRedir sys f fd st).abort = .no := by
      intro f fd st h
      unfold openRedir
      split
      · exact h
      · split <;> exact h
    intro st h
    unfold execOutput
    have := ho (r.error.map (fun f => (f.1, some f.2))) .err _ (ho (r.output.map (fun f => (f.1, some f.2))) .out _
      (ho (r.input.map (fun f => (f, none))) .inp st h))
    simp only
    split
    · exact this
    · split <;> exact this
  cases n with
  | zero => cases h
  | succ n =>
    rw [runLine, runNodes.eq_2] at h
    have hl : ∀ (b : Bool) (st : St W τ), launch sys b (ty, r, .call i) [] st = ([], (ty, r, .call i), [], st) := by
      intro b st
      unfold launch
      cases b <;> rfl
    simp only [hl, Cmd.look] at h
    have hc : ∀ (b : Bool) (st : St W τ), (closeLine b st).abort = st.abort := fun _ _ => rfl
    split at h
    · rw [if_neg (by simp [hc, ha])] at h
      simp only [Bool.false_eq_true, if_false, runNodes.eq_1] at h
      cases h
      exact ha
    · cases n with
      | zero => rw [runCmd.eq_def] at h; cases h
      | succ n =>
        rw [runCmd.eq_def] at h
        simp only [Bool.false_eq_true, if_false] at h
        have h0 : (execOutput sys r { st with io := st.io.setLock true }).abort = .no := hexec _ ha
        generalize execOutput sys r { st with io := st.io.setLock true } = st0 at h h0
        cases hen : sys.enter i st0.world with
        | error code =>
          simp only [hen, Bool.not_true, Bool.or_self, Bool.false_eq_true, if_false, runNodes.eq_1] at h
          cases h
          exact h0
        | ok w =>
          simp only [hen] at h
          cases hb : runBatch sys n { st0 with world := w, io := st0.io.setLock true } with
          | none => simp only [hb] at h; cases h
          | some st1 =>
            simp only [hb, Bool.not_true, Bool.or_self, Bool.false_eq_true, if_false, runNodes.eq_1] at h
            cases h
            rfl

/-- The claim is false when the rest of the line contains a pipeline: its first members are run.  `99 & 3 | 4`, where `99`
leaves the line. -/
theorem C46_pipeline_runs :
    (runLine errSys 3 [(.none, {}, .simple 99), (.none, {}, .simple 3), (.pipe, {}, .simple 4)] errInit).map
      (fun x => x.2.world.reverse) = some [99, 103] := by decide +kernel

/-- Without a pipeline. -/
example : (runLine errSys 9 [(.none, {}, .simple 99), (.none, {}, .iff 1 [[(.none, {}, .simple 5)]] none)] errInit).map
    (fun x => (x.2.world.reverse, x.2.abort)) = some ([99], .line) := by decide +kernel

/-- `for %i in (7 8) do (1 & 98) & 3`, where `98` leaves the block. -/
example : (runLine errSys 9 [(.none, {}, .loop [7, 8] [[(.none, {}, .simple 1), (.none, {}, .simple 98)], [(.none, {}, .simple 2)]]),
    (.none, {}, .simple 3)] errInit).map (fun x => (x.2.world.reverse, x.2.abort)) = some ([1007, 1, 98], .block) := by
  decide +kernel

end PBat
