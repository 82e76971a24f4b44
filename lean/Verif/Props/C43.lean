import Verif.Props.C16
/-
C43: the error level of compound commands.
-/
namespace PBat
open Spec

variable {ι ν W τ : Type}

/-- A block leaves the error level its lines left, for all lines. -/
theorem C43_block_partial (sys : Sys ι ν W τ) (n : Nat) (ty : NodeType) (r : Redir ι) (lines : List (List (Node ι ν)))
    (rest after : List (Node ι ν)) (more : Bool) (st st' : St W τ)
    (h : runCmd sys (n + 1) (ty, r, .block lines) rest st = some (after, more, st')) :
    ∃ s, runLines (runLine sys n) lines { st with io := st.io.setLock true } = some s ∧ st'.err = s.err := by
  rw [runCmd.eq_def] at h
  simp only at h
  split at h
  · cases h
  · next s hs => cases h; exact ⟨s, hs, rfl⟩

/-- A call leaves the error level the called script left. -/
theorem C43_call_partial (sys : Sys ι ν W τ) (n : Nat) (ty : NodeType) (r : Redir ι) (i : ι) (w : W)
    (rest after : List (Node ι ν)) (more : Bool) (st st' : St W τ) (hw : sys.enter i st.world = .ok w)
    (h : runCmd sys (n + 1) (ty, r, .call i) rest st = some (after, more, st')) :
    ∃ s, runBatch sys n { st with world := w, io := st.io.setLock true } = some s ∧ st'.err = s.err := by
  rw [runCmd.eq_def] at h
  simp only [hw] at h
  split at h
  · cases h
  · next s hs => cases h; exact ⟨s, hs, rfl⟩

/-- The claim is false for IF: whatever its command does, the error level is zero afterwards. -/
theorem C43_if_loses_error_level (sys : Sys ι ν W τ) (n : Nat) (ty : NodeType) (r : Redir ι) (c : ι)
    (yes : List (List (Node ι ν))) (no : Option (List (List (Node ι ν)))) (rest after : List (Node ι ν)) (more : Bool)
    (st st' : St W τ) (hc : sys.test c st.world st.err = .yes ∨ sys.test c st.world st.err = .no)
    (h : runCmd sys (n + 1) (ty, r, .iff c yes no) rest st = some (after, more, st')) : st'.err = 0 := by
  rw [runCmd.eq_def] at h
  simp only at h
  rcases hc with hc | hc <;> rw [hc] at h <;> simp only at h <;> cases no <;> simp only at h
  · split at h
    · cases h
    · cases h; rfl
  · split at h
    · cases h
    · cases h; rfl
  · cases h; rfl
  · split at h
    · cases h
    · cases h; rfl

/-- The claim is false for FOR. -/
theorem C43_for_loses_error_level (sys : Sys ι ν W τ) (n : Nat) (ty : NodeType) (r : Redir ι) (xs : List ν)
    (body : List (List (Node ι ν))) (rest after : List (Node ι ν)) (more : Bool) (st st' : St W τ)
    (h : runCmd sys (n + 1) (ty, r, .loop xs body) rest st = some (after, more, st')) : st'.err = 0 := by
  rw [runCmd.eq_def] at h
  simp only at h
  split at h
  · cases h
  · cases h; rfl

/-- `if 1==1 x`, where `x` fails with 5, and `(x)`. -/
example : (runLine errSys 9 [(.none, {}, .iff 1 [[(.none, {}, .simple 5)]] none)] errInit).map (fun x => (x.2.world, x.2.err)) =
    some ([5], 0) := by decide +kernel

example : (runLine errSys 9 [(.none, {}, .block [[(.none, {}, .simple 5)]])] errInit).map (fun x => (x.2.world, x.2.err)) =
    some ([5], 5) := by decide +kernel

end PBat
