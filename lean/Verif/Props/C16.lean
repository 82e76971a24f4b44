import Verif.Lemmas.Run
/-
C16: `&`, `&&` and `||`.
-/
namespace PBat
open Spec

variable {ι ν W τ : Type}

/-- Running a line amounts to running its parts (commands or pipelines) one after the other, each as a line of its own,
where a part after `&&` runs only if the error level is zero, a part after `||` only if it is not, and nothing runs once
the line was left.  This holds for all commands and redirections, unless the line contains IF or FOR (which take the rest
of the line for themselves, C44), or was left by a command when it contains a pipeline (C46). -/
theorem C16_chain_partial (sys : Sys ι ν W τ) (n : Nat) (l : List (Link × Part ι ν)) (hl : ∀ x ∈ l, Ordinary x.2) (st : St W τ)
    (hab : (∀ x ∈ l, x.2.2 = []) ∨ ∀ y, runLine sys (n + 1) (lineNodes l) st = some y → y.2.abort = .no) :
    (runLine sys (n + 1) (lineNodes l) st).map (·.2) =
      chain (fun p s => (runLine sys (n + 1) (partNodes .none p) s).map (·.2)) (·.err) (fun s => s.abort ≠ .no) l st := by
  have key := runNodes_chain sys (runCmd_plain sys n) l hl st (by
    rcases hab with h | h
    · exact .inl h
    · refine .inr ?_
      intro y hy
      refine h y ?_
      rw [runLine]
      exact hy)
  have hrl : ∀ nodes st, runLine sys (n + 1) nodes st = runNodes sys (runCmd sys n) nodes st := by
    intro nodes st
    rw [runLine]
  simp only [hrl]
  cases h : runNodes sys (runCmd sys n) (lineNodes l) st with
  | none => exact (key.2 h).symm
  | some y => exact (key.1 y h).2.symm

/-- What running one command as a line of its own does: its redirections are opened, it runs once with the streams they
give, and its error level and effects remain. -/
theorem C16_command (sys : Sys ι ν W τ) (n : Nat) (r : Redir ι) (i : ι) (st : St W τ) (ha : st.abort = .no) :
    let st1 := execOutput sys r { st with io := st.io.setLock true }
    let o := sys.exec i st1.world st1.err st1.io.streams
    (runLine sys (n + 2) (partNodes .none ((r, .simple i), [])) st).map (·.2) = some ⟨o.1, o.2.1, o.2.2, st.io⟩ := by
  have hrun : ∃ x, runLine sys (n + 2) (partNodes .none ((r, .simple i), [])) st = some x ∧
      (let st1 := execOutput sys r { st with io := st.io.setLock true }
       let o := sys.exec i st1.world st1.err st1.io.streams
       ∃ io, x.2 = ⟨o.1, o.2.1, o.2.2, io⟩) := by
    rw [runLine, partNodes, List.map_nil, runNodes.eq_2]
    simp [skips, Cmd.look, launch, pipeLoop, ha, runCmd, runNodes, closeLine]
  obtain ⟨x, hx, io, hio⟩ := hrun
  have := (run_io sys (n + 2)).1 _ _ x.1 x.2 hx
  rw [hio] at this
  simp only at this ⊢
  rw [hx, Option.map_some, hio, this]

/-- Commands named by what they do: the world records them, the error level becomes their value. -/
def errSys : Sys Int Int (List Int) Nat where
  exec i w _ _ := (i :: w, i, if i = 99 then .line else if i = 98 then .block else .no)
  test i _ _ := if i = 1 then .yes else .no
  setVar x w := match x with | some v => (1000 + v) :: w | none => w
  openFile _ _ w := (w, none)
  pipe w := (w, 0)
  spawn _ c _ _ _ w := match c with | .simple i => (100 + i) :: w | _ => w
  enter _ w := .ok w
  leave _ w := w
  fetch _ := none

def errInit : St (List Int) Nat := ⟨[], 0, .no, ⟨0, 1, 2, true, false, []⟩⟩

/-- `1 && 2 || 0 && 3 | 4 & 99 & 5`. -/
example : (runLine errSys 3
    [(.none, {}, .simple 1), (.yes, {}, .simple 2), (.not, {}, .simple 0), (.yes, {}, .simple 3), (.pipe, {}, .simple 4),
      (.none, {}, .simple 6)] errInit).map (fun x => (x.2.world.reverse, x.2.err)) = some ([1, 0, 103, 4, 6], 6) := by
  decide +kernel

example : (runLine errSys 3 [(.none, {}, .simple 1), (.not, {}, .simple 99), (.none, {}, .simple 5)] errInit).map
    (fun x => (x.2.world.reverse, x.2.err)) = some ([1, 99], 99) := by decide +kernel

example : lineNodes (ι := Int) (ν := Int) [(.seq, (({}, .simple 1), [])), (.and, (({}, .simple 3), [({}, .simple 4)]))] =
    [(.none, {}, .simple 1), (.yes, {}, .simple 3), (.pipe, {}, .simple 4)] := rfl

end PBat
