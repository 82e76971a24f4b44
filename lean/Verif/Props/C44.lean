import Verif.Props.C16
/-
C44: what IF and FOR run.
-/
namespace PBat
open Spec

variable {ι ν W τ : Type}

/-- IF without ELSE, the first command run on a line: if the condition holds its body takes its place in the line, which is
then run; otherwise nothing runs, not even the rest of the line. -/
theorem C44_if_partial (sys : Sys ι ν W τ) (n : Nat) (r : Redir ι) (c : ι) (yes : List (List (Node ι ν)))
    (rest : List (Node ι ν)) (st : St W τ) (ha : st.abort = .no) (b : Bool)
    (hc : sys.test c st.world st.err = if b then .yes else .no) :
    (runLine sys (n + 2) ((.none, r, .iff c yes none) :: rest) st).map (·.2) =
      if b then (runLine sys n ((.none, r, .block yes) :: rest) { st with io := st.io.setLock true }).map
        (fun x => { x.2 with err := 0, io := st.io })
      else some { st with err := 0 } := by
  rw [runLine, runNodes_look sys (by rfl) ha rfl, runCmd.eq_def]
  simp only [hc]
  cases b with
  | false =>
    simp only [Bool.false_eq_true, if_false, Option.map_some]
    rw [closeLine_eq st _ rfl]
  | true =>
    simp only [if_true]
    cases h : runLine sys n ((NodeType.none, r, Cmd.block yes) :: rest) { st with io := st.io.setLock true } with
    | none => rfl
    | some x =>
      simp only [Option.map_some]
      have hio : x.2.io = st.io.setLock true := (run_io sys n).1 _ _ x.1 x.2 h
      rw [closeLine_eq st { x.2 with err := 0 } hio]

/-- IF with ELSE: the first body runs alone, the second one is followed by the rest of the line (which, in the syntax,
belongs to it). -/
theorem C44_if_else_partial (sys : Sys ι ν W τ) (n : Nat) (r : Redir ι) (c : ι) (yes no : List (List (Node ι ν)))
    (rest : List (Node ι ν)) (st : St W τ) (ha : st.abort = .no) (b : Bool)
    (hc : sys.test c st.world st.err = if b then .yes else .no) :
    (runLine sys (n + 2) ((.none, r, .iff c yes (some no)) :: rest) st).map (·.2) =
      (runLine sys n (if b then [(.none, {}, .block yes)] else (.none, r, .block no) :: rest)
        { st with io := st.io.setLock true }).map (fun x => { x.2 with err := 0, io := st.io }) := by
  rw [runLine, runNodes_look sys (by rfl) ha rfl, runCmd.eq_def]
  simp only [hc]
  cases b with
  | false =>
    simp only [Bool.false_eq_true, if_false]
    cases h : runLine sys n ((NodeType.none, r, Cmd.block no) :: rest) { st with io := st.io.setLock true } with
    | none => rfl
    | some x =>
      simp only [Option.map_some]
      have hio : x.2.io = st.io.setLock true := (run_io sys n).1 _ _ x.1 x.2 h
      rw [closeLine_eq st { x.2 with err := 0 } hio]
  | true =>
    simp only [if_true]
    cases h : runLine sys n [(NodeType.none, ({} : Redir ι), Cmd.block yes)] { st with io := st.io.setLock true } with
    | none => rfl
    | some x =>
      simp only [Option.map_some]
      have hio : x.2.io = st.io.setLock true := (run_io sys n).1 _ _ x.1 x.2 h
      rw [closeLine_eq st { x.2 with err := 0 } hio]

/-- FOR at the beginning of a line, followed by no IF or FOR: for each value in order the variable is set and the line,
with the body in the place of the FOR, is run, until a command leaves it; then the variable is removed. -/
theorem C44_for_partial (sys : Sys ι ν W τ) (n : Nat) (r : Redir ι) (xs : List ν) (body : List (List (Node ι ν)))
    (rest : List (Node ι ν)) (hrest : ∀ p ∈ rest, p.2.2.look = false) (st : St W τ) (ha : st.abort = .no) :
    (runLine sys (n + 3) ((.none, r, .loop xs body) :: rest) st).map (·.2) =
      (forEach (fun x s => { s with world := sys.setVar (some x) s.world })
        (fun s => (runLine sys (n + 1) ((.none, r, .block body) :: rest) s).map (·.2)) (fun s => s.abort ≠ .no) xs
        { st with io := st.io.setLock true }).map
      (fun s => { s with err := 0, world := sys.setVar none s.world, io := st.io }) := by
  rw [runLine, runNodes_look sys (by rfl) ha rfl, runCmd.eq_def]
  simp only
  have hsame : ∀ (st : St W τ) nodes' st', runLine sys (n + 1) ((.none, r, .block body) :: rest) st = some (nodes', st') →
      nodes' = (.none, r, .block body) :: rest := by
    intro st nodes' st' h
    rw [runLine] at h
    refine runNodes_same sys (runCmd_plain sys n) _ _ (Nat.le_refl _) ?_ st nodes' st' h
    intro p hp
    rcases List.mem_cons.1 hp with rfl | hp
    · rfl
    · exact hrest p hp
  rw [← runLoop_same sys hsame]
  cases h : runLoop sys (runLine sys (n + 1)) xs ((NodeType.none, r, Cmd.block body) :: rest) { st with io := st.io.setLock true } with
  | none => rfl
  | some x =>
    simp only [Option.map_some]
    have hio : x.2.io = st.io.setLock true :=
      runLoop_io sys (fun nodes st nodes' st' h => (run_io sys (n + 1)).1 nodes st nodes' st' h) xs _ _ x.1 x.2 h
    rw [closeLine_eq st { x.2 with err := 0, world := sys.setVar none x.2.world } hio]

/-- `for %i in (7 8) do (5 || 6) & 2`. -/
example : (runLine errSys 9 [(.none, {}, .loop [7, 8] [[(.none, {}, .simple 5), (.not, {}, .simple 6)]]), (.none, {}, .simple 2)]
    errInit).map (fun x => (x.2.world.reverse, x.2.err)) = some ([1007, 5, 6, 2, 1008, 5, 6, 2], 0) := by decide +kernel

/-- After `||` only the first iteration runs: `5 || for %i in (7 8) do 0` runs `0` for 7 only, as the test of the operator
is repeated on the node of the FOR, whose body has changed the error level. -/
theorem C44_for_after_or :
    (runLine errSys 9 [(.none, {}, .simple 5), (.not, {}, .loop [7, 8] [[(.none, {}, .simple 0)]])] errInit).map
      (fun x => x.2.world.reverse) = some [5, 1007, 0, 1008] := by decide +kernel

/-- The same for `&&`: `0 && for %i in (7 8) do 5`. -/
theorem C44_for_after_and :
    (runLine errSys 9 [(.none, {}, .simple 0), (.yes, {}, .loop [7, 8] [[(.none, {}, .simple 5)]])] errInit).map
      (fun x => x.2.world.reverse) = some [0, 1007, 5, 1008] := by decide +kernel

/-- At the end of a pipeline IF and FOR do not run their command at all: `3 | if 1 5` and `3 | for %i in (7) do 5`. -/
theorem C44_after_pipe :
    (runLine errSys 9 [(.none, {}, .simple 3), (.pipe, {}, .iff 1 [[(.none, {}, .simple 5)]] none)] errInit).map
      (fun x => x.2.world.reverse) = some [103] ∧
    (runLine errSys 9 [(.none, {}, .simple 3), (.pipe, {}, .loop [7] [[(.none, {}, .simple 5)]])] errInit).map
      (fun x => x.2.world.reverse) = some [103, 1007] := by decide +kernel

/-- An interpreter whose condition depends on the loop variable. -/
def varSys : Sys Int Int (List Int) Nat where
  exec i w _ _ := (i :: w, i, .no)
  test i w _ := if w.contains (1000 + i) && !(w.contains (1001 + i)) then .yes else .no
  setVar x w := match x with | some v => (1000 + v) :: w | none => w
  openFile _ _ w := (w, none)
  pipe w := (w, 0)
  spawn _ _ _ _ _ w := w
  enter _ w := .ok w
  leave _ w := w
  fetch _ := none

/-- `for %i in (7 8) do 2 & if %i==7 5` runs `5` for 8 as well: the first iteration has replaced the IF by its body in the
line that the loop runs again. -/
theorem C44_if_after_for_frozen :
    (runLine varSys 9 [(.none, {}, .loop [7, 8] [[(.none, {}, .simple 2)]]), (.none, {}, .iff 7 [[(.none, {}, .simple 5)]] none)]
      errInit).map (fun x => x.2.world.reverse) = some [1007, 2, 5, 1008, 2, 5] ∧
    varSys.test 7 [2, 1008, 5, 2, 1007] 0 = .no := by decide +kernel

end PBat
