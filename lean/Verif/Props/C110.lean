import Verif.Lemmas.FlowCmd
/-
C110: a pipeline gives what its members would give one after the other, however they are scheduled, and comes to its end.
-/
namespace PBat.Flow
open PBat.Spec.Flow

/-- Whatever the order in which the members take their steps and whatever the size of the pipes: when all have ended, the pipeline has written what its
members would write one after the other, each with the whole output of the one before it. -/
theorem C110_result (ms : List (List Cmd)) (hn : ms ≠ []) (inp : List UInt8) (cap k : Nat) (s : St (List Micro))
    (hr : Reach next cap ms.length k (start ms inp) s) (hd : AllDone next ms.length s) :
    s.pipe ms.length = result ms inp := by
  have hn' : 0 < ms.length := List.length_pos_iff.2 hn
  obtain ⟨c, hI⟩ := inv_start ms inp hn'
  obtain ⟨u', c', hI', _, _⟩ := inv_reach hr hI
  exact inv_done hI' hn' hd

/-- And at any time before, a beginning of it. -/
theorem C110_prefix (ms : List (List Cmd)) (hn : ms ≠ []) (inp : List UInt8) (cap k : Nat) (s : St (List Micro))
    (hr : Reach next cap ms.length k (start ms inp) s) : s.pipe ms.length <+: result ms inp := by
  obtain ⟨c, hI⟩ := inv_start ms inp (List.length_pos_iff.2 hn)
  obtain ⟨u', c', hI', _, _⟩ := inv_reach hr hI
  exact ⟨_, hI'.last⟩

/-- The members do not take steps for ever: there is a number of steps no order exceeds. -/
theorem C110_bounded (ms : List (List Cmd)) (hn : ms ≠ []) (inp : List UInt8) (cap : Nat) :
    ∃ N, ∀ k s, Reach next cap ms.length k (start ms inp) s → k ≤ N := by
  obtain ⟨c, hI⟩ := inv_start ms inp (List.length_pos_iff.2 hn)
  refine ⟨total c ms.length, fun k s hr => ?_⟩
  obtain ⟨u', c', _, e, _⟩ := inv_reach hr hI
  omega

/-- A pipe never holds more than its size. -/
theorem C110_room (ms : List (List Cmd)) (inp : List UInt8) (cap k : Nat) (s : St (List Micro))
    (hr : Reach next cap ms.length k (start ms inp) s) (i : Nat) (h0 : 0 < i) (hi : i < ms.length) : (s.pipe i).length ≤ cap := by
  have key : ∀ {k : Nat} {s t : St (List Micro)}, Reach next cap ms.length k s t → (s.pipe i).length ≤ cap → (t.pipe i).length ≤ cap := by
    intro k s t hr
    induction hr with
    | refl s => exact id
    | @step k s t u j hj hs _ ih =>
      intro h
      apply ih
      unfold step at hs
      split at hs
      · cases hs
      · split at hs
        · next hjn =>
          cases hs
          simp only
          rw [upd_other _ _ (by omega)]; exact h
        · split at hs
          · cases hs; exact h
          · split at hs
            · cases hs
              simp only [upd]
              split
              · next e => subst e; simp only [List.length_append, List.length_singleton]; omega
              · exact h
            · cases hs
      · split at hs
        · next b r hp =>
          cases hs
          simp only [upd]
          split
          · next e => subst e; rw [hp] at h; simp only [List.length_cons] at h; omega
          · exact h
        · split at hs
          · cases hs; exact h
          · cases hs
      · split at hs
        · cases hs; exact h
        · cases hs
      · cases hs; exact h
  refine key hr ?_
  show (if i = 0 then inp else []).length ≤ cap
  rw [if_neg (by omega)]; simp

/-- Full statement: when nobody can go on, everybody has ended.  Proved when of two members that take the same lock, those that write to a pipe
write no more than it holds; otherwise see `C110_deadlock`. -/
theorem C110_ends_partial (ms : List (List Cmd)) (inp : List UInt8) (cap : Nat) (hcap : 0 < cap)
    (hok : ∀ m i j, i < ms.length → j + 1 < ms.length → i ≠ j → TakesM m (ms.getD i []) → TakesM m (ms.getD j []) →
      (upto ms inp j).length ≤ cap)
    (k : Nat) (s : St (List Micro)) (hr : Reach next cap ms.length k (start ms inp) s) (hs : Stuck next cap ms.length s) :
    AllDone next ms.length s :=
  ends_all hcap ms inp hok hr hs

/-- So, when no two members take the same lock (ECHO or SET /A in one of them only), every order comes to the end, with the right result. -/
theorem C110_apart (ms : List (List Cmd)) (hn : ms ≠ []) (ha : Apart ms) (inp : List UInt8) (cap : Nat) (hcap : 0 < cap)
    (k : Nat) (s : St (List Micro)) (hr : Reach next cap ms.length k (start ms inp) s) (hs : Stuck next cap ms.length s) :
    AllDone next ms.length s ∧ s.pipe ms.length = result ms inp := by
  have hd : AllDone next ms.length s := ends_all hcap ms inp
    (fun m i j hi hj hij hti htj => absurd (ha m i j hi (by omega) hti htj) hij) hr hs
  exact ⟨hd, C110_result ms hn inp cap k s hr hd⟩

/-- The same for any members whose outputs fit into the pipes. -/
theorem C110_small (ms : List (List Cmd)) (hn : ms ≠ []) (inp : List UInt8) (cap : Nat) (hcap : 0 < cap)
    (hsm : ∀ j, j + 1 < ms.length → (upto ms inp j).length ≤ cap)
    (k : Nat) (s : St (List Micro)) (hr : Reach next cap ms.length k (start ms inp) s) (hs : Stuck next cap ms.length s) :
    AllDone next ms.length s ∧ s.pipe ms.length = result ms inp := by
  have hd : AllDone next ms.length s := ends_all hcap ms inp (fun m i j _ hj _ _ _ => hsm j hj) hr hs
  exact ⟨hd, C110_result ms hn inp cap k s hr hd⟩

/-- A lock is held by at most one thread, and by one that has not ended. -/
theorem C110_locks (ms : List (List Cmd)) (inp : List UInt8) (cap k : Nat) (s : St (List Micro))
    (hr : Reach next cap ms.length k (start ms inp) s) (m : Mx) (i j : Nat) (hi : i < ms.length) (hj : j < ms.length)
    (h1 : heldBy (s.prog i) = some m) (h2 : heldBy (s.prog j) = some m) : i = j ∧ next (s.prog i) ≠ .done := by
  have hL := locks_reach (fun i _ => disc_prog _) hr (locks_start ms inp)
  have e1 := hL.holds m i hi h1
  have e2 := hL.holds m j hj h2
  rw [e1] at e2
  refine ⟨by simpa using e2, fun hd => ?_⟩
  rw [done_cases hd] at h1
  cases h1

/-- Violation: ECHO holds its lock while it writes.  When a member writes, with ECHO, a line and then more than the pipe holds, and the next one answers
each line with ECHO, there is an order after which both wait for ever: whatever the lines are and whatever the size of the pipe. -/
theorem C110_deadlock (cap : Nat) (hcap : 0 < cap) (w : List UInt8) (hw : ∀ b ∈ w, b ≠ 10) (t : List UInt8) (ts : List (List UInt8))
    (hlen : cap < (t :: ts).flatten.length) (f : List UInt8 → List Simple) (x : List UInt8) (xs : List Simple)
    (hf : f (w ++ [10]) = .echo x :: xs) (inp : List UInt8) :
    ∃ k s, Reach next cap 2 k (start [((w ++ [10]) :: t :: ts).map (fun l => .simple (.echo l)), [.each f]] inp) s
      ∧ Stuck next cap 2 s ∧ next (s.prog 0) ≠ .done ∧ next (s.prog 1) ≠ .done := by
  have hprog : ∀ l : List (List UInt8), prog (l.map fun l => .simple (.echo l)) = micros (l.map .echo) := by
    intro l; simp [prog, micros, List.map_map]; rfl
  let s0 := start [((w ++ [10]) :: t :: ts).map (fun l => Cmd.simple (.echo l)), [.each f]] inp
  let R : List Micro := .unlock .echo :: micros ((t :: ts).map .echo)
  have h0 : s0.prog 0 = .lock .echo :: ((w ++ [10]).map .put ++ R) := by
    show prog (((w ++ [10]) :: t :: ts).map fun l => Cmd.simple (.echo l)) = _
    rw [hprog]
    simp [micros, Simple.micro, R]
  have h1 : s0.prog 1 = .each [] f :: [] := by
    show prog [.each f] = _
    rfl
  let s1 : St (List Micro) := { s0 with prog := upd s0.prog 0 ((w ++ [10]).map .put ++ R), held := setMx s0.held .echo (some 0) }
  have hst1 : step next cap 2 0 s0 = some s1 := by
    unfold step
    rw [h0]
    simp only [next]
    rfl
  obtain ⟨k2, s2, hr2, g0, g1, g2, g3⟩ := first_line hcap (f := f) (r := []) (R := R) w [] s1 hw (by simp [s1, upd])
    (by simp only [s1]; rw [upd_other _ _ (by omega)]; exact h1)
    (by show (if 1 = 0 then inp else []) = []; rfl)
  have g3' : s2.held .echo = some 0 := by rw [g3]; simp [s1, setMx]
  have g1' : s2.prog 1 = .lock .echo :: (x.map .put ++ .unlock .echo :: micros xs ++ [.each [] f]) := by
    rw [g1]; simp [hf, micros, Simple.micro]
  obtain ⟨k3, s3, hr3, hs3, e3⟩ := fill (cap := cap) (t :: ts) [] s2 g0 g3' g1' (by rw [g2]; simp) (by rw [g2]; simpa using hlen)
  obtain ⟨k, hk⟩ := reach_trans hr2 hr3
  refine ⟨k + 1, s3, .step (by omega) hst1 hk, hs3, ?_, ?_⟩
  · intro hd
    have hst := hs3 1 (by omega)
    -- the writer has not ended: the lock is held
    obtain ⟨c, hI⟩ := inv_start [((w ++ [10]) :: t :: ts).map (fun l => Cmd.simple (.echo l)), [.each f]] inp (by simp)
    have hL := locks_reach (n := 2) (p := fun i => prog ([((w ++ [10]) :: t :: ts).map (fun l => Cmd.simple (.echo l)), [.each f]].getD i []))
      (fun i _ => disc_prog _) (Reach.step (by omega) hst1 hk) (locks_start [((w ++ [10]) :: t :: ts).map (fun l => Cmd.simple (.echo l)), [.each f]] inp)
    rw [step, e3] at hst
    simp only [next] at hst
    split at hst
    · cases hst
    · next j hj =>
      obtain ⟨hj2, hh⟩ := hL.own .echo j hj
      rcases (by omega : j = 0 ∨ j = 1) with rfl | rfl
      · rw [done_cases hd] at hh; cases hh
      · rw [e3] at hh; cases hh
  · rw [e3]; simp [next]

/-! ### Examples -/

/-- `type f | find "b"`: the lines of `f` that contain a `b`. -/
def exFind : List (List Cmd) := [[.simple (.print [97, 10, 98, 10])], [.each fun l => if l.contains 98 then [.print l] else []]]

example : result exFind [] = [98, 10] := by decide
example : Apart exFind := by
  intro m i j hi hj h1 h2
  exfalso
  obtain ⟨c, hc, ht⟩ := h1
  have : i = 0 ∨ i = 1 := by simp [exFind] at hi; omega
  rcases this with rfl | rfl
  · simp [exFind] at hc; subst hc; exact ht
  · simp [exFind] at hc; subst hc
    obtain ⟨t, c, hc, ht⟩ := ht
    dsimp only at hc
    split at hc
    · simp at hc; subst hc; exact ht
    · cases hc

/-- A run of it, with pipes of one byte: the steps in this order. -/
def exPlay (cap : Nat) (n : Nat) : List Nat → St (List Micro) → Option (St (List Micro))
  | [], s => some s
  | i :: is, s => match step next cap n i s with | none => none | some t => exPlay cap n is t

example : ((exPlay 1 2 [0, 1, 0, 1, 0, 1, 0, 1, 1, 1, 1] (start exFind [])).map fun s => (s.pipe 2, isDone next (s.prog 0), isDone next (s.prog 1)))
    = some ([98, 10], true, true) := by decide

/-- ECHO before the pipe and SET /A behind it take different locks. -/
example : Apart [[.simple (.echo [97, 10])], [.each fun l => [.setA l]]] := by
  intro m i j hi hj h1 h2
  simp at hi hj
  obtain ⟨c, hc, ht⟩ := h1
  obtain ⟨d, hd, hu⟩ := h2
  rcases (by omega : i = 0 ∨ i = 1) with rfl | rfl <;> rcases (by omega : j = 0 ∨ j = 1) with rfl | rfl
  · rfl
  · simp at hc hd; subst hc hd
    obtain ⟨t, e, he, hu⟩ := hu
    simp at he; subst he
    simp only [Takes] at ht hu
    rw [ht] at hu; cases hu
  · simp at hc hd; subst hc hd
    obtain ⟨t, e, he, ht⟩ := ht
    simp at he; subst he
    simp only [Takes] at ht hu
    rw [ht] at hu; cases hu
  · rfl

/-- `(echo a & echo bb) | for each line, echo it`, with a pipe of two bytes. -/
example : ∃ k s, Reach next 2 2 k (start [[.simple (.echo [97, 10]), .simple (.echo [98, 98, 10])], [.each fun l => [.echo l]]] []) s
    ∧ Stuck next 2 2 s ∧ next (s.prog 0) ≠ .done ∧ next (s.prog 1) ≠ .done :=
  C110_deadlock 2 (by decide) [97] (by decide) [98, 98, 10] [] (by decide) (fun l => [.echo l]) [97, 10] [] rfl []

end PBat.Flow
