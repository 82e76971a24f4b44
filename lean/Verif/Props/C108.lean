import Verif.Lemmas.LineMemCost
/-
C108: the memory of the lines that are run.
-/
namespace PBat
open PBat.Lm PBat.Spec.Lm

/-! ### Lines of any kind -/

private theorem block_of {j q : Prop} {ls : List Line} (h : ∀ l ∈ ls, ∀ p ∈ l, ∀ b, Fine j q b p.2) (b : Bool) : Fine j q b (.block ls) :=
  .block (fun l hl p hp => h l hl p hp true) (fun l hl a p x r e _ _ => h l hl p (by rw [e]; simp) false)

private theorem all_fine {j q : Prop} (hj : j) (hq : ¬ q) : ∀ (c : Cmd) (b : Bool), Fine j q b c
  | .simple, _ => .simple
  | .call, _ => .call
  | .macro c, b => .macro (all_fine hj hq c b)
  | .xargs c, _ => .xargs (all_fine hj hq c false)
  | .block ls, b => block_of (fun l hl p hp b => all_fine hj hq p.2 b) b
  | .iff yes no, _ => .iff (fun h => absurd h hq) (block_of fun l hl p hp b => all_fine hj hq p.2 b)
      (fun no' hno => block_of fun l hl p hp b => all_fine hj hq p.2 b)
  | .loop _ body, _ => .loop (fun _ => ⟨hj, hq⟩) (block_of fun l hl p hp b => all_fine hj hq p.2 b)
  termination_by c => sizeOf c
  decreasing_by
    all_goals (try subst hno)
    all_goals simp_wf
    all_goals first
      | omega
      | (have h1 := List.sizeOf_lt_of_mem hl
         have h2 := List.sizeOf_lt_of_mem hp
         have h3 : sizeOf p = 1 + sizeOf p.1 + sizeOf p.2 := by cases p; rfl
         omega)

private theorem env_fine {e : Env} (h : ∀ t, e.junk t = false) : FineEnv True False e where
  fetch _ _ _ b := all_fine trivial (fun h => h) _ b
  junk _ := h
  exits h := h.elim
  cond h := h.elim
  item h := h.elim

private theorem line_fine (l : Line) : FineLine True False l := fun b => all_fine trivial (fun h => h) _ b

private theorem post {j q : Prop} {e : Env} (he : FineEnv j q e) {l : Line} (hl : FineLine j q l) (n : Nat) (s : St) :
    Post q (fun _ => 0) (fun _ => True) s (s.live : Blocks) (runLine e n l s) := (runs he n).line l hl s _ (by simp)

/-- Whatever lines are run, in whatever order things happen, no block is used or freed that is not in use, as long as `malloc` returns blocks with
zeros where FOR without a line looks. -/
theorem C108_safe_partial (e : Env) (hj : ∀ t, e.junk t = false) (n : Nat) (l : Line) (s : St) : runLine e n l s ≠ .ub := by
  intro h
  have := post (env_fine hj) (line_fine l) n s
  rw [h] at this
  exact this

/-- The same whatever `malloc` returns, for lines that never run FOR without its line. -/
theorem C108_line_partial (e : Env) (he : FineEnv False False e) (n : Nat) (l : Line) (hl : FineLine False False l) (s : St) :
    runLine e n l s ≠ .ub := by
  intro h
  have := post he hl n s
  rw [h] at this
  exact this

/-- No line frees a block that was in use before it. -/
theorem C108_others (e : Env) (hj : ∀ t, e.junk t = false) (n : Nat) (l : Line) (s s' : St) (a : Unit)
    (h : runLine e n l s = .done a s' ∨ runLine e n l s = .gone s') : s.live.Subperm s'.live := by
  have := post (env_fine hj) (line_fine l) n s
  rw [← Multiset.coe_le]
  rcases h with h | h <;> rw [h] at this
  · obtain ⟨_, _, ⟨lost, h1, _⟩, _⟩ := this
    rw [h1]; exact Multiset.le_add_left _ _
  · obtain ⟨_, _, rest, h1⟩ := this
    rw [h1]; exact Multiset.le_add_left _ _

/-- After any line, the blocks in use are those before it and those lost: two for every IF with an ELSE that ran its command, one for every operator of
IF not known, one for every FOR without a line, and the files of every pattern left by GOTO or EXIT /B.  Members of pipes that are ended by EXIT are left out. -/
theorem C108_freed_partial (e : Env) (hj : ∀ t, e.junk t = false) (n : Nat) (l : Line) (s s' : St) (a : Unit) (h : runLine e n l s = .done a s')
    (hg : s'.gones = s.gones) : ∃ lost : List Nat, s'.live.Perm (lost ++ s.live) ∧ lost.length + cost s = cost s' := by
  have := post (env_fine hj) (line_fine l) n s
  rw [h] at this
  obtain ⟨_, _, ⟨lost, h1, h2⟩, _⟩ := this
  obtain ⟨k, rfl⟩ := Quot.exists_rep lost
  refine ⟨k, ?_, h2 hg⟩
  rw [← Multiset.coe_eq_coe, h1, ← Multiset.coe_add]
  exact congrArg (· + (s.live : Blocks)) (zero_add (k : Blocks))

/-- A line whose IFs have no ELSE, whose FORs have their line and meet no pattern, and in which nothing is ended by EXIT, gives back all it took. -/
theorem C108_all_freed (e : Env) (j : Prop) (he : FineEnv j True e) (n : Nat) (l : Line) (hl : FineLine j True l) (s : St) :
    (∀ s', runLine e n l s ≠ .gone s') ∧ ∀ a s', runLine e n l s = .done a s' → s'.live.Perm s.live := by
  have := post he hl n s
  refine ⟨fun s' h => ?_, fun a s' h => ?_⟩ <;> rw [h] at this
  · exact this.1 trivial
  · obtain ⟨_, _, ⟨lost, h1, h2⟩, h3⟩ := this
    obtain ⟨h4, h5⟩ := h3 trivial
    have h6 := h2 h5
    have : lost = 0 := Multiset.card_eq_zero.1 (by omega)
    rw [← Multiset.coe_eq_coe, h1, this]; simp

/-- The same for a script that is run to its end, with the string of its lines. -/
theorem C108_script (e : Env) (j : Prop) (he : FineEnv j True e) (n : Nat) (i : Nat) (s : St) (hi : i ∈ s.live) :
    (runBatch e n i s ≠ .ub ∧ ∀ s', runBatch e n i s ≠ .gone s') ∧ ∀ a s', runBatch e n i s = .done a s' → s'.live.Perm s.live := by
  have hs : (s.live : Blocks) = {i} + ((s.live.erase i : List Nat) : Blocks) := by
    rw [← Multiset.coe_erase, Multiset.singleton_add, Multiset.cons_erase (by simpa using hi)]
  have := (runs he n).batch i s _ hs
  refine ⟨⟨fun h => ?_, fun s' h => ?_⟩, fun a s' h => ?_⟩ <;> rw [h] at this
  · exact this
  · exact this.1 trivial
  · obtain ⟨_, _, ⟨lost, h1, h2⟩, h3⟩ := this
    obtain ⟨h4, h5⟩ := h3 trivial
    have h6 := h2 h5
    have : lost = 0 := Multiset.card_eq_zero.1 (by omega)
    rw [← Multiset.coe_eq_coe, h1, this, hs]; simp

/-! ### What is lost -/

private theorem loses {e : Env} (hj : ∀ t, e.junk t = false) {n : Nat} {l : Line} {s s' : St} (h : runLine e n l s = .done () s')
    (hg : s'.gones = s.gones) {k : Nat} (hk : cost s + k ≤ cost s') : s.live.length + k ≤ s'.live.length := by
  obtain ⟨lost, h1, h2⟩ := C108_freed_partial e hj n l s s' () h hg
  rw [h1.length_eq, List.length_append]
  omega

private theorem test_true {str : Nat} {c : Cond} (hc : Holds c) {s t s'} (h : test str c s = .done t s') : t = .inl true := by
  rcases hc with rfl | rfl | rfl <;> unfold test at h
  · cases h; rfl
  · obtain ⟨_, _, _, h⟩ := bind_done h
    obtain ⟨_, _, _, h⟩ := bind_done h
    obtain ⟨_, _, _, h⟩ := bind_done h
    cases h; rfl
  · obtain ⟨_, _, _, h⟩ := bind_done h
    obtain ⟨_, _, _, h⟩ := bind_done h
    obtain ⟨_, _, _, h⟩ := bind_done h
    obtain ⟨_, _, _, h⟩ := bind_done h
    obtain ⟨_, _, _, h⟩ := bind_done h
    obtain ⟨_, _, _, h⟩ := bind_done h
    cases h; rfl

/-- IF with an ELSE loses two blocks whenever its condition is met, whatever its commands are. -/
theorem C108_else (e : Env) (hj : ∀ t, e.junk t = false) (hc : ∀ t, Holds (e.cond t)) (n : Nat) (h : Head) (hs : h.stop = .ok) (ht : h.ty = .none)
    (yes no : List Line) (s s' : St) (ha : s.ab = .no) (hr : runLine e n [(h, .iff yes (some no))] s = .done () s') (hg : s'.gones = s.gones) :
    s.live.length + 2 ≤ s'.live.length := by
  refine loses hj hr hg ?_
  obtain ⟨m, nd, s1, q, s2, h1, _, h3, h4⟩ := line_one hs ht ha hr
  cases m with
  | zero => unfold runCmd at h1; cases h1
  | succ m =>
    rw [runCmd.eq_def] at h1
    dsimp only at h1
    obtain ⟨_, s3, k1, h1⟩ := bind_done h1
    have q1 := quiet_use _ _ _ _ k1
    obtain ⟨c, s4, k2, h1⟩ := bind_done h1
    have q2 := quiet_ask _ _ _ _ k2
    cases k2
    obtain ⟨t, s5, k3, h1⟩ := bind_done h1
    have q3 := mono_end (mono_test _ _) k3
    have := test_true (hc _) k3
    subst this
    obtain ⟨nd', s6, k4, h1⟩ := bind_done h1
    have q4 := mono_end (mono_makeNew _ _) k4
    obtain ⟨ns, s7, k5, h1⟩ := bind_done h1
    have q5 := mono_end ((monos e m).nodes _) k5
    obtain ⟨_, s8, k6, h1⟩ := bind_done h1
    cases k6
    cases h1
    have q6 : cost { s7 with elses := s7.elses + 1 } = cost s7 + 2 := by simp only [cost]; omega
    have h4 : cost { s7 with elses := s7.elses + 1 } ≤ cost s' := h4
    omega

/-- IF with an operator that is not known loses a block. -/
theorem C108_unknown (e : Env) (hj : ∀ t, e.junk t = false) (hc : ∀ t, e.cond t = .unknown) (n : Nat) (h : Head) (hs : h.stop = .ok)
    (ht : h.ty = .none) (yes : List Line) (no : Option (List Line)) (s s' : St) (ha : s.ab = .no)
    (hr : runLine e n [(h, .iff yes no)] s = .done () s') (hg : s'.gones = s.gones) : s.live.length + 1 ≤ s'.live.length := by
  refine loses hj hr hg ?_
  obtain ⟨m, nd, s1, q, s2, h1, _, h3, h4⟩ := line_one hs ht ha hr
  cases m with
  | zero => unfold runCmd at h1; cases h1
  | succ m =>
    rw [runCmd.eq_def] at h1
    dsimp only at h1
    obtain ⟨_, s3, k1, h1⟩ := bind_done h1
    have q1 := quiet_use _ _ _ _ k1
    obtain ⟨c, s4, k2, h1⟩ := bind_done h1
    have q2 := quiet_ask _ _ _ _ k2
    cases k2
    obtain ⟨t, s5, k3, h1⟩ := bind_done h1
    rw [hc] at k3
    unfold test at k3
    obtain ⟨_, _, g1, k3⟩ := bind_done k3
    obtain ⟨_, _, g2, k3⟩ := bind_done k3
    obtain ⟨_, _, g3, k3⟩ := bind_done k3
    obtain ⟨_, _, g4, k3⟩ := bind_done k3
    obtain ⟨_, s7, g5, k3⟩ := bind_done k3
    obtain ⟨_, s8, g6, k3⟩ := bind_done k3
    have e1 := quiet_alloc _ _ _ g1
    have e2 := quiet_use _ _ _ _ g2
    have e3 := quiet_alloc _ _ _ g3
    have e4 := quiet_use _ _ _ _ g4
    have e5 := quiet_free _ _ _ _ g5
    cases g6
    cases k3
    cases h1
    have q6 : cost { s7 with unknowns := s7.unknowns + 1 } = cost s7 + 1 := by simp only [cost]; omega
    have h4 : cost { s7 with unknowns := s7.unknowns + 1 } ≤ cost s' := h4
    omega

private theorem bare {e : Env} (hf : ∀ t, e.forOk t = true) {m : Nat} {str : Nat} {plain : Bool} {body : List Line} {s q s'}
    (h1 : runCmd e m [] str (.loop plain body) s = .done q s') : (∃ t, e.junk t = false) ∧ cost s + 1 ≤ cost s' := by
  cases m with
  | zero => unfold runCmd at h1; cases h1
  | succ m =>
    rw [runCmd.eq_def] at h1
    dsimp only at h1
    obtain ⟨_, s1, k1, h1⟩ := bind_done h1
    obtain ⟨p, s2, k2, h1⟩ := bind_done h1
    obtain ⟨d, s3, k3, h1⟩ := bind_done h1
    obtain ⟨i, s4, k4, h1⟩ := bind_done h1
    obtain ⟨_, s5, k5, h1⟩ := bind_done h1
    obtain ⟨ok, s6, k6, h1⟩ := bind_done h1
    have e1 := quiet_use _ _ _ _ k1
    have e2 := quiet_alloc _ _ _ k2
    have e3 := quiet_alloc _ _ _ k3
    have e4 := quiet_alloc _ _ _ k4
    have e5 := quiet_use _ _ _ _ k5
    have e6 := quiet_ask _ _ _ _ k6
    have hok : ok = true := by cases k6; exact hf _
    rw [hok] at h1
    simp only [if_true] at h1
    obtain ⟨nd, s7, k7, h1⟩ := bind_done h1
    have e7 := quiet_makeNew _ _ _ _ _ k7
    obtain ⟨es, s8, k8, h1⟩ := bind_done h1
    have e8 := quiet_alloc _ _ _ k8
    obtain ⟨ns, s9, k9, h1⟩ := bind_done h1
    have e9 := mono_end ((monos e m).loop _ _ _ _ _ _) k9
    obtain ⟨_, s10, k10, h1⟩ := bind_done h1
    have e10 := quiet_free _ _ _ _ k10
    obtain ⟨_, s11, k11, h1⟩ := bind_done h1
    have e11 := quiet_free _ _ _ _ k11
    obtain ⟨_, s12, k12, h1⟩ := bind_done h1
    have e12 := quiet_free _ _ _ _ k12
    obtain ⟨_, s13, k13, h1⟩ := bind_done h1
    have e13 := quiet_free _ _ _ _ k13
    obtain ⟨_, s14, k14, h1⟩ := bind_done h1
    have e14 := quiet_use _ _ _ _ k14
    obtain ⟨jk, s15, k15, h1⟩ := bind_done h1
    have e15 := quiet_ask _ _ _ _ k15
    split at h1
    · cases h1
    · rename_i hjk
      obtain ⟨_, s16, k16, h1⟩ := bind_done h1
      have e16 := quiet_free _ _ _ _ k16
      obtain ⟨_, s17, k17, h1⟩ := bind_done h1
      cases k17
      cases h1
      have q6 : cost { s16 with bares := s16.bares + 1 } = cost s16 + 1 := by simp only [cost]; omega
      refine ⟨?_, ?_⟩
      · cases k15
        exact ⟨_, by simpa using hjk⟩
      · show cost s + 1 ≤ cost { s16 with bares := s16.bares + 1 }
        omega

private theorem xargs_bare {e : Env} (hf : ∀ t, e.forOk t = true) {n : Nat} {h : Head} (hs : h.stop = .ok) (ht : h.ty = .none)
    {plain : Bool} {body : List Line} {s s' : St} (ha : s.ab = .no) (hr : runLine e n [(h, .xargs (.loop plain body))] s = .done () s') :
    (∃ t, e.junk t = false) ∧ cost s + 1 ≤ cost s' := by
  obtain ⟨m, nd, s1, q, s2, h1, _, h3, h4⟩ := line_one hs ht ha hr
  cases m with
  | zero => unfold runCmd at h1; cases h1
  | succ m =>
    rw [runCmd.eq_def] at h1
    dsimp only at h1
    obtain ⟨_, t1, k1, h1⟩ := bind_done h1
    obtain ⟨p, t2, k2, h1⟩ := bind_done h1
    obtain ⟨d, t3, k3, h1⟩ := bind_done h1
    obtain ⟨_, t4, k4, h1⟩ := bind_done h1
    obtain ⟨_, t5, k5, h1⟩ := bind_done h1
    obtain ⟨_, t6, k6, h1⟩ := bind_done h1
    obtain ⟨_, t7, k7, h1⟩ := bind_done h1
    cases h1
    have e1 := quiet_use _ _ _ _ k1
    have e2 := quiet_alloc _ _ _ k2
    have e3 := quiet_alloc _ _ _ k3
    have e4 := quiet_use _ _ _ _ k4
    obtain ⟨g1, g2⟩ := bare hf k5
    have e6 := quiet_free _ _ _ _ k6
    have e7 := quiet_free _ _ _ _ k7
    exact ⟨g1, by omega⟩

/-- XARGS with FOR loses a block, whatever FOR runs ... -/
theorem C108_bare (e : Env) (hj : ∀ t, e.junk t = false) (hf : ∀ t, e.forOk t = true) (n : Nat) (h : Head) (hs : h.stop = .ok) (ht : h.ty = .none)
    (plain : Bool) (body : List Line) (s s' : St) (ha : s.ab = .no) (hr : runLine e n [(h, .xargs (.loop plain body))] s = .done () s')
    (hg : s'.gones = s.gones) : s.live.length + 1 ≤ s'.live.length :=
  loses hj hr hg (xargs_bare hf hs ht ha hr).2

/-- ... or never ends well, if `malloc` does not return zeros. -/
theorem C108_junk (e : Env) (hj : ∀ t, e.junk t = true) (hf : ∀ t, e.forOk t = true) (n : Nat) (h : Head) (hs : h.stop = .ok) (ht : h.ty = .none)
    (plain : Bool) (body : List Line) (s s' : St) (ha : s.ab = .no) : runLine e n [(h, .xargs (.loop plain body))] s ≠ .done () s' := by
  intro hr
  obtain ⟨t, h⟩ := (xargs_bare hf hs ht ha hr).1
  rw [hj] at h; cases h

/-! ### Cases -/

/-- What is left after a run: how many blocks, or none if it does not end. -/
private def blocks : Out Unit → Option Nat
  | .done _ s => some s.live.length
  | _ => none

private def isUb : Out Unit → Bool
  | .ub => true
  | _ => false

private def env : Env where
  skip _ := false
  exits _ := false
  abort _ := .no
  cond _ := .two true
  forOk _ := true
  item t := if t < 3 then .text else .stop
  fetch _ := none
  junk _ := false

private def start : St := ⟨[], 0, 0, .no, 0, 0, 0, 0, 0⟩
private def hd : Head := ⟨.none, 1, .ok⟩
private def echo : List Line := [[(hd, .simple)]]
private def pipe : Head := ⟨.pipe, 0, .ok⟩

/-- FOR in the middle of a pipe is run without its line: what is freed there is not what it is taken for. -/
theorem C108_pipe : ∃ (e : Env) (l : Line) (n : Nat), (∀ p ∈ l, p.2 = .simple ∨ p.2 = .loop true echo) ∧ isUb (runLine e n l start) = true :=
  ⟨{ env with junk := fun _ => true }, [(hd, .simple), (pipe, .loop true echo), (pipe, .simple)], 20, by
    intro p hp
    simp only [List.mem_cons, List.not_mem_nil, or_false] at hp
    rcases hp with rfl | rfl | rfl
    · exact .inl rfl
    · exact .inr rfl
    · exact .inl rfl, by decide +kernel⟩

/-- FOR over the files of a pattern loses their list when its command is EXIT /B. -/
theorem C108_left : ∃ (e : Env) (l : Line) (n : Nat), (∀ t, e.junk t = false ∧ e.exits t = false) ∧ l = [(hd, .loop true echo)] ∧
    blocks (runLine e n l start) = some 5 :=
  ⟨{ env with item := fun _ => .found 5, abort := fun _ => .level }, _, 20, fun _ => ⟨rfl, rfl⟩, rfl, by decide +kernel⟩

-- `if a==b echo` then `for`, with redirections, in a pipe: all given back
example : blocks (runLine env 30 [(hd, .iff echo none), (⟨.none, 2, .ok⟩, .simple)] start) = some 0 := by decide +kernel
example : blocks (runLine env 30 [(hd, .simple), (pipe, .simple), (⟨.yes, 0, .ok⟩, .loop true echo)] start) = some 0 := by decide +kernel
example : blocks (runLine env 30 [(hd, .macro (.iff echo none))] start) = some 0 := by decide +kernel
example : blocks (runLine env 30 [(hd, .iff echo (some echo))] start) = some 2 := by decide +kernel
example : blocks (runLine env 30 [(hd, .xargs (.loop true echo))] start) = some 1 := by decide +kernel
example : blocks (runLine { env with cond := fun _ => .unknown } 30 [(hd, .iff echo none)] start) = some 1 := by decide +kernel
example : isUb (runLine { env with junk := fun _ => true } 30 [(hd, .xargs (.loop true echo))] start) = true := by decide +kernel
example : ∀ t, Holds (env.cond t) := fun _ => .inr (.inr rfl)
-- an environment in which nothing is lost, with a script of lines
example : FineEnv False True { env with fetch := fun t => if t < 9 then some [(hd, .iff echo none), (hd, .loop true echo)] else none } where
  fetch t l h := by
    have he : ∀ b, Fine False True b (.block echo) := fun b => .block
      (by intro l hl p hp; simp only [echo, List.mem_singleton] at hl; subst hl; simp only [List.mem_singleton] at hp; subst hp; exact .simple)
      (by intro l hl a p x r e; simp only [echo, List.mem_singleton] at hl; subst hl; rcases a with _ | ⟨_, _ | _⟩ <;> simp at e)
    dsimp only at h
    split at h
    · cases h
      intro b
      refine .block ?_ ?_
      · intro l hl p hp
        rw [List.mem_singleton] at hl
        subst hl
        simp only [List.mem_cons, List.not_mem_nil, or_false] at hp
        rcases hp with rfl | rfl
        · exact .iff (fun _ _ => rfl) he (fun _ h => by cases h)
        · exact .loop (fun h => by cases h) he
      · intro l hl a p x r e hx
        rw [List.mem_singleton] at hl
        subst hl
        rcases a with _ | ⟨_, _ | ⟨_, _ | _⟩⟩ <;> simp at e
        obtain ⟨_, h, _⟩ := e
        subst h
        cases hx
    · cases h
  junk h := h.elim
  exits _ _ := rfl
  cond _ _ h := by cases h
  item _ t k h := by dsimp only [env] at h; split at h <;> cases h

end PBat
