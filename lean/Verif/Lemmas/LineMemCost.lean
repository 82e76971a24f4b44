import Verif.Lemmas.LineMemRun
/-
What a line costs at least.
-/
namespace PBat.Lm
open PBat.Spec.Lm

def MonoAt {α : Type} (s : St) : Out α → Prop
  | .done _ s' => cost s ≤ cost s'
  | .gone s' => cost s ≤ cost s'
  | _ => True

/-- Nothing is taken back. -/
def Mono {α : Type} (m : M α) : Prop := ∀ s, MonoAt s (m s)

/-- The code leaves `bAbortCommand` and the record as they are. -/
def Quiet {α : Type} (m : M α) : Prop := ∀ s a s', m s = .done a s' → s'.ab = s.ab ∧ cost s' = cost s

variable {α β : Type}

theorem bind_done {m : M α} {f : α → M β} {s s'' b} (h : (m >>= f) s = .done b s'') : ∃ a s', m s = .done a s' ∧ f a s' = .done b s'' := by
  change M.andThen m f s = _ at h
  unfold M.andThen at h
  cases hm : m s with
  | done a s' => rw [hm] at h; exact ⟨a, s', rfl, h⟩
  | gone s' => rw [hm] at h; cases h
  | ub => rw [hm] at h; cases h
  | fuel => rw [hm] at h; cases h

theorem mono_bind {m : M α} {f : α → M β} (h1 : Mono m) (h2 : ∀ a, Mono (f a)) : Mono (m >>= f) := by
  intro s
  change MonoAt s (M.andThen m f s)
  unfold M.andThen
  have k1 := h1 s
  generalize m s = o at k1
  cases o with
  | done a s' =>
    have k2 := h2 a s'
    dsimp only
    generalize f a s' = o2 at k2
    cases o2 with
    | done b s'' => exact Nat.le_trans k1 k2
    | gone s'' => exact Nat.le_trans k1 k2
    | ub => trivial
    | fuel => trivial
  | gone s' => exact k1
  | ub => trivial
  | fuel => trivial

theorem mono_pure (a : α) : Mono (pure a : M α) := fun _ => Nat.le_refl _
theorem mono_alloc : Mono alloc := fun _ => Nat.le_refl _
theorem mono_free (i : Nat) : Mono (free i) := by
  intro s; unfold free; split
  · exact Nat.le_refl (cost s)
  · trivial
theorem mono_use (i : Nat) : Mono (use i) := by
  intro s; unfold use; split
  · exact Nat.le_refl (cost s)
  · trivial
theorem mono_ask (f : Nat → α) : Mono (ask f) := fun _ => Nat.le_refl _
theorem mono_getAb : Mono getAb := fun _ => Nat.le_refl _
theorem mono_setAb (a : Abort) : Mono (setAb a) := fun _ => Nat.le_refl _
theorem mono_exit : Mono (exit_ : M α) := fun _ => Nat.le_refl _
theorem mono_undef : Mono (undef : M α) := fun _ => trivial
theorem mono_deep : Mono (deep : M α) := fun _ => trivial
theorem mono_else : Mono (record fun s => { s with elses := s.elses + 1 }) := by intro s; simp only [record, MonoAt, cost]; omega
theorem mono_unknown : Mono (record fun s => { s with unknowns := s.unknowns + 1 }) := by intro s; simp only [record, MonoAt, cost]; omega
theorem mono_bare : Mono (record fun s => { s with bares := s.bares + 1 }) := by intro s; simp only [record, MonoAt, cost]; omega
theorem mono_left (k : Nat) : Mono (record fun s => { s with lefts := s.lefts + k }) := by intro s; simp only [record, MonoAt, cost]; omega
theorem mono_thread {m : M Unit} (h : Mono m) : Mono (thread m) := by
  intro s
  have k := h s
  unfold thread
  generalize m s = o at k
  cases o with
  | done a s' => exact k
  | gone s' => exact k
  | ub => trivial
  | fuel => trivial

macro "mono1" : tactic => `(tactic| with_reducible first
  | assumption
  | exact mono_pure _ | exact mono_alloc | exact mono_free _ | exact mono_use _ | exact mono_ask _ | exact mono_getAb | exact mono_setAb _
  | exact mono_exit | exact mono_undef | exact mono_deep | exact mono_else | exact mono_unknown | exact mono_bare | exact mono_left _
  | refine mono_thread ?_
  | refine mono_bind ?_ (fun _ => ?_)
  | split)
macro "mono" : tactic => `(tactic| repeat' mono1)

theorem mono_allocs : ∀ n, Mono (allocs n)
  | 0 => mono_pure _
  | n + 1 => by have := mono_allocs n; unfold allocs; mono
theorem mono_frees : ∀ l, Mono (frees l)
  | [] => mono_pure _
  | i :: r => by have := mono_frees r; unfold frees; mono
theorem mono_freeStream (s : Strm) : Mono (freeStream s) := by
  have := mono_frees s.files; unfold freeStream; mono
theorem mono_freeStreamOf : ∀ s, Mono (freeStreamOf s)
  | none => mono_pure _
  | some s => mono_freeStream s
theorem mono_freeLast : ∀ s, Mono (freeLast s)
  | none => mono_pure _
  | some s => mono_free s
theorem mono_freeNodes : ∀ ns last, Mono (freeNodes last ns)
  | [], last => mono_freeLast last
  | n :: r, last => by
    have h1 := mono_freeLast last
    have h2 := mono_freeStreamOf n.strm
    have h3 := mono_freeNodes r (some n.id)
    unfold freeNodes; mono
theorem mono_parseOps : ∀ l acc, Mono (parseOps acc l)
  | [], acc => mono_pure _
  | (h, c) :: r, acc => by
    have h1 := fun ns => mono_freeNodes ns none
    have h3 := fun acc => mono_parseOps r acc
    unfold parseOps; mono
    · exact h1 _
    · exact h3 _
theorem mono_parseOut (h : Head) (str : Nat) : Mono (parseOut h str) := by
  have h1 := mono_allocs h.files
  unfold parseOut; mono
  exact mono_freeStream _
theorem mono_parseOuts : ∀ l acc, Mono (parseOuts acc l)
  | [], acc => mono_pure _
  | (h, n) :: r, acc => by
    have h1 := mono_parseOut h n.str
    have h3 := fun acc => mono_parseOuts r acc
    unfold parseOuts; mono
    · exact mono_freeNodes _ _
    · exact h3 _
theorem mono_parse (l : Line) : Mono (parse l) := by
  have h1 := mono_parseOps l []
  unfold parse; mono
  exact mono_parseOuts _ _
theorem mono_make (src : Nat) (c : Cmd) (n : Node) : Mono (make src c n) := by unfold make; mono
theorem mono_makeNew (src : Nat) (c : Cmd) : Mono (makeNew src c) := by unfold makeNew; mono
theorem mono_dup : ∀ s, Mono (dup s)
  | none => mono_undef
  | some s => by have := mono_allocs s.files.length; unfold dup; mono
theorem mono_useFiles : ∀ l, Mono (useFiles l)
  | [] => mono_pure _
  | i :: r => by have := mono_useFiles r; unfold useFiles; mono
theorem mono_execOut : ∀ s, Mono (execOut s)
  | none => mono_pure _
  | some s => by have := mono_useFiles s.files; unfold execOut; mono
theorem mono_test (str : Nat) (c : Cond) : Mono (test str c) := by cases c <;> unfold test <;> mono
theorem mono_skipped (e : Env) (t : Ty) : Mono (skipped e t) := by cases t <;> unfold skipped <;> mono

structure Monos (e : Env) (n : Nat) : Prop where
  line : ∀ l, Mono (runLine e n l)
  nodes : ∀ ns, Mono (runNodes e n ns)
  pipes : ∀ a x r, Mono (pipes e n a x r)
  cmd : ∀ l s c, Mono (runCmd e n l s c)
  lines : ∀ b l ls, Mono (runLines e n b l ls)
  batch : ∀ l, Mono (runBatch e n l)
  loop : ∀ p i es f l ns, Mono (runLoop e n p i es f l ns)

macro "mono2" ih:ident : tactic => `(tactic| repeat' with_reducible first
  | exact ($ih).line _ | exact ($ih).nodes _ | exact ($ih).pipes _ _ _ | exact ($ih).cmd _ _ _ | exact ($ih).lines _ _ _ | exact ($ih).batch _
  | exact ($ih).loop _ _ _ _ _ _
  | exact mono_parse _ | exact mono_make _ _ _ | exact mono_makeNew _ _ | exact mono_dup _ | exact mono_execOut _ | exact mono_test _ _
  | exact mono_skipped _ _ | exact mono_freeNodes _ _ | exact mono_freeStream _ | exact mono_allocs _ | exact mono_frees _
  | mono1)

theorem monos (e : Env) : ∀ n, Monos e n
  | 0 =>
    { line := fun _ => by unfold runLine; exact mono_deep
      nodes := fun _ => by unfold runNodes; exact mono_deep
      pipes := fun _ _ _ => by unfold pipes; exact mono_deep
      cmd := fun _ _ _ => by unfold runCmd; exact mono_deep
      lines := fun _ _ _ => by unfold runLines; exact mono_deep
      batch := fun _ => by unfold runBatch; exact mono_deep
      loop := fun _ _ _ _ _ _ => by unfold runLoop; exact mono_deep }
  | n + 1 => by
    have ih := monos e n
    constructor
    · intro l; rw [runLine]; mono2 ih
    · intro ns; cases ns <;> rw [runNodes] <;> mono2 ih
    · intro a x r; cases r <;> rw [pipes] <;> mono2 ih
    · intro l s c; cases c <;> rw [runCmd.eq_def] <;> dsimp only <;> mono2 ih
    · intro b l ls; cases ls <;> rw [runLines] <;> mono2 ih
    · intro l; rw [runBatch]; mono2 ih
    · intro p i es f l ns; cases f <;> cases l <;> rw [runLoop] <;> mono2 ih

theorem mono_end {m : M α} (hm : Mono m) {s a s'} (h : m s = .done a s') : cost s ≤ cost s' := by
  have := hm s
  rw [h] at this
  exact this

/-! ### Code that changes nothing of interest -/

theorem quiet_bind {m : M α} {f : α → M β} (h1 : Quiet m) (h2 : ∀ a, Quiet (f a)) : Quiet (m >>= f) := by
  intro s b s'' h
  obtain ⟨a, s', g1, g2⟩ := bind_done h
  have k1 := h1 _ _ _ g1
  have k2 := h2 _ _ _ _ g2
  exact ⟨k2.1.trans k1.1, k2.2.trans k1.2⟩

theorem quiet_pure (a : α) : Quiet (pure a : M α) := fun _ _ _ h => by cases h; exact ⟨rfl, rfl⟩
theorem quiet_alloc : Quiet alloc := fun _ _ _ h => by cases h; exact ⟨rfl, rfl⟩
theorem quiet_ask (f : Nat → α) : Quiet (ask f) := fun _ _ _ h => by cases h; exact ⟨rfl, rfl⟩
theorem quiet_undef : Quiet (undef : M α) := fun _ _ _ h => by cases h
theorem quiet_free (i : Nat) : Quiet (free i) := by
  intro s a s' h; unfold free at h; split at h <;> cases h; exact ⟨rfl, rfl⟩
theorem quiet_use (i : Nat) : Quiet (use i) := by
  intro s a s' h; unfold use at h; split at h <;> cases h; exact ⟨rfl, rfl⟩

macro "quiet" : tactic => `(tactic| repeat' first
  | assumption
  | exact quiet_pure _ | exact quiet_alloc | exact quiet_free _ | exact quiet_use _ | exact quiet_ask _ | exact quiet_undef
  | refine quiet_bind ?_ (fun _ => ?_)
  | split)

theorem quiet_allocs : ∀ n, Quiet (allocs n)
  | 0 => quiet_pure _
  | n + 1 => by have := quiet_allocs n; unfold allocs; quiet
theorem quiet_frees : ∀ l, Quiet (frees l)
  | [] => quiet_pure _
  | i :: r => by have := quiet_frees r; unfold frees; quiet
theorem quiet_freeStream (s : Strm) : Quiet (freeStream s) := by
  have := quiet_frees s.files; unfold freeStream; quiet
theorem quiet_parseOut (h : Head) (str : Nat) : Quiet (parseOut h str) := by
  have h1 := quiet_allocs h.files
  unfold parseOut; quiet
  exact quiet_frees _
theorem quiet_useFiles : ∀ l, Quiet (useFiles l)
  | [] => quiet_pure _
  | i :: r => by have := quiet_useFiles r; unfold useFiles; quiet
theorem quiet_execOut : ∀ s, Quiet (execOut s)
  | none => quiet_pure _
  | some s => by have := quiet_useFiles s.files; unfold execOut; quiet
theorem quiet_make (src : Nat) (c : Cmd) (n : Node) : Quiet (make src c n) := by unfold make; quiet
theorem quiet_makeNew (src : Nat) (c : Cmd) : Quiet (makeNew src c) := by unfold makeNew; quiet

/-- A line of one part that parses. -/
theorem parse_one {h : Head} {c : Cmd} {s s' o} (hs : h.stop = .ok) (he : parse [(h, c)] s = .done o s') :
    (∃ nd, o = some [nd] ∧ nd.cmd = c ∧ nd.ty = h.ty) ∧ s'.ab = s.ab ∧ cost s' = cost s := by
  obtain ⟨o1, s1, h1, h2⟩ := bind_done he
  unfold parseOps at h1
  obtain ⟨id, s2, g1, h1⟩ := bind_done h1
  obtain ⟨str, s3, g2, h1⟩ := bind_done h1
  rw [if_neg (by rw [hs]; decide)] at h1
  have q1 := quiet_alloc _ _ _ g1
  have q2 := quiet_alloc _ _ _ g2
  cases h1
  change parseOuts [] [(h, _)] s1 = _ at h2
  unfold parseOuts at h2
  obtain ⟨_, s4, g3, h2⟩ := bind_done h2
  have q3 := quiet_use _ _ _ _ g3
  obtain ⟨st, s5, g4, h2⟩ := bind_done h2
  have q4 := quiet_parseOut _ _ _ _ _ g4
  have hst : ∃ x, st = some x := by
    unfold parseOut at g4
    obtain ⟨_, _, _, g4⟩ := bind_done g4
    obtain ⟨_, _, _, g4⟩ := bind_done g4
    obtain ⟨_, _, _, g4⟩ := bind_done g4
    obtain ⟨_, _, _, g4⟩ := bind_done g4
    obtain ⟨_, _, _, g4⟩ := bind_done g4
    rw [if_neg (by rw [hs]; decide)] at g4
    obtain ⟨_, _, _, g4⟩ := bind_done g4
    obtain ⟨_, _, _, g4⟩ := bind_done g4
    obtain ⟨_, _, _, g4⟩ := bind_done g4
    cases g4
    exact ⟨_, rfl⟩
  obtain ⟨x, rfl⟩ := hst
  cases h2
  exact ⟨⟨_, rfl, rfl, rfl⟩, by rw [q4.1, q3.1, q2.1, q1.1], by rw [q4.2, q3.2, q2.2, q1.2]⟩

/-- Such a line runs its command once. -/
theorem line_one {e : Env} {n : Nat} {h : Head} {c : Cmd} {s s'} (hs : h.stop = .ok) (ht : h.ty = .none) (ha : s.ab = .no)
    (he : runLine e n [(h, c)] s = .done () s') :
    ∃ m nd s1 q s2, runCmd e m [nd] nd.str c s1 = .done q s2 ∧ s1.ab = .no ∧ cost s1 = cost s ∧ cost s2 ≤ cost s' := by
  cases n with
  | zero => unfold runLine at he; cases he
  | succ n =>
    rw [runLine] at he
    obtain ⟨o, s1, g1, he⟩ := bind_done he
    obtain ⟨⟨nd, rfl, hc, hty⟩, p1, p2⟩ := parse_one hs g1
    obtain ⟨ns, s2, g2, g3⟩ := bind_done he
    have m1 := mono_freeNodes ns none s2
    rw [g3] at m1
    cases n with
    | zero => unfold runNodes at g2; cases g2
    | succ n =>
      rw [runNodes] at g2
      obtain ⟨_, s3, k1, g2⟩ := bind_done g2
      have q1 := quiet_use _ _ _ _ k1
      obtain ⟨_, s4, k2, g2⟩ := bind_done g2
      have q2 := quiet_use _ _ _ _ k2
      rw [hty, ht] at g2
      obtain ⟨sk, s5, k3, g2⟩ := bind_done g2
      cases k3
      have hab : s4.ab = .no := by rw [q2.1, q1.1, p1, ha]
      have hm := monos e n
      have hr : ∃ s7 q s8, s7.ab = .no ∧ cost s7 = cost s4 ∧ runCmd e n [nd] nd.str c s7 = .done q s8 ∧ cost s8 ≤ cost s2 := by
        cases hk : nd.cmd.look with
        | true =>
          simp only [hk, Bool.true_or, if_true] at g2
          obtain ⟨p, s6, k4, g2⟩ := bind_done g2
          cases k4
          obtain ⟨ab, s7, k5, g2⟩ := bind_done g2
          cases k5
          rw [hab] at g2
          simp only [ne_eq, not_true_eq_false, if_false, Bool.false_eq_true] at g2
          obtain ⟨q, s8, k6, g2⟩ := bind_done g2
          rw [hc] at k6
          refine ⟨_, q, s8, hab, rfl, k6, ?_⟩
          refine mono_end (m := _) ?_ g2
          mono2 hm
        | false =>
          simp only [hk, Bool.false_or, if_false, Bool.false_eq_true] at g2
          obtain ⟨p, s6, k4, g4⟩ := bind_done g2
          have k8 : p = ([], nd, []) ∧ s6 = s4 := by
            cases n with
            | zero => unfold pipes at k4; cases k4
            | succ n => rw [pipes] at k4; cases k4; exact ⟨rfl, rfl⟩
          rw [k8.1, k8.2] at g4
          obtain ⟨ab, s7, k5, g5⟩ := bind_done g4
          cases k5
          rw [hab] at g5
          simp only [ne_eq, not_true_eq_false, if_false] at g5
          obtain ⟨_, s7, k7, g6⟩ := bind_done g5
          have q7 := quiet_execOut _ _ _ _ k7
          obtain ⟨q, s8, k6, g7⟩ := bind_done g6
          rw [hc] at k6
          refine ⟨_, q, s8, by rw [q7.1, hab], q7.2, k6, ?_⟩
          refine mono_end (m := _) ?_ g7
          mono2 hm
      obtain ⟨s7, q, s8, r1, r2, r3, r4⟩ := hr
      exact ⟨n, nd, s7, q, s8, r3, r1, by rw [r2, q2.2, q1.2, p2], Nat.le_trans r4 m1⟩

end PBat.Lm
