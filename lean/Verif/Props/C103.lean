import Verif.Lemmas.Spawn
/-!
# C103: programs started from several threads at once
-/
namespace PBat.Spawn
open PBat.Spec.Spawn

theorem inv_run {waits : Nat → Bool} {l : List Act} {s : Sys} (h : Run waits l s) (hl : Low l) (hq : Quiet l) (hn : NoStart l) : Inv waits l s := by
  induction h with
  | nil => exact inv_init waits
  | cons h hs ih =>
    exact inv_step (ih (fun i r w m => hl i r w (List.mem_cons_of_mem _ m)) (fun i m => hq i (List.mem_cons_of_mem _ m))
      (fun i m => hn i (List.mem_cons_of_mem _ m))) hs hl hq hn

theorem good_bad {k : Kd} (h : k.Good) (h' : k.Bad) : False := by cases k <;> simp_all [Kd.Bad, Kd.Good]
theorem told_bad {k : Kd} (h : k.Told) : k.Bad := by cases k <;> simp_all [Kd.Bad, Kd.Told]

/-- Whatever runs are in progress and however their calls interleave, the caller of a run is told that it failed only if no program
was begun for it, because of `fork` or of `execv`; and it is told a value only if the program was begun: 0 if it does not
wait, otherwise the exit code of the program, which has ended. -/
theorem C103_told_partial {waits : Nat → Bool} {l : List Act} {s : Sys} (h : Run waits l s) (hl : Low l) (hq : Quiet l) (hn : NoStart l)
    {i : Nat} {o : Option Nat} (hr : s.returned i = some o) : Meant l (waits i) i o := by
  have I := inv_run h hl hq hn
  have F := I.fits i
  have hd : s.th i = .done o := by
    unfold Sys.returned at hr
    split at hr
    · rename_i o' e; rw [e]; simp at hr; rw [hr]
    · simp at hr
  rw [hd] at F
  rcases o with _ | c
  · rcases F with ⟨hk, hf⟩ | ht
    · exact ⟨fun m => by have := (I.good i).1 m; rw [hk] at this; exact this, .inl hf⟩
    · exact ⟨fun m => told_good ht ((I.good i).1 m), .inr ((I.bad i).2 (told_bad ht))⟩
  · refine ⟨(I.good i).2 F, ?_⟩
    have V := I.value i c hd
    split at V
    · rename_i hw
      rw [if_pos hw]
      obtain ⟨st, hk, hc⟩ := V
      exact ⟨st, (I.ended i st).2 hk, hc⟩
    · rename_i hw
      rw [if_neg hw]; exact V

/-- A run that was begun and has not returned can go on: its own thread can make a call, or some process still in its preparation can;
unless it waits for the end of its own program.  It never waits for the program of another run. -/
theorem C103_progress_partial {waits : Nat → Bool} {l : List Act} {s : Sys} (h : Run waits l s) (hl : Low l) (hq : Quiet l) (hn : NoStart l)
    {i r w : Nat} (hb : Act.pipe i r w ∈ l) (hr : s.returned i = none) :
    (∃ a s', Step waits s a s' ∧ (Own i a ∨ ∃ j, Prep j a)) ∨
      (waits i = true ∧ Act.exec i true ∈ l ∧ ∀ st, Act.finish i st ∉ l) := by
  have I := inv_run h hl hq hn
  have F := I.fits i
  have B := (I.begun i).1 ⟨r, w, hb⟩
  have prep : ∀ j, KOk j (s.kid j) → (∃ n x, (s.kid j).tab n = some x) → ∃ a s', Step waits s a s' ∧ (Own i a ∨ ∃ j, Prep j a) := by
    intro j K ⟨n, x, hx⟩
    rcases hk : s.kid j with _ | ⟨f, r, w⟩ | ⟨k, f, r, w⟩ | ⟨f, w⟩ | ⟨f, w⟩ | ⟨f, w⟩ | f | _ | f | f | st
    · rw [hk] at hx; simp [Kd.tab] at hx
    · exact ⟨_, _, .kMark hk, .inr ⟨j, .mark⟩⟩
    · by_cases e : k < 2048
      · exact ⟨_, _, .kClose hk e, .inr ⟨j, .close⟩⟩
      · exact ⟨_, _, .kShut hk e, .inr ⟨j, .shut⟩⟩
    · exact ⟨_, _, .execOk hk, .inr ⟨j, .exec⟩⟩
    · exact ⟨_, _, .kWrite hk, .inr ⟨j, .write⟩⟩
    · exact ⟨_, _, .kCloseW hk, .inr ⟨j, .closeW⟩⟩
    · exact ⟨_, _, .kExit hk, .inr ⟨j, .exit⟩⟩
    · rw [hk] at hx; simp [Kd.tab] at hx
    · rw [hk] at K; exact K.elim
    · rw [hk] at hx K; have := K n; simp [Kd.tab, this] at hx
    · rw [hk] at hx; simp [Kd.tab] at hx
  rcases hp : s.th i with _ | ⟨r', w'⟩ | ⟨c, r', w'⟩ | r' | ⟨b, r'⟩ | _ | o
  · exact absurd hp B
  · exact .inl ⟨_, _, .forkOk hp, .inl .fork⟩
  · exact .inl ⟨_, _, .closeW hp, .inl .closeW⟩
  · left
    by_cases hd : s.data i = true
    · exact ⟨_, _, .readX hp hd, .inl .readX⟩
    · by_cases hh : Held s i
      · rcases hh with ⟨n, hn⟩ | ⟨j, n, hn⟩
        · have := (I.tab n i true).1 hn
          rw [hp] at this
          exact absurd this.2 (by simp)
        · exact prep j (I.kok j) ⟨n, _, hn⟩
      · exact ⟨_, _, .readEnd hp (by simpa using hd) hh, .inl .readEnd⟩
  · exact .inl ⟨_, _, .closeR hp, .inl .closeR⟩
  · rw [hp] at F
    rcases hk : s.kid i with _ | ⟨f, r, w⟩ | ⟨k, f, r, w⟩ | ⟨f, w⟩ | ⟨f, w⟩ | ⟨f, w⟩ | f | _ | f | f | st <;> rw [hk] at F <;> try exact F.elim
    · right
      refine ⟨?_, (I.good i).2 (by rw [hk]; exact F), fun st m => ?_⟩
      · rcases hw : waits i with _ | _
        · exact absurd hp (I.nowait i hw)
        · rfl
      · have := (I.ended i st).1 m; rw [hk] at this; simp at this
    · exact .inl ⟨_, _, .wait hp (by rw [hk]; rfl), .inl .wait⟩
  · simp [Sys.returned, hp] at hr

/-- No program is given an end of a pipe of the interpreter, its own or that of another run. -/
theorem C103_clean_partial {waits : Nat → Bool} {l : List Act} {s : Sys} (h : Run waits l s) (hl : Low l) (hq : Quiet l) (hn : NoStart l)
    {i : Nat} (he : Act.exec i true ∈ l) (n : Nat) : (s.kid i).tab n = none := by
  have I := inv_run h hl hq hn
  have G := (I.good i).1 he
  have K := I.kok i
  generalize s.kid i = k at *
  cases k <;> first | exact G.elim | exact K n | rfl

/-- The steps that the thread and the process of a run may still make. -/
def left : Ph → Kd → Nat
  | p, k => (match p with | .idle => 6 | .piped _ _ => 5 | .forked _ _ _ => 4 | .reading _ => 3 | .shut _ _ => 2 | .waiting => 1 | .done _ => 0) +
    (match k with
      | .none => 2051 | .setup _ _ _ => 2051 | .closing k _ _ _ => (2048 - k) + 5 | .ready _ _ => 4 | .failing _ _ => 3 | .wrote _ _ => 2
      | .exiting _ => 1 | .gone => 0 | .bare _ => 2 | .prog _ => 1 | .ended _ => 0)

/-- Not forked yet. -/
def Fresh (p : Ph) : Prop := p = .idle ∨ ∃ r w, p = .piped r w

theorem step_other {waits : Nat → Bool} {s s' : Sys} {a : Act} (h : Step waits s a s') {i : Nat} (hi : run a ≠ i) :
    s'.th i = s.th i ∧ s'.kid i = s.kid i := by
  cases h <;> simp only [run] at hi <;> simp [put, Ne.symm hi]

theorem step_left {waits : Nat → Bool} {s s' : Sys} {a : Act} (h : Step waits s a s') (hk : Fresh (s.th (run a)) → s.kid (run a) = .none) :
    left (s'.th (run a)) (s'.kid (run a)) + 1 ≤ left (s.th (run a)) (s.kid (run a)) ∧
      (Fresh (s'.th (run a)) → s'.kid (run a) = .none) := by
  cases h
  all_goals simp only [run] at hk ⊢
  all_goals simp only [put, if_true]
  case pipe i r w h _ _ _ => rw [h, hk (.inl h)]; simp [left]
  case forkOk i r w h => rw [h, hk (.inr ⟨_, _, h⟩)]; simp [left, Fresh]
  case forkBad i r w h => rw [h, hk (.inr ⟨_, _, h⟩)]; simp [left]
  case start i h => rw [h, hk (.inl h)]; simp [left, Fresh]
  case closeW i c r w h => rw [h]; cases c <;> simp [left, Fresh]; all_goals omega
  case closeR i c r h => rw [h]; cases c <;> cases waits i <;> simp [left, Fresh]; all_goals omega
  case readX i r h _ => rw [h]; simp [left, Fresh]; omega
  case readEnd i r h _ _ => rw [h]; simp [left, Fresh]; omega
  case wait i st h _ => rw [h]; simp [left, Fresh]; omega
  case sigRead i r h => rw [h]; simp [left, Fresh]; omega
  case sigWait i h => rw [h]; simp [left, Fresh]; omega
  all_goals
    first
    | (rename_i h; rw [h] at hk ⊢; exact ⟨by simp only [left]; omega, fun f => absurd (hk f) (by simp)⟩)
    | (rename_i h _; rw [h] at hk ⊢; exact ⟨by simp only [left]; omega, fun f => absurd (hk f) (by simp)⟩)

/-- Runs do not go on for ever: in any history, with signals or not, at most 2057 calls belong to a run. -/
theorem C103_bounded {waits : Nat → Bool} {l : List Act} {s : Sys} (h : Run waits l s) (i : Nat) :
    (l.filter fun a => run a == i).length ≤ 2057 := by
  suffices hs : (l.filter fun a => run a == i).length + left (s.th i) (s.kid i) ≤ 2057 ∧ (Fresh (s.th i) → s.kid i = .none) by omega
  induction h with
  | nil => simp [Sys.init, left]
  | @cons l s a s' h hs ih =>
    obtain ⟨ih, ik⟩ := ih
    rw [List.filter_cons]
    by_cases e : run a = i
    · subst e
      have := step_left hs ik
      simp only [beq_self_eq_true, if_true, List.length_cons]
      exact ⟨by omega, this.2⟩
    · rw [if_neg (by simpa using e), (step_other hs e).1, (step_other hs e).2]
      exact ⟨ih, ik⟩

/-- A run executes at most one program. -/
theorem C103_once {waits : Nat → Bool} {l : List Act} {s : Sys} (h : Run waits l s) (i : Nat) : l.count (.exec i true) ≤ 1 := by
  suffices hs : (l.count (.exec i true) = 0 ∧ ¬ (s.kid i).Good ∧ (Fresh (s.th i) → s.kid i = .none)) ∨ (l.count (.exec i true) = 1 ∧ (s.kid i).Good ∧ ¬ Fresh (s.th i)) by omega
  induction h with
  | nil => exact .inl ⟨rfl, fun h => h, fun _ => rfl⟩
  | @cons l s a s' h hs ih =>
    by_cases e : run a = i
    · subst e
      rw [List.count_cons]
      cases hs
      all_goals simp only [run, put, if_true] at ih ⊢
      all_goals simp [-List.count_eq_zero]
      all_goals grind [Kd.Good, Fresh]
    · have : l.count (.exec i true) = (a :: l).count (.exec i true) := by
        rw [List.count_cons_of_ne]; rintro rfl; exact e rfl
      rw [(step_other hs e).1, (step_other hs e).2, ← this]
      exact ih

/-- The process of a run whose program could not be begun is never waited for: it stays in the table of processes. -/
theorem C103_zombie {waits : Nat → Bool} {l : List Act} {s : Sys} (h : Run waits l s) (hl : Low l) (hq : Quiet l) (hn : NoStart l)
    {i : Nat} (he : Act.exec i false ∈ l) : Act.wait i ∉ l := by
  have I := inv_run h hl hq hn
  intro m
  obtain ⟨c, hc⟩ := I.waited i m
  have F := I.fits i
  rw [hc] at F
  exact good_bad F ((I.bad i).1 he)

/-! ## Histories that exist -/

theorem put_put {α : Type} (f : Nat → α) (n : Nat) (x y : α) : put (put f n x) n y = put f n y := by
  funext m; simp only [put]; split <;> rfl
theorem put_self {α : Type} (f : Nat → α) (n : Nat) (x : α) : put f n x n = x := if_pos rfl
theorem put_ne {α : Type} (f : Nat → α) {n m : Nat} (x : α) (h : m ≠ n) : put f n x m = f m := if_neg h

/-- Several calls, the last first. -/
inductive Steps (waits : Nat → Bool) (s : Sys) : List Act → Sys → Prop
  | nil : Steps waits s [] s
  | cons {l s' a s''} : Steps waits s l s' → Step waits s' a s'' → Steps waits s (a :: l) s''

theorem Steps.trans {waits : Nat → Bool} {s s' s'' : Sys} {l l' : List Act} (h : Steps waits s l s') (h' : Steps waits s' l' s'') :
    Steps waits s (l' ++ l) s'' := by
  induction h' with
  | nil => exact h
  | cons _ hs ih => exact .cons ih hs

theorem Run.steps {waits : Nat → Bool} {s s' : Sys} {l l' : List Act} (h : Run waits l s) (h' : Steps waits s l' s') :
    Run waits (l' ++ l) s' := by
  induction h' with
  | nil => exact h
  | cons _ hs ih => exact .cons ih hs

/-- The loop, from a value of its counter. -/
theorem closes {waits : Nat → Bool} {i r w : Nat} (d : Nat) : ∀ (k : Nat) (f : Fds) (s : Sys), k + d = 2048 → s.kid i = .closing k f r w →
    ∃ f' : Fds, Steps waits s (List.replicate d (.kClose i)) { s with kid := put s.kid i (.closing 2048 f' r w) } ∧
      ∀ n, f'.ce n = f.ce n ∧ (2048 ≤ n → f'.tab n = f.tab n) := by
  induction d with
  | zero =>
    intro k f s hk hs
    refine ⟨f, ?_, fun n => ⟨rfl, fun _ => rfl⟩⟩
    have : ({ s with kid := put s.kid i (.closing 2048 f r w) } : Sys) = s := by
      have : put s.kid i (.closing 2048 f r w) = s.kid := by
        funext m; simp only [put]; split
        · subst m; rw [hs]; simp at hk; rw [hk]
        · rfl
      rw [this]
    rw [this]; exact .nil
  | succ d ih =>
    intro k f s hk hs
    have h1 := Step.kClose (waits := waits) hs (by omega)
    obtain ⟨f', h2, h3⟩ := ih (k + 1) (if k ≠ w then f.close k else f)
      { s with kid := put s.kid i (.closing (k + 1) (if k ≠ w then f.close k else f) r w) } (by omega) (put_self ..)
    refine ⟨f', ?_, fun n => ?_⟩
    · have := (Steps.cons .nil h1).trans h2
      rw [show List.replicate (d + 1) (Act.kClose i) = List.replicate d (Act.kClose i) ++ [Act.kClose i] from List.replicate_succ']
      simpa only [put_put] using this
    · have := h3 n
      refine ⟨by rw [this.1]; split <;> rfl, fun hn => ?_⟩
      rw [this.2 hn]
      split
      · simp only [Fds.close, put]; rw [if_neg (by omega)]
      · rfl

/-- The calls of the whole loop. -/
def closeCalls (i : Nat) : List Act := List.replicate 2045 (.kClose i)

theorem mem_closeCalls {a : Act} {i : Nat} : a ∈ closeCalls i ↔ a = .kClose i := by
  unfold closeCalls; rw [List.mem_replicate]; exact ⟨fun h => h.2, fun h => ⟨by omega, h⟩⟩

/-- The process of a run may always come to begin its program; what is numbered 2048 or more stays open in it. -/
theorem begins {waits : Nat → Bool} {i r w : Nat} (f : Fds) (s : Sys) (hs : s.kid i = .setup f r w) (hr : r < 2048) (hw : r ≠ w) :
    ∃ f' : Fds, Steps waits s (.exec i true :: .kShut i :: (closeCalls i ++ [.kMark i])) { s with kid := put s.kid i (.prog f') } ∧
      (∀ n, 2048 ≤ n → n ≠ w → f.ce n = false → f'.tab n = f.tab n) := by
  have h1 := Step.kMark (waits := waits) hs
  obtain ⟨f1, h2, h3⟩ := closes (waits := waits) (i := i) (r := r) (w := w) 2045 3 (f.mark w)
    { s with kid := put s.kid i (.closing 3 (f.mark w) r w) } rfl (put_self ..)
  have h12 := (Steps.cons .nil h1).trans h2
  simp only [put_put] at h12
  have h4 := h12.cons (.kShut (i := i) (k := 2048) (f := f1) (r := r) (w := w) (put_self ..) (by omega))
  simp only [put_put] at h4
  have h5 := h4.cons (.execOk (i := i) (f := f1.close r) (w := w) (put_self ..))
  simp only [put_put] at h5
  refine ⟨_, h5, fun n hn hnw hc => ?_⟩
  have h6 := h3 n
  have e : f1.ce n = false := by rw [h6.1]; simp only [Fds.mark]; rw [put_ne _ _ hnw]; exact hc
  simp only [Fds.exec, Fds.close, e]
  rw [if_neg (by simp), put_ne _ _ (by omega), h6.2 hn]
  rfl

theorem begins_run {waits : Nat → Bool} {i r w : Nat} {l : List Act} {f : Fds} {s : Sys} (h : Run waits l s) (hs : s.kid i = .setup f r w)
    (hr : r < 2048) (hw : r ≠ w) :
    ∃ f' : Fds, Run waits ((.exec i true :: .kShut i :: (closeCalls i ++ [.kMark i])) ++ l) { s with kid := put s.kid i (.prog f') } ∧
      (∀ n, 2048 ≤ n → n ≠ w → f.ce n = false → f'.tab n = f.tab n) := by
  obtain ⟨f', h1, h2⟩ := begins (waits := waits) f s hs hr hw
  exact ⟨f', h.steps h1, h2⟩

theorem blocked {waits : Nat → Bool} {s : Sys} {i r : Nat} (h : s.th i = .reading r) (hd : s.data i = false) (hh : Held s i) {a : Act} {s' : Sys}
    (hs : Step waits s a s') : ¬ Own i a := by
  intro o
  cases o <;> cases hs <;> simp_all

/-- One run, forked, whose program begins. -/
theorem alone_prog {waits : Nat → Bool} {i r w : Nat} {l : List Act} {s : Sys} (h : Run waits l s) (hs : s.th i = .piped r w) (hr : r < 2048)
    (hw : r ≠ w) :
    ∃ f s', Run waits ((.exec i true :: .kShut i :: (closeCalls i ++ [.kMark i, .closeW i, .fork i true])) ++ l) s' ∧
      s'.th i = .reading r ∧ s'.data = s.data ∧ s'.kid = put s.kid i (.prog f) ∧ s'.fds = s.fds.close w := by
  have h2 := (h.cons (.forkOk hs)).cons (.closeW (i := i) (c := true) (r := r) (w := w) (put_self ..))
  obtain ⟨f, h3, _⟩ := begins_run h2 (i := i) (r := r) (w := w) (f := s.fds) (put_self ..) hr hw
  simp only [put_put] at h3
  refine ⟨f, { s with fds := s.fds.close w, th := put s.th i (.reading r), kid := put s.kid i (.prog f) }, ?_, put_self .., rfl, rfl, rfl⟩
  have e : (Act.exec i true :: .kShut i :: (closeCalls i ++ [.kMark i, .closeW i, .fork i true])) ++ l =
      (Act.exec i true :: .kShut i :: (closeCalls i ++ [.kMark i])) ++ (.closeW i :: .fork i true :: l) := by simp
  rw [e]
  exact h3

/-- One run, forked, whose program begins and ends. -/
theorem alone_run {waits : Nat → Bool} {i r w : Nat} {l : List Act} {s : Sys} (h : Run waits l s) (hs : s.th i = .piped r w) (hr : r < 2048)
    (hw : r ≠ w) (st : Nat) :
    ∃ s', Run waits ((.finish i st :: .exec i true :: .kShut i :: (closeCalls i ++ [.kMark i, .closeW i, .fork i true])) ++ l) s' ∧
      s'.th i = .reading r ∧ s'.data = s.data ∧ s'.kid = put s.kid i (.ended st) ∧ s'.fds = s.fds.close w := by
  obtain ⟨f, s', h1, h2, h3, h4, h5⟩ := alone_prog h hs hr hw
  refine ⟨{ s' with kid := put s'.kid i (.ended st) }, h1.cons (.finish (f := f) (by rw [h4]; exact put_self ..)), h2, h3, ?_, h5⟩
  rw [h4, put_put]

/-- A file given to the starting script at the wrong moment keeps another command from returning: its program has been begun and has
ended, but the command cannot go on before the program of the starting script ends. -/
theorem C103_start (waits : Nat → Bool) (st : Nat) : ∃ l s, Run waits l s ∧ Low l ∧ Quiet l ∧ Act.exec 0 true ∈ l ∧ Act.finish 0 st ∈ l ∧
    Act.start 1 ∈ l ∧ s.returned 0 = none ∧ ∀ a s', Step waits s a s' → ¬ Own 0 a := by
  have h1 := (Run.nil (waits := waits)).cons (.pipe (i := 0) (r := 3) (w := 4) rfl (by omega) rfl rfl)
  have h2 := h1.cons (.start (i := 1) rfl)
  have h3 := h2.cons (.bareOk (i := 1) rfl)
  obtain ⟨s', h9, h5, h6, h7, h8⟩ := alone_run h3 (i := 0) (r := 3) (w := 4) rfl (by omega) (by omega) st
  refine ⟨_, _, h9, ?_, ?_, ?_, ?_, ?_, ?_, fun a s'' h => blocked h5 ?_ ?_ h⟩
  · intro i r w m
    simp [mem_closeCalls] at m
    omega
  · intro i m
    simp [mem_closeCalls] at m
  · simp
  · simp
  · simp
  · simp [Sys.returned, h5]
  · rw [h6]; rfl
  · right
    refine ⟨1, 4, ?_⟩
    rw [h7, put_ne _ _ (by omega)]
    rfl

/-- The same with a program run in the ordinary way, if the pipe has a number beyond the limit of the loop. -/
theorem C103_many (waits : Nat → Bool) (st w : Nat) (hw : 2048 ≤ w) : ∃ l s, Run waits l s ∧ Quiet l ∧ NoStart l ∧ Act.pipe 0 3 w ∈ l ∧
    Act.exec 0 true ∈ l ∧ Act.finish 0 st ∈ l ∧ s.returned 0 = none ∧ ∀ a s', Step waits s a s' → ¬ Own 0 a := by
  have h1 := (Run.nil (waits := waits)).cons (.pipe (i := 0) (r := 3) (w := w) rfl (by omega) rfl rfl)
  have h2 := h1.cons (.pipe (i := 1) (r := 4) (w := 5) rfl (by omega) (by simp [put, Sys.init]; omega) (by simp [put, Sys.init]; omega))
  have h3 := h2.cons (.forkOk (i := 1) (r := 4) (w := 5) rfl)
  obtain ⟨f, h6, h5⟩ := begins_run h3 (i := 1) (r := 4) (w := 5) rfl (by omega) (by omega)
  obtain ⟨s', h12, h8, h9, h10, h11⟩ := alone_run h6 (i := 0) (r := 3) (w := w) rfl (by omega) (by omega) st
  refine ⟨_, _, h12, ?_, ?_, ?_, ?_, ?_, ?_, fun a s'' h => blocked h8 ?_ ?_ h⟩
  · intro i m
    simp [mem_closeCalls] at m
  · intro i m
    simp [mem_closeCalls] at m
  · simp
  · simp
  · simp
  · simp [Sys.returned, h8]
  · rw [h9]; rfl
  · right
    refine ⟨1, w, ?_⟩
    rw [h10, put_ne _ _ (by omega)]
    have := h5 w hw (by omega) rfl
    simp only [put_self, Kd.tab]
    rw [this]
    show put (put (put (put _ 3 _) w (some (0, true))) 4 _) 5 _ w = _
    rw [put_ne _ _ (by omega), put_ne _ _ (by omega), put_self]

/-- A signal whose handler returns, while the program is being begun, makes the caller believe that there is no such program. -/
theorem C103_signal_begin (waits : Nat → Bool) : ∃ l s, Run waits l s ∧ Low l ∧ NoStart l ∧ Act.exec 0 true ∈ l ∧ s.returned 0 = some none := by
  have h1 := (Run.nil (waits := waits)).cons (.pipe (i := 0) (r := 3) (w := 4) rfl (by omega) rfl rfl)
  obtain ⟨s', h9, h5, h6, h7, h8⟩ := alone_run h1 (i := 0) (r := 3) (w := 4) rfl (by omega) (by omega) 0
  have h10 := h9.cons (.sigRead h5)
  have h11 := h10.cons (.closeR (i := 0) (bad := true) (r := 3) rfl)
  refine ⟨_, _, h11, ?_, ?_, ?_, ?_⟩
  · intro i r w m
    simp [mem_closeCalls] at m
    omega
  · intro i m
    simp [mem_closeCalls] at m
  · simp
  · simp [Sys.returned, put]

/-- The first run alone: its program has begun, and `read` sees the end of the pipe. -/
theorem first_run (waits : Nat → Bool) : ∃ l s, Run waits l s ∧ Low l ∧ Quiet l ∧ NoStart l ∧ Act.exec 0 true ∈ l ∧ (∀ st, Act.finish 0 st ∉ l) ∧
    (∃ f, s.kid 0 = .prog f) ∧ s.th 0 = .shut false 3 := by
  have h1 := (Run.nil (waits := waits)).cons (.pipe (i := 0) (r := 3) (w := 4) rfl (by omega) rfl rfl)
  obtain ⟨f, s', h9, h5, h6, h7, h8⟩ := alone_prog h1 (i := 0) (r := 3) (w := 4) rfl (by omega) (by omega)
  have L : Low ((.exec 0 true :: .kShut 0 :: (closeCalls 0 ++ [.kMark 0, .closeW 0, .fork 0 true])) ++ [.pipe 0 3 4]) := by
    intro i r w m
    simp [mem_closeCalls] at m
    omega
  have Q : Quiet ((.exec 0 true :: .kShut 0 :: (closeCalls 0 ++ [.kMark 0, .closeW 0, .fork 0 true])) ++ [.pipe 0 3 4]) := by
    intro i m
    simp [mem_closeCalls] at m
  have N : NoStart ((.exec 0 true :: .kShut 0 :: (closeCalls 0 ++ [.kMark 0, .closeW 0, .fork 0 true])) ++ [.pipe 0 3 4]) := by
    intro i m
    simp [mem_closeCalls] at m
  have I := inv_run h9 L Q N
  have hh : ¬ Held s' 0 := by
    rintro (⟨n, hn⟩ | ⟨j, n, hn⟩)
    · have := (I.tab n 0 true).1 hn
      rw [h5] at this
      exact absurd this.2 (by simp)
    · rw [h7] at hn
      by_cases e : j = 0
      · subst e
        have := C103_clean_partial h9 L Q N (i := 0) (by simp) n
        rw [h7] at this
        rw [this] at hn; simp at hn
      · rw [put_ne _ _ e] at hn
        simp [Sys.init, Kd.tab] at hn
  have h10 := h9.cons (.readEnd h5 (by rw [h6]; rfl) hh)
  refine ⟨_, _, h10, ?_, ?_, ?_, ?_, ?_, ⟨f, ?_⟩, rfl⟩
  · intro i r w m
    simp [mem_closeCalls] at m
    omega
  · intro i m
    simp [mem_closeCalls] at m
  · intro i m
    simp [mem_closeCalls] at m
  · simp
  · intro st m
    simp [mem_closeCalls] at m
  · exact (congrFun h7 0).trans (put_self ..)

/-- A signal whose handler returns, while the program runs, makes the caller believe that the program has ended well. -/
theorem C103_signal_wait {waits : Nat → Bool} (hw : waits 0 = true) : ∃ l s, Run waits l s ∧ Low l ∧ NoStart l ∧ Act.exec 0 true ∈ l ∧
    (∀ st, Act.finish 0 st ∉ l) ∧ s.returned 0 = some (some 0) := by
  obtain ⟨l, s, h, L, Q, N, E, F, ⟨f, K⟩, T⟩ := first_run waits
  have h1 := (h.cons (.closeR T)).cons (.sigWait (i := 0) (by simp [put, hw]))
  refine ⟨_, _, h1, ?_, ?_, ?_, ?_, ?_⟩
  · intro i r w m; simp at m; exact L i r w m
  · intro i m; simp at m; exact N i m
  · simp [E]
  · intro st m; simp at m; exact F st m
  · simp [Sys.returned, put, wexit]

/-- Every exit code can come back (so that the hypotheses above are met). -/
theorem C103_possible {waits : Nat → Bool} (hw : waits 0 = true) (c : Nat) (hc : c < 256) : ∃ l s, Run waits l s ∧ Low l ∧ Quiet l ∧ NoStart l ∧
    s.returned 0 = some (some c) := by
  obtain ⟨l, s, h, L, Q, N, E, F, ⟨f, K⟩, T⟩ := first_run waits
  have h1 := ((h.cons (.closeR T)).cons (.finish (i := 0) (st := c * 256) (f := f) K)).cons
    (.wait (i := 0) (st := c * 256) (by simp [put, hw]) (by simp [put, Kd.status]))
  refine ⟨_, _, h1, ?_, ?_, ?_, ?_⟩
  · intro i r w m; simp at m; exact L i r w m
  · intro i m; simp at m; exact Q i m
  · intro i m; simp at m; exact N i m
  · simp [Sys.returned, put, wexit]; omega

/-- What is told in such a history, by the theorem above. -/
example : ∃ l s, Run (fun _ => true) l s ∧ s.returned 0 = some (some 7) ∧ ∃ st, Act.finish 0 st ∈ l ∧ 7 = st / 256 % 256 := by
  obtain ⟨l, s, h, L, Q, N, R⟩ := C103_possible (waits := fun _ => true) rfl 7 (by omega)
  exact ⟨l, s, h, R, (C103_told_partial h L Q N R).2⟩

/-- A run for which `fork` fails. -/
example : ∃ l s, Run (fun _ => true) l s ∧ Low l ∧ Quiet l ∧ NoStart l ∧ s.returned 0 = some none := by
  have h := ((((Run.nil (waits := fun _ => true)).cons (.pipe (i := 0) (r := 3) (w := 4) rfl (by omega) rfl rfl)).cons
    (.forkBad (i := 0) (r := 3) (w := 4) rfl)).cons (.closeW (i := 0) (c := false) (r := 3) (w := 4) rfl)).cons (.closeR (i := 0) (bad := true) (r := 3) rfl)
  refine ⟨_, _, h, ?_, ?_, ?_, rfl⟩
  · intro i r w m
    simp at m
    omega
  · intro i m
    simp at m
  · intro i m
    simp at m

end PBat.Spawn
