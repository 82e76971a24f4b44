import Verif.Lemmas.PipeKeep
/-
C93: the commands of a pipeline are connected to each other, and every end of a pipe is closed in time, whatever the order in
which the threads run.
-/
namespace PBat.Spec
open PBat.Pipe

variable {ι φ : Type}

/-- The descriptors that are not those of the interpreter. -/
def others (tab : Nat → Option (Chan φ)) (regs : Reg → Nat) (fd : Nat) : Option (Chan φ) :=
  if fd = regs .inp ∨ fd = regs .out ∨ fd = regs .err then none else tab fd

/-- What the interpreter owns at the beginning. -/
def first (i o e : φ) : Hold φ := { inp := .file i, out := .file o, err := .file e }

theorem begin_inv {tab : Nat → Option (Chan φ)} {regs : Reg → Nat} {i o e : φ} (hf : Fresh tab regs i o e) (b : Cmds ι φ)
    (T : Prop) (hT : T → TidyB false b) :
    Inv Sides (Fin T (first i o e).own) (others tab regs)
      ((b.code { path := [] } (fun _ => .done) 0).events [] (first i o e).own) (begin b tab regs)
      (fun j => if j = 0 then (first i o e).own else fun _ => none) (fun _ => 0) := by
  have hval : ∀ r c, (first i o e).own r = some c → tab (regs r) = some c ∧ Std r := by
    intro r c hc
    cases r <;> simp only [first, Hold.own, entry, Option.join_none] at hc
    · cases hc; exact ⟨hf.inp, .inl rfl⟩
    · cases hc; exact ⟨hf.out, .inr (.inl rfl)⟩
    · cases hc; exact ⟨hf.err, .inr (.inr rfl)⟩
    all_goals cases hc
  have hkey : ∀ k : Nat × Reg, (if k.1 = 0 then (first i o e).own else fun _ => none) k.2 ≠ none → k.1 = 0 ∧ Std k.2 := by
    rintro ⟨j, r⟩ h
    by_cases hj : j = 0
    · simp only [hj, ↓reduceIte] at h
      cases hc : (first i o e).own r with
      | none => exact absurd hc h
      | some c => exact ⟨hj, (hval r c hc).2⟩
    · simp [hj] at h
  have hsides : Sides [] 0 (first i o e).own := by
    intro r c hc
    obtain ⟨f, rfl⟩ := hf.files _ _ (hval r c hc).1
    exact .inl trivial
  refine ⟨⟨?_, ?_, ?_, ?_⟩, ?_, ?_, ?_, ?_, ?_⟩
  · rintro ⟨j, r⟩ c hc
    by_cases hj : j = 0
    · simp only [hj, ↓reduceIte] at hc
      exact (hval r c hc).1
    · simp [hj] at hc
  · intro k k' h h' he
    obtain ⟨a, b⟩ := hkey k h
    obtain ⟨a', b'⟩ := hkey k' h'
    obtain ⟨j, r⟩ := k
    obtain ⟨j', r'⟩ := k'
    simp only at a b a' b' he
    subst a a'
    simp only [begin] at he
    obtain ⟨x, y, z⟩ := hf.apart
    rcases b with rfl | rfl | rfl <;> rcases b' with rfl | rfl | rfl <;> first | rfl | (exfalso; grind)
  · intro fd c hc
    by_cases h : fd = regs .inp ∨ fd = regs .out ∨ fd = regs .err
    · left
      rcases h with rfl | rfl | rfl
      · refine ⟨(0, .inp), ?_, rfl⟩
        rw [← hc]; exact hf.inp.symm
      · refine ⟨(0, .out), ?_, rfl⟩
        rw [← hc]; exact hf.out.symm
      · refine ⟨(0, .err), ?_, rfl⟩
        rw [← hc]; exact hf.err.symm
    · right
      rw [others, if_neg h]; exact hc
  · intro fd c hc
    rw [others] at hc
    split at hc
    · cases hc
    · rename_i hn
      refine ⟨hc, fun k hk he => hn ?_⟩
      obtain ⟨a, b⟩ := hkey k hk
      simp only [begin] at he
      rcases b with b | b | b <;> rw [b] at he <;> simp [he]
  · intro j hj
    simp only [begin] at hj
    rw [if_neg (by omega)]
  · intro j hj
    simp only [begin] at hj
    have : j = 0 := by omega
    subst this
    refine okB (h := first i o e) (c := { path := [] }) (ok := false) b ⟨⟨trivial, rfl⟩, hsides, by simp [first], fun _ h => by cases h⟩ rfl hT ?_
    intro m _
    exact .done (hold_sides_mono hsides (Nat.zero_le m)) ⟨fun h => absurd rfl h, fun _ => ⟨fun _ => rfl, fun h => absurd rfl h⟩⟩
  · intro j j' hj hj' _
    simp only [begin] at hj hj'
    omega
  · intro j j' m hj hj' hs
    have := hs.length_le
    simp [begin] at this
  · simp [begin, List.range_succ]

theorem reach_inv {tab : Nat → Option (Chan φ)} {regs : Reg → Nat} {i o e : φ} (hf : Fresh tab regs i o e) (b : Cmds ι φ)
    (T : Prop) (hT : T → TidyB false b) {s : Sys ι φ} (hr : Reach (begin b tab regs) s) :
    ∃ own num, Inv Sides (Fin T (first i o e).own) (others tab regs)
      ((b.code { path := [] } (fun _ => .done) 0).events [] (first i o e).own) s own num := by
  generalize hs0 : begin b tab regs = s0 at hr
  induction hr with
  | refl => subst hs0; exact ⟨_, _, begin_inv hf b T hT⟩
  | step j n1 n2 _ hst ih =>
    obtain ⟨own, num, h⟩ := ih
    exact h.step hst

/-- No system call fails: whatever happened before, each thread that is not over can go on (as long as the system has
descriptors to give). -/
theorem C93_progress (b : Cmds ι φ) (tab : Nat → Option (Chan φ)) (regs : Reg → Nat) (i o e : φ) (hf : Fresh tab regs i o e)
    (s : Sys ι φ) (hr : Reach (begin b tab regs) s) (j : Nat) (hj : j < s.size) (hn : ¬ Over s j) (n1 n2 : Nat)
    (h1 : s.tab n1 = none) (h2 : s.tab n2 = none) (h3 : n1 ≠ n2) : ∃ t, s.step j n1 n2 = some t := by
  obtain ⟨own, num, h⟩ := reach_inv hf b False (fun h => h.elim) hr
  have hok := h.ok j hj
  unfold Sys.step
  rw [if_pos hj]
  cases hp : (s.thr j).prog with
  | done => exact absurd hp hn
  | spawn p bo bi ch k => exact ⟨_, rfl⟩
  | act a k =>
    rw [hp] at hok
    cases hok with
    | act _ hs _ =>
      obtain ⟨⟨x, y, z⟩, hx⟩ := act_some (a := a) (who := (s.thr j).path) (fun r c hc => h.owns.val (j, r) c hc) hs h1 h2 h3
      simp only [hx]
      exact ⟨_, rfl⟩

/-- The commands that run are those of the text, each with the streams the text gives it: the output of each member of a
pipeline is the input of the next one, redirections apply to the command they are written for.  Not shown for `> f` inside
a command that has `2>&1` (see C45). -/
theorem C93_connected_partial (b : Cmds ι φ) (hu : UnmixedB false b) (tab : Nat → Option (Chan φ)) (regs : Reg → Nat) (i o e : φ)
    (hf : Fresh tab regs i o e) (s : Sys ι φ) (hr : Reach (begin b tab regs) s) :
    (∃ rest, (usesB [] b ⟨.file i, .file o, .file e⟩ 0).1.Perm (s.trace ++ rest)) ∧
      (AllOver s → (usesB [] b ⟨.file i, .file o, .file e⟩ 0).1.Perm s.trace) := by
  obtain ⟨own, num, h⟩ := reach_inv hf b False (fun h => h.elim) hr
  have hrun := runB b (c := { path := [] }) (h := first i o e) (k := fun _ => .done) (n := 0) ⟨trivial, rfl⟩ rfl hu
  have hperm := h.perm
  have est : (first i o e).streams { path := [] } = ⟨.file i, .file o, .file e⟩ := rfl
  rw [show ([] : Name) = ({ path := [] } : Ctx).path from rfl, hrun, est] at hperm
  have hnil : ∀ x : Bool × Nat, (if x.1 = true then [] else (Prog.done : Prog ι φ).events ({ path := [] } : Ctx).path (first i o e).own) =
      ([] : List (Event ι φ)) := by
    intro x; split <;> rfl
  rw [show (if (usesB ({ path := [] } : Ctx).path b ⟨.file i, .file o, .file e⟩ 0).2.2 = true then []
    else (Prog.done : Prog ι φ).events ({ path := [] } : Ctx).path (first i o e).own) = ([] : List (Event ι φ)) from hnil (_, 0),
    List.append_nil] at hperm
  refine ⟨⟨_, hperm⟩, fun ha => ?_⟩
  have hz : (List.range s.size).flatMap (fun i => (s.thr i).prog.events (s.thr i).path (own i)) = [] := by
    rw [List.flatMap_eq_nil_iff]
    intro j hj
    rw [ha j (List.mem_range.1 hj)]
    rfl
  rw [hz, List.append_nil] at hperm
  exact hperm

theorem files_others {tab : Nat → Option (Chan φ)} {regs : Reg → Nat} {i o e : φ} (hf : Fresh tab regs i o e) {fd : Nat} {c : Chan φ}
    (h : others tab regs fd = some c) : ∃ f, c = .file f := by
  rw [others] at h
  split at h
  · cases h
  · exact hf.files fd c h

theorem done_fin {I : Name → Nat → Own φ → Prop} {fin : Name → Own φ → Prop} {π : Name} {n : Nat} {o : Own φ}
    (h : Ok (ι := ι) I fin π n .done o) : fin π o := by
  cases h with
  | done _ h => exact h

theorem ok_sides {I : Name → Nat → Own φ → Prop} {fin : Name → Own φ → Prop} {π : Name} {n : Nat} {p : Prog ι φ} {o : Own φ}
    (h : Ok I fin π n p o) : I π n o := by
  cases h <;> assumption

/-- Once a member of a pipeline was started and is over, with all that it started itself, no descriptor is left that
writes to its pipe: the next member reads the end of file. -/
theorem C93_end_of_file (b : Cmds ι φ) (tab : Nat → Option (Chan φ)) (regs : Reg → Nat) (i o e : φ) (hf : Fresh tab regs i o e)
    (s : Sys ι φ) (hr : Reach (begin b tab regs) s) (j : Nat) (hj : j < s.size) (hne : (s.thr j).path ≠ [])
    (ha : ∀ k < s.size, (s.thr j).path <:+ (s.thr k).path → Over s k) (fd : Nat) : s.tab fd ≠ some (.wr (s.thr j).path) := by
  obtain ⟨own, num, h⟩ := reach_inv hf b False (fun h => h.elim) hr
  intro hfd
  rcases h.owns.cov fd _ hfd with ⟨⟨k, r⟩, hk, _⟩ | hx
  · simp only at hk
    have hks : k < s.size := by
      apply Decidable.byContradiction
      intro hc
      rw [h.beyond k (by omega)] at hk
      cases hk
    have hok := h.ok k hks
    have hI := ok_sides hok
    rcases hI r _ hk with hs | ⟨_, hs⟩ | ⟨_, hs⟩
    · have hov := ha k hks hs
      rw [hov] at hok
      refine (done_fin hok).1 ?_ r _ hk
      intro he
      rw [he] at hs
      exact hne (List.suffix_nil.1 hs)
    · injection hs with hs
      have := h.cnt k j (num k) hks hj (by rw [hs]; exact List.suffix_refl _)
      omega
    · cases hs
  · obtain ⟨f, hx⟩ := files_others hf hx
    cases hx

/-- The ends that read from a pipe are held by the thread that made it or by those started after the writer, never by the
writer: once these are over, no descriptor is left that reads from the pipe, and the writer does not wait for a reader. -/
theorem C93_readers_partial (b : Cmds ι φ) (ht : TidyB false b) (tab : Nat → Option (Chan φ)) (regs : Reg → Nat) (i o e : φ)
    (hf : Fresh tab regs i o e) (s : Sys ι φ) (hr : Reach (begin b tab regs) s) (m : Nat) (ρ : Name)
    (ha : ∀ k < s.size, (s.thr k).path = ρ ∨ (∃ m', m < m' ∧ (m' :: ρ) <:+ (s.thr k).path) → Over s k) (fd : Nat) :
    s.tab fd ≠ some (.rd (m :: ρ)) := by
  obtain ⟨own, num, h⟩ := reach_inv hf b True (fun _ => ht) hr
  intro hfd
  rcases h.owns.cov fd _ hfd with ⟨⟨k, r⟩, hk, _⟩ | hx
  · simp only at hk
    have hks : k < s.size := by
      apply Decidable.byContradiction
      intro hc
      rw [h.beyond k (by omega)] at hk
      cases hk
    have hok := h.ok k hks
    have hI := ok_sides hok
    have hov : Over s k := by
      rcases hI r _ hk with hs | ⟨_, hs⟩ | ⟨_, hs⟩
      · rcases hs with ⟨a, _⟩ | hs
        · exact ha k hks (.inl a.symm)
        · exact ha k hks (.inr hs)
      · cases hs
      · injection hs with hs
        injection hs with _ hs
        exact ha k hks (.inl hs.symm)
    rw [hov] at hok
    have hfin := (done_fin hok).2 trivial
    by_cases hp : (s.thr k).path = []
    · rw [hfin.1 hp] at hk
      cases r <;> simp [first, Hold.own, entry] at hk
    · rw [hfin.2 hp] at hk
      cases hk
  · obtain ⟨f, hx⟩ := files_others hf hx
    cases hx

/-- When all threads are over, the descriptors are those of the beginning: nothing is left open, nothing else was closed.
Not shown when EXIT is used in the loop of a FOR /F of a command, see `C93_leak`. -/
theorem C93_restored_partial (b : Cmds ι φ) (ht : TidyB false b) (tab : Nat → Option (Chan φ)) (regs : Reg → Nat) (i o e : φ)
    (hf : Fresh tab regs i o e) (s : Sys ι φ) (hr : Reach (begin b tab regs) s) (ha : AllOver s) : s.tab = tab := by
  obtain ⟨own, num, h⟩ := reach_inv hf b True (fun _ => ht) hr
  have hm := reach_main hr
  have hown : ∀ j, own j = if j = 0 then (first i o e).own else fun _ => none := by
    intro j
    by_cases hj : j < s.size
    · have hfin := done_fin (by have := h.ok j hj; rwa [ha j hj] at this)
      split
      · rename_i h0
        subst h0
        exact (hfin.2 trivial).1 hm.path
      · rename_i h0
        funext r
        exact (hfin.2 trivial).2 (fun e => h0 (h.nodup j 0 hj hm.size (e.trans hm.path.symm))) r
    · rw [h.beyond j (by omega), if_neg (by have := hm.size; omega)]
  have h0 := begin_inv hf b True (fun _ => ht)
  have hone : ∀ (t t' : Nat → Option (Chan φ)) (g : Reg → Nat) (g' : Reg → Nat),
      (∀ r, Std r → g r = g' r) →
      (∀ fd c, t fd = some c → (∃ r, (first i o e).own r = some c ∧ g r = fd) ∨ others tab regs fd = some c) →
      (∀ r c, (first i o e).own r = some c → t' (g' r) = some c) →
      (∀ fd c, others tab regs fd = some c → t' fd = some c) → ∀ fd c, t fd = some c → t' fd = some c := by
    intro t t' g g' hg h1 h2 h3 fd c hc
    rcases h1 fd c hc with ⟨r, hr, rfl⟩ | hx
    · have hs : Std r := by
        cases r <;> simp [first, Hold.own, entry] at hr <;> simp [Std]
      rw [hg r hs]
      exact h2 r c hr
    · exact h3 fd c hx
  have cov : ∀ {t : Sys ι φ} {ow : Nat → Own φ} {nm : Nat → Nat} {tot : List (Event ι φ)},
      Inv Sides (Fin True (first i o e).own) (others tab regs) tot t ow nm →
      (∀ j, ow j = if j = 0 then (first i o e).own else fun _ => none) → ∀ fd c, t.tab fd = some c →
      (∃ r, (first i o e).own r = some c ∧ (t.thr 0).regs r = fd) ∨ others tab regs fd = some c := by
    intro t ow nm tot hi ho fd c hc
    rcases hi.owns.cov fd c hc with ⟨⟨k, r⟩, hk, he⟩ | hx
    · simp only [ho] at hk
      by_cases h0 : k = 0
      · subst h0
        exact .inl ⟨r, by simpa using hk, he⟩
      · simp [h0] at hk
    · exact .inr hx
  have val : ∀ {t : Sys ι φ} {ow : Nat → Own φ} {nm : Nat → Nat} {tot : List (Event ι φ)},
      Inv Sides (Fin True (first i o e).own) (others tab regs) tot t ow nm →
      (∀ j, ow j = if j = 0 then (first i o e).own else fun _ => none) → ∀ r c, (first i o e).own r = some c →
      t.tab ((t.thr 0).regs r) = some c := by
    intro t ow nm tot hi ho r c hc
    exact hi.owns.val (0, r) c (by simp only [ho, ↓reduceIte]; exact hc)
  funext fd
  have a := hone s.tab tab _ _ hm.regs (cov h hown) (val h0 fun _ => rfl) (fun fd c hc => (h0.owns.frm fd c hc).1) fd
  have b := hone tab s.tab _ _ (fun r hr => (hm.regs r hr).symm) (cov h0 fun _ => rfl) (val h hown)
    (fun fd c hc => (h.owns.frm fd c hc).1) fd
  cases hx : s.tab fd with
  | some c => exact (a c hx).symm
  | none =>
    cases hy : tab fd with
    | none => rfl
    | some c => rw [b c hy] at hx; cases hx

/-! ### What does not hold -/

/-- The steps of the threads in the given order, new descriptors taking the numbers from `n` on. -/
def play : List Nat → Nat → Sys ι φ → Option (Sys ι φ)
  | [], _, s => some s
  | j :: js, n, s => (s.step j n (n + 1)).bind (play js (n + 2))

theorem play_reach : ∀ {js : List Nat} {n : Nat} {s t u : Sys ι φ}, Reach s t → play js n t = some u → Reach s u
  | [], _, s, t, u, h, e => by
    cases e; exact h
  | j :: js, n, s, t, u, h, e => by
    rw [play] at e
    cases hs : t.step j n (n + 1) with
    | none => rw [hs] at e; cases e
    | some v =>
      rw [hs] at e
      exact play_reach (.step j n (n + 1) h hs) e

/-- The three descriptors a process begins with. -/
def three : Nat → Option (Chan Nat)
  | 0 => some (.file 0)
  | 1 => some (.file 1)
  | 2 => some (.file 2)
  | _ => none

/-- The numbers of these. -/
def usual : Reg → Nat
  | .out => 1
  | .err => 2
  | _ => 0

theorem fresh_three : Fresh three usual 0 1 2 := by
  refine ⟨rfl, rfl, rfl, ⟨by decide, by decide, by decide⟩, ?_⟩
  intro fd c h
  match fd, h with
  | 0, h => cases h; exact ⟨_, rfl⟩
  | 1, h => cases h; exact ⟨_, rfl⟩
  | 2, h => cases h; exact ⟨_, rfl⟩

/-- Nothing waits for the left side of a pipe: whatever it is, the right side and the next command of the script may be over
before it began. -/
theorem C93_unfinished (r : Redirs Nat) (left : Cmd ι Nat) (x y : ι) : ∃ s,
    Reach (begin (.cons (.pipe r left (.last {} (.run x))) (.cons (.last {} (.run y)) .nil)) three usual) s ∧ Over s 0 ∧
      s.trace = [⟨[], x, .rd [0], .file 1, .file 2⟩, ⟨[], y, .file 0, .file 1, .file 2⟩] ∧ s.size = 2 ∧ ¬ Over s 1 :=
  ⟨_, play_reach (js := List.replicate 13 0) (n := 3) (.refl _) rfl, rfl, rfl, rfl, nofun⟩

instance [DecidableEq ι] [DecidableEq φ] (s : Sys ι φ) (i : Nat) : Decidable (Over s i) :=
  inferInstanceAs (Decidable ((s.thr i).prog = .done))

instance [DecidableEq ι] [DecidableEq φ] (s : Sys ι φ) : Decidable (AllOver s) :=
  inferInstanceAs (Decidable (∀ i < s.size, Over s i))

/-- `(for /f %%i in ('x') do exit) | y`. -/
def leaking : Cmds String Nat :=
  .cons (.pipe {} (.feed (.cons (.last {} (.run "x")) .nil) (.cons (.last {} .exit) .nil)) (.last {} (.run "y"))) .nil

theorem play_decide {js : List Nat} {s : Sys ι φ} {p : Sys ι φ → Bool} (h : (play js 3 s).any p = true) :
    ∃ t, Reach s t ∧ p t = true := by
  cases ht : play js 3 s with
  | none => rw [ht] at h; cases h
  | some t => rw [ht] at h; exact ⟨t, play_reach (.refl _) ht, h⟩

/-- EXIT in the loop of a FOR /F leaves a descriptor of the pipe it reads open: for ever, since all threads are over. -/
theorem C93_leak : ∃ s fd, Reach (begin leaking three usual) s ∧ AllOver s ∧ s.tab fd = some (.rd [0, 0]) ∧ three fd = none := by
  have h : (play (List.replicate 12 0 ++ List.replicate 13 1 ++ List.replicate 9 2) 3 (begin leaking three usual)).any
      (fun s => decide (AllOver s ∧ s.tab 33 = some (.rd [0, 0]))) = true := by decide +kernel
  obtain ⟨s, hr, h⟩ := play_decide h
  exact ⟨s, 33, hr, (of_decide_eq_true h).1, (of_decide_eq_true h).2, rfl⟩

/-- Meanwhile the program that fills this pipe has no reader but is not told so: a descriptor that reads from it remains,
although the thread that would read is over.  If it waits for room in the pipe it waits for ever, and with it the reader of
the other pipe, one end of which it has. -/
theorem C93_stuck : ∃ s, Reach (begin leaking three usual) s ∧ s.size = 3 ∧ Over s 0 ∧ Over s 1 ∧ (s.thr 2).path = [0, 0] ∧
    s.trace.map (fun x => x.cmd) = ["y"] ∧ (∃ fd, s.tab fd = some (.rd [0, 0])) ∧ ∃ fd, s.tab fd = some (.wr [0]) := by
  have h : (play (List.replicate 12 0 ++ List.replicate 13 1) 3 (begin leaking three usual)).any
      (fun s => decide (s.size = 3 ∧ Over s 0 ∧ Over s 1 ∧ (s.thr 2).path = [0, 0] ∧ s.trace.map (fun x => x.cmd) = ["y"] ∧
        s.tab 33 = some (.rd [0, 0]) ∧ s.tab 37 = some (.wr [0]))) = true := by decide +kernel
  obtain ⟨s, hr, h⟩ := play_decide h
  have h := of_decide_eq_true h
  exact ⟨s, hr, h.1, h.2.1, h.2.2.1, h.2.2.2.1, h.2.2.2.2.1, ⟨_, h.2.2.2.2.2.1⟩, _, h.2.2.2.2.2.2⟩

/-! ### Examples -/

/-- `(a 2>&1 & exit) | b < 7 | (start /b c & for /f %%i in ('d') do e > 8)`, then `f`. -/
def sampleCmds : Cmds String Nat :=
  .cons (.pipe {} (.block (.cons (.last { merge := true } (.run "a")) (.cons (.last {} .exit) .nil)))
    (.pipe { inp := some 7 } (.run "b")
      (.last {} (.block (.cons (.last {} (.start (.cons (.last {} (.run "c")) .nil)))
        (.cons (.last {} (.feed (.cons (.last {} (.run "d")) .nil) (.cons (.last { out := some 8 } (.run "e")) .nil))) .nil))))))
    (.cons (.last {} (.run "f")) .nil)

example : UnmixedB false sampleCmds ∧ TidyB false sampleCmds := by
  simp [sampleCmds, UnmixedB, UnmixedL, UnmixedC, TidyB, TidyL, TidyC]

example : (usesB [] sampleCmds ⟨.file 0, .file 1, .file 2⟩ 0).1 =
    [⟨[0], "a", .file 0, .wr [0], .wr [0]⟩, ⟨[1], "b", .file 7, .wr [1], .file 2⟩,
      ⟨[2], "c", .rd [1], .file 1, .file 2⟩, ⟨[3], "d", .rd [1], .wr [3], .file 2⟩, ⟨[], "e", .rd [1], .file 8, .file 2⟩,
      ⟨[], "f", .file 0, .file 1, .file 2⟩] := by decide +kernel

/-- All threads one after the other, the last one first. -/
def backwards : Nat → Nat → Sys ι φ → Sys ι φ
  | 0, _, s => s
  | f + 1, n, s =>
    match (List.range s.size).reverse.findSome? (fun j => s.step j n (n + 1)) with
    | some t => backwards f (n + 2) t
    | none => s

theorem backwards_reach : ∀ (f n : Nat) {s t : Sys ι φ}, Reach s t → Reach s (backwards f n t)
  | 0, _, _, _, h => h
  | f + 1, n, s, t, h => by
    rw [backwards]
    split
    · rename_i u hu
      obtain ⟨j, _, hj⟩ := List.exists_of_findSome?_eq_some hu
      exact backwards_reach f (n + 2) (.step j n (n + 1) h hj)
    · exact h

example : AllOver (backwards 200 3 (begin sampleCmds three usual)) ∧ (backwards 200 3 (begin sampleCmds three usual)).size = 5 ∧
    (backwards 200 3 (begin sampleCmds three usual)).trace.map (fun x => x.cmd) = ["a", "b", "c", "d", "e", "f"] := by
  decide +kernel

end PBat.Spec
