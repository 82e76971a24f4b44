import Verif.Lemmas.PipeSafe
/-
Lemmas for C93: the commands the programs of the threads run, and their streams.
-/
namespace PBat.Pipe
open PBat.Spec

variable {ι φ : Type}

/-- Not a command. -/
def Quiet : Act ι φ → Prop
  | .run _ _ => False
  | _ => True

theorem events_acts {π : Name} {o o' : Own φ} {l : List (Act ι φ)} (k : Prog ι φ) (hq : ∀ a ∈ l, Quiet a)
    (hs : symL l o = some o') : (Prog.acts l k).events π o = k.events π o' := by
  induction l generalizing o with
  | nil => cases hs; rfl
  | cons a l ih =>
    simp only [symL] at hs
    split at hs
    · rename_i o1 h1
      have : ev a π o = [] := by
        have := hq a (by simp)
        cases a <;> first | rfl | exact absurd this (by simp [Quiet])
      show ev a π o ++ (Prog.acts l k).events π ((sym a o).getD o) = _
      rw [this, h1]
      exact ih (fun b hb => hq b (by simp [hb])) hs
    · cases hs

theorem quiet_take (c : Ctx) (src r : Reg) : ∀ a ∈ (c.take (ι := ι) (φ := φ) src r).1, Quiet a := by
  simp [Ctx.take, Quiet]

theorem quiet_openTo (c : Ctx) (f : Option φ) (r : Reg) : ∀ a ∈ (c.openTo (ι := ι) f r).1, Quiet a := by
  cases f <;> simp [Ctx.openTo, Ctx.take, Quiet]

theorem quiet_redirect (c : Ctx) (r : Redirs φ) : ∀ a ∈ (c.redirect (ι := ι) r).1, Quiet a := by
  intro a ha
  simp only [Ctx.redirect, List.mem_append] at ha
  rcases ha with (h | h) | h
  · exact quiet_openTo _ _ _ a h
  · exact quiet_openTo _ _ _ a h
  · exact quiet_openTo _ _ _ a h

theorem quiet_pops (l : List (Option Reg × Bool)) (k : Nat) : ∀ a ∈ pops (ι := ι) (φ := φ) l k, Quiet a := by
  induction l generalizing k with
  | nil => simp [pops]
  | cons x l ih =>
    obtain ⟨x, b⟩ := x
    cases k with
    | zero => rw [pops_zero]; simp
    | succ k =>
      cases x with
      | none => exact ih k
      | some r =>
        simp only [pops, List.cons_append, List.nil_append, List.mem_cons, forall_eq_or_imp]
        exact ⟨trivial, trivial, ih k⟩

theorem quiet_clone (c : Ctx) : ∀ a ∈ c.clone (ι := ι) (φ := φ), Quiet a := by
  simp [Ctx.clone, Quiet]

theorem quiet_joined (c : Ctx) (b : Bool) : ∀ a ∈ (c.joined (ι := ι) (φ := φ) b).1, Quiet a := by
  cases b <;> simp [Ctx.joined, Ctx.take, Quiet]

theorem quiet_fed (c : Ctx) (b : Bool) : ∀ a ∈ (c.fed (ι := ι) (φ := φ) b).1, Quiet a := by
  cases b <;> simp [Ctx.fed, Ctx.take, Quiet]

theorem leave_events (c : Ctx) (h : Hold φ) (hf : Fits c h) (π : Name) : (c.leave (ι := ι)).events π h.own = [] := by
  have hq : ∀ a ∈ (pops c.stack c.stack.length ++ [.close .inp, .close .out, .close .err] : List (Act ι φ)), Quiet a := by
    intro a ha
    rcases List.mem_append.1 ha with h | h
    · exact quiet_pops _ _ a h
    · simp only [List.mem_cons, List.not_mem_nil, or_false] at h
      rcases h with rfl | rfl | rfl <;> trivial
  unfold Ctx.leave
  rw [events_acts _ hq (leave_sym (ι := ι) c h hf)]
  rfl

theorem streams_eq {c : Ctx} {h : Hold φ} {s : Streams φ} (h1 : h.inp = s.inp) (h2 : h.out = s.out) (h3 : h.err = s.err)
    (h4 : c.errOut = false) : h.streams c = s := by
  cases s
  simp only at h1 h2 h3
  simp only [Hold.streams, h1, h2, h3, h4, Bool.false_eq_true, ↓reduceIte]

mutual
theorem runC : ∀ (cmd : Cmd ι φ) {c : Ctx} {h : Hold φ} {k : Nat → Prog ι φ} {n : Nat}, Fits c h → h.last = none →
    UnmixedC c.errOut cmd → (cmd.code c k n).events c.path h.own = (usesC c.path cmd (h.streams c) n).1 ++
      (if (usesC c.path cmd (h.streams c) n).2.2 then [] else (k (usesC c.path cmd (h.streams c) n).2.1).events c.path h.own)
  | .run i, c, h, k, n, hf, hl, hu => by
    simp only [Cmd.code, usesC, Bool.false_eq_true, ↓reduceIte]
    rfl
  | .exit, c, h, k, n, hf, hl, hu => by
    simp only [Cmd.code, usesC, ↓reduceIte, List.append_nil]
    exact leave_events c h hf _
  | .block b, c, h, k, n, hf, hl, hu => by
    simp only [Cmd.code, usesC]
    exact runB b hf hl (by simpa only [UnmixedC] using hu)
  | .start b, c, h, k, n, hf, hl, hu => by
    have hc := clone_sym (ι := ι) c h h.own rfl rfl rfl rfl rfl rfl
    simp only [Cmd.code, usesC, Bool.false_eq_true, ↓reduceIte]
    rw [events_acts _ (quiet_clone c) hc]
    simp only [Prog.events]
    rw [start_own, start_rest]
    congr 1
    have hfc : Fits ({ path := n :: c.path } : Ctx) ({ inp := h.inp, out := h.out, err := (h.streams c).err } : Hold φ) :=
      ⟨trivial, rfl⟩
    have := runB b (c := { path := n :: c.path }) (k := fun _ => Ctx.leave { path := n :: c.path }) (n := 0) hfc rfl
      (by simpa only [UnmixedC] using hu)
    have est : ({ inp := h.inp, out := h.out, err := (h.streams c).err } : Hold φ).streams ({ path := n :: c.path } : Ctx) =
        h.streams c := rfl
    rw [leave_events _ _ hfc, est] at this
    simpa using this
  | .feed b body, c, h, k, n, hf, hl, hu => by
    have hp : sym (ι := ι) (.pipe (n :: c.path) (.feed c.feeds) .p1) h.own = some (fedOwn c h n) := by
      have : h.own (.feed c.feeds) = none := entry_none _ _ (by rw [hf.2]; exact Nat.le_refl _)
      have h2 : h.own .p1 = none := rfl
      simp only [sym, this, h2, reduceCtorEq, decide_false]
      rfl
    have hc := clone_sym (ι := ι) c h (fedOwn c h n) rfl rfl rfl rfl rfl rfl
    have hub : UnmixedB false b ∧ UnmixedB c.errOut body := by simpa only [UnmixedC] using hu
    simp only [Cmd.code, usesC, Prog.events, ev, List.nil_append, hp, Option.getD_some]
    rw [events_acts _ (quiet_clone c) hc]
    simp only [Prog.events]
    rw [feed_rest c h n hf.2, List.append_assoc]
    congr 1
    · have hj := joined_own c h (fedOwn c h n) n false (.wr (n :: c.path)) rfl rfl
      obtain ⟨h1, e1, f1, p1, o1, q1, r1, s1, t1, u1, v1⟩ := joined_sym (ι := ι) (n :: c.path) h.inp h.out (h.streams c).err
        (.wr (n :: c.path)) none false rfl _ (hj.trans (by funext r; cases r <;> rfl))
      rw [events_acts _ (quiet_joined _ _) e1]
      have := runB b (k := fun _ => (Ctx.joined (ι := ι) (φ := φ) { path := n :: c.path } false).2.leave) (n := 0) f1 s1
        (by rw [o1]; exact hub.1)
      rw [leave_events _ _ f1, p1] at this
      rw [streams_eq (s := { h.streams c with out := .wr (n :: c.path) }) t1 u1 v1 o1] at this
      simpa using this
    · have hfc : Fits { c with feeds := c.feeds + 1 } ({ h with feeds := .rd (n :: c.path) :: h.feeds } : Hold φ) :=
        ⟨hf.1, by simp [hf.2]⟩
      have := runB body (k := fun m => .act (.close (.feed c.feeds)) (k m)) (n := n + 1) hfc hl hub.2
      refine this.trans ?_
      have e : ({ h with feeds := .rd (n :: c.path) :: h.feeds } : Hold φ).streams { c with feeds := c.feeds + 1 } = h.streams c := rfl
      rw [e]
      congr 1
      show (if (usesB c.path body (h.streams c) (n + 1)).2.2 = true then [] else _) =
        if (usesB c.path body (h.streams c) (n + 1)).2.2 = true then [] else _
      split
      · rfl
      · show (Prog.act (.close (.feed c.feeds)) (k (usesB c.path body (h.streams c) (n + 1)).2.1)).events c.path
          ({ h with feeds := .rd (n :: c.path) :: h.feeds } : Hold φ).own = _
        have : ({ h with feeds := .rd (n :: c.path) :: h.feeds } : Hold φ).own (.feed c.feeds) = some (.rd (n :: c.path)) := by
          simp [Hold.own, entry, hf.2]
        simp only [Prog.events, ev, List.nil_append, sym, this, Option.getD_some]
        congr 1
        funext r
        simp only [upd]
        split
        · subst_vars
          simp only [Hold.own, hf.2]
          rw [entry_none _ _ (Nat.le_refl _)]
        · cases r <;> simp only [Hold.own, entry]
          rw [if_neg]
          rintro rfl
          rename_i hne
          exact hne (by rw [hf.2])
theorem runB : ∀ (b : Cmds ι φ) {c : Ctx} {h : Hold φ} {k : Nat → Prog ι φ} {n : Nat}, Fits c h → h.last = none →
    UnmixedB c.errOut b → (b.code c k n).events c.path h.own = (usesB c.path b (h.streams c) n).1 ++
      (if (usesB c.path b (h.streams c) n).2.2 then [] else (k (usesB c.path b (h.streams c) n).2.1).events c.path h.own)
  | .nil, c, h, k, n, hf, hl, hu => by
    simp [Cmds.code, usesB]
  | .cons p rest, c, h, k, n, hf, hl, hu => by
    have hub : UnmixedL c.errOut p ∧ UnmixedB c.errOut rest := by simpa only [UnmixedB] using hu
    have e : ({ h with last := none } : Hold φ) = h := by cases h; simp_all
    have e2 : ({ h.streams c with inp := h.last.getD h.inp } : Streams φ) = h.streams c := by rw [hl]; rfl
    have := runL p (c := c) (h := h) (k := fun m => rest.code c k m) (n := n) (b := false) hf (by rw [hl]; rfl) hub.1
    rw [e, e2] at this
    rw [Cmds.code, this]
    simp only [usesB]
    split
    · rename_i hx
      simp only [List.append_nil]
    · rw [runB rest hf hl hub.2, List.append_assoc]
theorem runL : ∀ (p : Line ι φ) {c : Ctx} {h : Hold φ} {k : Nat → Prog ι φ} {n : Nat} {b : Bool}, Fits c h → b = h.last.isSome →
    UnmixedL c.errOut p → (p.code b c k n).events c.path h.own =
      (usesL c.path p { h.streams c with inp := h.last.getD h.inp } n).1 ++
      (if (usesL c.path p { h.streams c with inp := h.last.getD h.inp } n).2.2 then []
        else (k (usesL c.path p { h.streams c with inp := h.last.getD h.inp } n).2.1).events c.path
          ({ h with last := none } : Hold φ).own)
  | .last r cmd, c, h, k, n, b, hf, hb, hu => by
    have hub : (c.errOut = true → r.out = none) ∧ UnmixedC (r.merge || (c.errOut && r.err.isNone)) cmd := by
      simpa only [UnmixedL] using hu
    obtain ⟨h1, e1, a1, b1, c1, d1, g1⟩ := fed_above (ι := ι) c h hf b hb
    have hf0 : Fits c ({ h with last := none } : Hold φ) := hf
    obtain ⟨h2, e2, a2, b2, c2⟩ := redirect_above (ι := ι) a1 hf0 r
    have hq : ∀ a ∈ (c.fed (ι := ι) (φ := φ) b).1 ++ ((c.fed (ι := ι) (φ := φ) b).2.redirect (ι := ι) r).1, Quiet a := by
      intro a ha
      rcases List.mem_append.1 ha with h | h
      · exact quiet_fed _ _ a h
      · exact quiet_redirect _ _ a h
    have hsym := symL_append _ ((c.fed (ι := ι) (φ := φ) b).2.redirect (ι := ι) r).1 _ _ e1
    rw [e2] at hsym
    obtain ⟨f1, f2, f3, f4, f5, f6⟩ := a2.facts hf0
    rw [b1] at b2 c2
    have hst : h1.streams (c.fed (ι := ι) (φ := φ) b).2 = { h.streams c with inp := h.last.getD h.inp } := by
      simp only [Hold.streams, b1, c1, d1, g1]
    have := runC cmd (k := fun m => .acts (pops ((c.fed (ι := ι) (φ := φ) b).2.redirect (ι := ι) r).2.stack
        (((c.fed (ι := ι) (φ := φ) b).2.redirect (ι := ι) r).2.stack.length - c.stack.length)) (k m)) (n := n)
      f1 f5 (by rw [b2]; exact hub.2)
    rw [c2 hub.1, hst, f2, events_acts _ (quiet_pops _ _) (a2.pops hf0)] at this
    simp only [Line.code, usesL]
    rw [events_acts _ hq hsym]
    exact this
  | .pipe r cmd rest, c, h, k, n, b, hf, hb, hu => by
    have hub : UnmixedC r.merge cmd ∧ UnmixedL c.errOut rest := by simpa only [UnmixedL] using hu
    have hp : sym (ι := ι) (.pipe (n :: c.path) .p0 .p1) h.own = some (pipeOwn c h n) := rfl
    have hc := clone_sym (ι := ι) c h (pipeOwn c h n) rfl rfl rfl rfl rfl rfl
    simp only [Line.code, usesL, Prog.events, ev, List.nil_append, hp, Option.getD_some]
    rw [events_acts _ (quiet_clone c) hc]
    simp only [Prog.events]
    rw [pipe_rest c h n b hb, List.append_assoc]
    congr 1
    · have hj := joined_own c h (pipeOwn c h n) n b (.wr (n :: c.path)) rfl rfl
      obtain ⟨h1, e1, f1, p1, o1, q1, r1, s1, t1, u1, v1⟩ := joined_sym (ι := ι) (n :: c.path) h.inp h.out (h.streams c).err
        (.wr (n :: c.path)) (if b then h.last else none) b (by subst hb; cases h.last <;> rfl) _ hj
      obtain ⟨h2, e2, a2, b2, c2⟩ := redirect_above (ι := ι)
        (Above.refl (c := (Ctx.joined (ι := ι) (φ := φ) { path := n :: c.path } b).2) (h := h1)) f1 r
      have hq : ∀ a ∈ (Ctx.joined (ι := ι) (φ := φ) { path := n :: c.path } b).1 ++
          ((Ctx.joined (ι := ι) (φ := φ) { path := n :: c.path } b).2.redirect (ι := ι) r).1, Quiet a := by
        intro a ha
        rcases List.mem_append.1 ha with h | h
        · exact quiet_joined _ _ a h
        · exact quiet_redirect _ _ a h
      have hsym := symL_append _ ((Ctx.joined (ι := ι) (φ := φ) { path := n :: c.path } b).2.redirect (ι := ι) r).1 _ _ e1
      rw [e2] at hsym
      obtain ⟨g1, g2, g3, g4, g5, g6⟩ := a2.facts f1
      rw [o1] at b2 c2
      have := runC cmd (k := fun _ => ((Ctx.joined (ι := ι) (φ := φ) { path := n :: c.path } b).2.redirect (ι := ι) r).2.leave) (n := 0)
        g1 (g5.trans s1) (by rw [b2]; simpa using hub.1)
      have hin : (if b then h.last else none).getD h.inp = h.last.getD h.inp := by
        subst hb; cases h.last <;> rfl
      rw [leave_events _ _ g1, g2, p1, c2 (by intro h; cases h),
        streams_eq (s := { h.streams c with inp := h.last.getD h.inp, out := .wr (n :: c.path) }) (t1.trans hin) u1 v1 o1] at this
      rw [events_acts _ hq hsym]
      simpa using this
    · have := runL rest (h := { h with last := some (.rd (n :: c.path)) }) (c := c) (k := k) (n := n + 1) (b := true) hf rfl hub.2
      exact this
end

end PBat.Pipe
