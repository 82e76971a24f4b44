import Verif.Lemmas.PipeCode
/-
Lemmas for C93: the programs of the threads only touch what they own, and the ends of the pipes are held on the right sides.
-/
namespace PBat.Pipe
open PBat.Spec

variable {ι φ : Type}

/-- What a thread may own for long: the writing ends of the pipes it or one of its ancestors was started for, and the reading
ends of pipes whose writer was started before, by the thread itself or by an ancestor of it. -/
def Settled (π : Name) (n : Nat) : Chan φ → Prop
  | .file _ => True
  | .wr p => p <:+ π
  | .rd [] => False
  | .rd (m :: ρ) => (ρ = π ∧ m < n) ∨ ∃ m', m < m' ∧ (m' :: ρ) <:+ π

/-- Sides: as `Settled`, and the ends of the pipe that is being connected. -/
def Sides (π : Name) (n : Nat) (o : Own φ) : Prop :=
  ∀ r c, o r = some c → Settled π n c ∨ (r = .p1 ∧ c = .wr (n :: π)) ∨ ((r = .p0 ∨ ∃ k, r = .feed k) ∧ c = .rd (n :: π))

theorem Settled.mono {π : Name} {n m : Nat} {c : Chan φ} (h : Settled π n c) (hm : n ≤ m) : Settled π m c := by
  cases c with
  | file f => trivial
  | wr p => exact h
  | rd p =>
    cases p with
    | nil => exact h
    | cons x ρ =>
      rcases h with ⟨a, b⟩ | h
      · exact .inl ⟨a, by omega⟩
      · exact .inr h

theorem Settled.child {π : Name} {n : Nat} {c : Chan φ} (h : Settled π n c) : Settled (n :: π) 0 c := by
  cases c with
  | file f => trivial
  | wr p => exact List.IsSuffix.trans h (List.suffix_cons _ _)
  | rd p =>
    cases p with
    | nil => exact h
    | cons x ρ =>
      rcases h with ⟨a, b⟩ | ⟨m', a, b⟩
      · subst a
        exact .inr ⟨n, b, List.suffix_refl _⟩
      · exact .inr ⟨m', a, b.trans (List.suffix_cons _ _)⟩

/-- The source is not an end that is being connected. -/
def Calm (r : Reg) : Prop := r ≠ .p1 ∧ r ≠ .p0 ∧ ∀ k, r ≠ .feed k

/-- System calls that do not make or move pipes. -/
def Fine : Act ι φ → Prop
  | .dup _ s => Calm s
  | .dup2 s _ => Calm s
  | .pipe _ _ _ => False
  | .move _ _ => False
  | _ => True

theorem Sides.settled {π : Name} {n : Nat} {o : Own φ} (h : Sides π n o) {r : Reg} (hr : Calm r) {c : Chan φ} (hc : o r = some c) :
    Settled π n c := by
  rcases h r c hc with a | ⟨a, _⟩ | ⟨a, _⟩
  · exact a
  · exact absurd a hr.1
  · rcases a with a | ⟨k, a⟩
    · exact absurd a hr.2.1
    · exact absurd a (hr.2.2 k)

theorem Sides.upd_settled {π : Name} {n : Nat} {o : Own φ} (h : Sides π n o) (r : Reg) (c : Option (Chan φ))
    (hc : ∀ x, c = some x → Settled π n x) : Sides π n (upd o r c) := by
  intro r' c' h'
  simp only [upd] at h'
  split at h'
  · exact .inl (hc c' h')
  · exact h r' c' h'

theorem sym_sides {π : Name} {n : Nat} {o o' : Own φ} {a : Act ι φ} (h : Sides π n o) (hf : Fine a) (hs : sym a o = some o') :
    Sides π n o' := by
  cases a <;> simp only [sym] at hs <;> split at hs <;> try (cases hs; done)
  all_goals cases hs
  · rename_i hc _
    exact h.upd_settled _ _ (fun x hx => by cases hx; exact h.settled hf hc)
  · rename_i hc _
    exact h.upd_settled _ _ (fun x hx => by cases hx; exact h.settled hf hc)
  · exact h.upd_settled _ _ (fun x hx => by cases hx)
  · exact h.upd_settled _ _ (fun x hx => by cases hx; trivial)
  · exact absurd hf (by simp [Fine])
  · exact absurd hf (by simp [Fine])
  · exact h

theorem symL_sides {π : Name} {n : Nat} {o o' : Own φ} {l : List (Act ι φ)} (h : Sides π n o) (hf : ∀ a ∈ l, Fine a)
    (hs : symL l o = some o') : Sides π n o' := by
  induction l generalizing o with
  | nil => cases hs; exact h
  | cons a l ih =>
    simp only [symL] at hs
    split at hs
    · rename_i o1 h1
      exact ih (sym_sides h (hf a (by simp)) h1) (fun b hb => hf b (by simp [hb])) hs
    · cases hs

theorem ok_acts {fin : Name → Own φ → Prop} {π : Name} {n : Nat} {o o' : Own φ} {l : List (Act ι φ)} {k : Prog ι φ}
    (h : Sides π n o) (hf : ∀ a ∈ l, Fine a) (hs : symL l o = some o') (hk : Ok Sides fin π n k o') :
    Ok Sides fin π n (.acts l k) o := by
  induction l generalizing o with
  | nil => cases hs; exact hk
  | cons a l ih =>
    simp only [symL] at hs
    split at hs
    · rename_i o1 h1
      exact .act h h1 (ih (sym_sides h (hf a (by simp)) h1) (fun b hb => hf b (by simp [hb])) hs)
    · cases hs

theorem child_sides {π : Name} {n : Nat} {o : Own φ} (bo bi : Bool) (h : Sides π n o) : Sides (n :: π) 0 (childOwn bo bi o) := by
  have hcalm : ∀ r, Calm r → ∀ c, o r = some c → Settled (n :: π) 0 c := fun r hr c hc => (h.settled hr hc).child
  intro r c hc
  left
  cases r <;> simp only [childOwn] at hc
  · exact hcalm .cin (by simp [Calm]) c hc
  · exact hcalm .cout (by simp [Calm]) c hc
  · exact hcalm .cerr (by simp [Calm]) c hc
  all_goals try (cases hc; done)
  · cases bi
    · cases hc
    · exact hcalm .last (by simp [Calm]) c hc
  · cases bo
    · cases hc
    · rcases h .p1 c hc with a | ⟨_, a⟩ | ⟨a, _⟩
      · exact a.child
      · subst a; exact List.suffix_refl _
      · rcases a with a | ⟨k, a⟩ <;> cases a

theorem rest_settled {π : Name} {n : Nat} {o : Own φ} (bo bi : Bool) (h : Sides π n o) (hb : bo = true ∨ o .p1 = none) :
    ∀ r c, restOwn bo bi o r = some c → Settled π (n + 1) c := by
  have hall : ∀ r, r ≠ .p1 → ∀ c, o r = some c → Settled π (n + 1) c := by
    intro r hr c hc
    rcases h r c hc with a | ⟨a, _⟩ | ⟨_, a⟩
    · exact a.mono (Nat.le_succ n)
    · exact absurd a hr
    · subst a; exact .inl ⟨rfl, Nat.lt_succ_self n⟩
  intro r c hc
  cases r <;> simp only [restOwn] at hc
  all_goals try (cases hc; done)
  case p1 =>
    rcases hb with rfl | hb
    · cases hc
    · rw [hb] at hc; cases bo <;> cases hc
  case last =>
    cases bi
    · exact hall .last (by simp) c hc
    · cases hc
  all_goals exact hall _ (by simp) c hc

theorem sides_of_settled {π : Name} {n : Nat} {o : Own φ} (h : ∀ r c, o r = some c → Settled π n c) : Sides π n o :=
  fun r c hc => .inl (h r c hc)

theorem hold_sides_mono {π : Name} {n m : Nat} {h : Hold φ} (hs : Sides π n h.own) (hm : n ≤ m) : Sides π m h.own := by
  intro r c hc
  rcases hs r c hc with a | ⟨a, _⟩ | ⟨a, b⟩
  · exact .inl (a.mono hm)
  · subst a; cases hc
  · by_cases e : n = m
    · subst e; exact .inr (.inr ⟨a, b⟩)
    · subst b; exact .inl (.inl ⟨rfl, by omega⟩)

/-! ### The system calls of the pieces -/

theorem std_calm {r : Reg} (h : Std r) : Calm r := by
  rcases h with rfl | rfl | rfl <;> simp [Calm]

theorem fine_take (c : Ctx) (src r : Reg) (hs : Calm src) (hr : Std r) : ∀ a ∈ (c.take (ι := ι) (φ := φ) src r).1, Fine a := by
  simp only [Ctx.take, List.mem_cons, List.not_mem_nil, or_false, forall_eq_or_imp, forall_eq, Fine, and_true]
  exact ⟨std_calm hr, hs⟩

theorem fine_openTo (c : Ctx) (f : Option φ) (r : Reg) (hr : Std r) : ∀ a ∈ (c.openTo (ι := ι) f r).1, Fine a := by
  cases f with
  | none => simp [Ctx.openTo]
  | some f =>
    simp only [Ctx.openTo, List.mem_cons, forall_eq_or_imp]
    exact ⟨trivial, fine_take c .new r (by simp [Calm]) hr⟩

theorem fine_redirect (c : Ctx) (r : Redirs φ) : ∀ a ∈ (c.redirect (ι := ι) r).1, Fine a := by
  intro a ha
  simp only [Ctx.redirect, List.mem_append] at ha
  rcases ha with (h | h) | h
  · exact fine_openTo _ _ _ (by simp [Std]) a h
  · exact fine_openTo _ _ _ (by simp [Std]) a h
  · exact fine_openTo _ _ _ (by simp [Std]) a h

theorem fine_pops (l : List (Option Reg × Bool)) (k : Nat) : ∀ a ∈ pops (ι := ι) (φ := φ) l k, Fine a := by
  induction l generalizing k with
  | nil => simp [pops]
  | cons x l ih =>
    obtain ⟨x, b⟩ := x
    cases k with
    | zero => rw [pops_zero]; simp
    | succ k =>
      cases x with
      | none => exact ih k
      | some r =>
        simp only [pops, List.cons_append, List.nil_append, List.mem_cons, forall_eq_or_imp]
        exact ⟨by simp [Fine, Calm], trivial, ih k⟩

theorem fine_clone (c : Ctx) : ∀ a ∈ c.clone (ι := ι) (φ := φ), Fine a := by
  cases h : c.errOut <;> simp [Ctx.clone, Fine, Calm, h]

theorem fine_joined (c : Ctx) (b : Bool) : ∀ a ∈ (c.joined (ι := ι) (φ := φ) b).1, Fine a := by
  cases b with
  | false => exact fine_take c _ _ (by simp [Calm]) (by simp [Std])
  | true =>
    intro a ha
    simp only [Ctx.joined, ↓reduceIte, List.mem_append] at ha
    rcases ha with h | h
    · exact fine_take _ _ _ (by simp [Calm]) (by simp [Std]) a h
    · exact fine_take _ _ _ (by simp [Calm]) (by simp [Std]) a h

theorem fine_fed (c : Ctx) (b : Bool) : ∀ a ∈ (c.fed (ι := ι) (φ := φ) b).1, Fine a := by
  cases b with
  | false => simp [Ctx.fed]
  | true => exact fine_take _ _ _ (by simp [Calm]) (by simp [Std])

/-! ### The programs -/

/-- What holds when a thread is over: a clone holds no writing end; if EXIT is only used where it is allowed, it holds
nothing and the first thread holds what it held. -/
def Fin (T : Prop) (own0 : Own φ) (π : Name) (o : Own φ) : Prop :=
  (π ≠ [] → ∀ r p, o r ≠ some (.wr p)) ∧ (T → (π = [] → o = own0) ∧ (π ≠ [] → ∀ r, o r = none))

/-- Where a thread stands. -/
structure At (T : Prop) (ok : Bool) (c : Ctx) (h : Hold φ) (n : Nat) : Prop where
  fits : Fits c h
  sides : Sides c.path n h.own
  feeds : ∀ x ∈ h.feeds, ∃ p, x = .rd p
  may : T → ok = true → c.path ≠ [] ∧ c.feeds = 0

theorem leave_ok {T : Prop} {own0 : Own φ} {ok : Bool} {c : Ctx} {h : Hold φ} {n : Nat} (ha : At T ok c h n)
    (hl : h.last = none) (ht : T → ok = true) : Ok Sides (Fin T own0) c.path n (c.leave (ι := ι)) h.own := by
  have hf : ∀ a ∈ (pops c.stack c.stack.length ++ [.close .inp, .close .out, .close .err] : List (Act ι φ)), Fine a := by
    intro a ha
    rcases List.mem_append.1 ha with h | h
    · exact fine_pops _ _ a h
    · simp only [List.mem_cons, List.not_mem_nil, or_false] at h
      rcases h with rfl | rfl | rfl <;> trivial
  have hs := leave_sym (ι := ι) c h ha.fits
  refine ok_acts ha.sides hf hs (.done (symL_sides ha.sides hf hs) ⟨?_, ?_⟩)
  · intro _ r p hr
    cases r <;> simp only [left, reduceCtorEq] at hr
    · rw [hl] at hr; cases hr
    · obtain ⟨q, hq⟩ := ha.feeds _ (entry_mem hr)
      cases hq
  · intro t
    have := ha.may t (ht t)
    refine ⟨fun h => absurd h this.1, fun _ r => ?_⟩
    have hz : h.feeds = [] := List.length_eq_zero_iff.1 (ha.fits.2 ▸ this.2)
    cases r <;> simp [left, hl, hz, entry]

/-- The own of a clone. -/
theorem childOwn_cloned (c : Ctx) (h : Hold φ) (o : Own φ) (bo bi : Bool) :
    childOwn bo bi (cloned h c o) = fun
      | .inp => some h.inp | .out => some h.out | .err => some (h.streams c).err
      | .fdout => if bo then o .p1 else none | .fdin => if bi then o .last else none | _ => none := by
  funext r
  cases r <;> simp [childOwn, cloned, upd]

theorem restOwn_cloned (c : Ctx) (h : Hold φ) (o : Own φ) (bo bi : Bool) (h1 : o .cin = none) (h2 : o .cout = none)
    (h3 : o .cerr = none) : restOwn bo bi (cloned h c o) = fun
      | .p1 => if bo then none else o .p1 | .last => if bi then none else o .last | r => o r := by
  funext r
  cases r <;> simp [restOwn, cloned, upd, h1, h2, h3]

theorem start_own (c : Ctx) (h : Hold φ) : childOwn false false (cloned h c h.own) =
    ({ inp := h.inp, out := h.out, err := (h.streams c).err } : Hold φ).own := by
  rw [childOwn_cloned]
  funext r
  cases r <;> simp [Hold.own, entry]

theorem start_rest (c : Ctx) (h : Hold φ) : restOwn false false (cloned h c h.own) = h.own := by
  rw [restOwn_cloned _ _ _ _ _ rfl rfl rfl]
  funext r
  cases r <;> rfl

/-- After the pipe of a FOR /F was made. -/
def fedOwn (c : Ctx) (h : Hold φ) (n : Nat) : Own φ :=
  upd (upd h.own (.feed c.feeds) (some (.rd (n :: c.path)))) .p1 (some (.wr (n :: c.path)))

theorem feed_rest (c : Ctx) (h : Hold φ) (n : Nat) (hf : c.feeds = h.feeds.length) :
    restOwn true false (cloned h c (fedOwn c h n)) = ({ h with feeds := .rd (n :: c.path) :: h.feeds } : Hold φ).own := by
  rw [restOwn_cloned _ _ _ _ _ rfl rfl rfl]
  funext r
  cases r <;> simp [fedOwn, upd, Hold.own, entry, hf]

/-- After the pipe of a pipeline was made. -/
def pipeOwn (c : Ctx) (h : Hold φ) (n : Nat) : Own φ :=
  upd (upd h.own .p0 (some (.rd (n :: c.path)))) .p1 (some (.wr (n :: c.path)))

theorem pipe_rest (c : Ctx) (h : Hold φ) (n : Nat) (b : Bool) (hb : b = h.last.isSome) :
    sym (ι := ι) (.move .last .p0) (restOwn true b (cloned h c (pipeOwn c h n))) =
      some ({ h with last := some (.rd (n :: c.path)) } : Hold φ).own := by
  rw [restOwn_cloned _ _ _ _ _ rfl rfl rfl]
  have : (if b then none else pipeOwn c h n .last) = none := by
    subst hb
    cases hl : h.last <;> simp [pipeOwn, upd, Hold.own, hl]
  simp only [sym, this]
  simp only [pipeOwn, upd, reduceCtorEq, ↓reduceIte]
  congr 1
  funext r
  cases r <;> simp [upd, Hold.own]

theorem joined_own (c : Ctx) (h : Hold φ) (o : Own φ) (n : Nat) (b : Bool) (w : Chan φ) (h1 : o .p1 = some w) (h2 : o .last = h.last) :
    childOwn true b (cloned h c o) = fun
      | .inp => some h.inp | .out => some h.out | .err => some (h.streams c).err
      | .fdout => some w | .fdin => if b then h.last else none | _ => none := by
  rw [childOwn_cloned]
  funext r
  cases r <;> simp [h1, h2]

mutual
theorem okC {T : Prop} {own0 : Own φ} : ∀ (cmd : Cmd ι φ) {ok : Bool} {c : Ctx} {h : Hold φ} {k : Nat → Prog ι φ} {n : Nat},
    At T ok c h n → h.last = none → (T → TidyC ok cmd) → (∀ m, n ≤ m → Ok Sides (Fin T own0) c.path m (k m) h.own) →
    Ok Sides (Fin T own0) c.path n (cmd.code c k n) h.own
  | .run i, ok, c, h, k, n, ha, hl, ht, hk => by
    rw [Cmd.code]
    exact .act ha.sides rfl (hk n (Nat.le_refl n))
  | .exit, ok, c, h, k, n, ha, hl, ht, hk => by
    rw [Cmd.code]
    exact leave_ok ha hl (fun t => by have := ht t; simpa only [TidyC] using this)
  | .block b, ok, c, h, k, n, ha, hl, ht, hk => by
    rw [Cmd.code]
    exact okB b ha hl (fun t => by have := ht t; simpa only [TidyC] using this) hk
  | .start b, ok, c, h, k, n, ha, hl, ht, hk => by
    rw [Cmd.code]
    have hc := clone_sym (ι := ι) c h h.own rfl rfl rfl rfl rfl rfl
    have hs := symL_sides ha.sides (fine_clone c) hc
    refine ok_acts ha.sides (fine_clone c) hc (.spawn hs ?_ ?_)
    · have hcs := child_sides false false hs
      rw [start_own] at hcs ⊢
      have hat : At T true ({ path := n :: c.path } : Ctx)
          ({ inp := h.inp, out := h.out, err := (h.streams c).err } : Hold φ) 0 :=
        ⟨⟨trivial, rfl⟩, hcs, by simp, fun _ _ => ⟨by simp, rfl⟩⟩
      refine okB b hat rfl (fun t => by have := ht t; simpa only [TidyC] using this) (fun m hm => ?_)
      exact leave_ok ⟨hat.fits, hold_sides_mono hcs hm, hat.feeds, hat.may⟩ rfl (fun _ => rfl)
    · rw [start_rest]
      exact hk (n + 1) (by omega)
  | .feed b body, ok, c, h, k, n, ha, hl, ht, hk => by
    rw [Cmd.code]
    have hp : sym (ι := ι) (.pipe (n :: c.path) (.feed c.feeds) .p1) h.own = some (fedOwn c h n) := by
      have : h.own (.feed c.feeds) = none := entry_none _ _ (by rw [ha.fits.2]; exact Nat.le_refl _)
      have h2 : h.own .p1 = none := rfl
      simp only [sym, this, h2, reduceCtorEq, decide_false]
      rfl
    have hs1 : Sides c.path n (fedOwn c h n) := by
      intro r x hx
      simp only [fedOwn, upd] at hx
      split at hx
      · rename_i e; cases hx; exact .inr (.inl ⟨e, rfl⟩)
      · split at hx
        · rename_i e; cases hx; exact .inr (.inr ⟨.inr ⟨_, e⟩, rfl⟩)
        · exact ha.sides r x hx
    have hc := clone_sym (ι := ι) c h (fedOwn c h n) rfl rfl rfl rfl rfl rfl
    have hs := symL_sides hs1 (fine_clone c) hc
    have htb : T → TidyB true b ∧ TidyB false body := fun t => by have := ht t; simpa only [TidyC] using this
    refine .act ha.sides hp (ok_acts hs1 (fine_clone c) hc (.spawn hs ?_ ?_))
    · have hcs := child_sides true false hs
      have hj := joined_own c h (fedOwn c h n) n false (.wr (n :: c.path)) rfl rfl
      obtain ⟨h1, e1, f1, p1, _, q1, r1, s1, _⟩ := joined_sym (ι := ι) (n :: c.path) h.inp h.out (h.streams c).err
        (.wr (n :: c.path)) none false rfl _ (hj.trans (by funext r; cases r <;> rfl))
      have hs2 := symL_sides hcs (fine_joined _ _) e1
      have hat : At T true (Ctx.joined (ι := ι) (φ := φ) { path := n :: c.path } false).2 h1 0 :=
        ⟨f1, by rw [p1]; exact hs2, by rw [r1]; simp, fun _ _ => ⟨by rw [p1]; simp, q1⟩⟩
      refine ok_acts hcs (fine_joined _ _) e1 ?_
      have := okB (T := T) (own0 := own0) b (k := fun _ => (Ctx.joined (ι := ι) (φ := φ) { path := n :: c.path } false).2.leave) hat s1
        (fun t => (htb t).1) (fun m hm => leave_ok ⟨hat.fits, hold_sides_mono hat.sides hm, hat.feeds, hat.may⟩ s1 (fun _ => rfl))
      rw [p1] at this
      exact this
    · have hset := rest_settled true false hs (.inl rfl)
      rw [feed_rest c h n ha.fits.2] at hset ⊢
      have hat : At T false { c with feeds := c.feeds + 1 } ({ h with feeds := .rd (n :: c.path) :: h.feeds } : Hold φ) (n + 1) :=
        ⟨⟨ha.fits.1, by simp [ha.fits.2]⟩, sides_of_settled hset,
          by intro x hx; rcases List.mem_cons.1 hx with rfl | hx
             · exact ⟨_, rfl⟩
             · exact ha.feeds x hx,
          fun _ h => by cases h⟩
      refine okB (c := { c with feeds := c.feeds + 1 }) body hat hl (fun t => (htb t).2) (fun m hm => ?_)
      refine .act (hold_sides_mono hat.sides hm) ?_ (hk m (by omega))
      have : ({ h with feeds := .rd (n :: c.path) :: h.feeds } : Hold φ).own (.feed c.feeds) = some (.rd (n :: c.path)) := by
        simp [Hold.own, entry, ha.fits.2]
      simp only [sym, this]
      congr 1
      funext r
      simp only [upd]
      split
      · subst_vars
        simp only [Hold.own, ha.fits.2]
        rw [entry_none _ _ (Nat.le_refl _)]
      · cases r <;> simp only [Hold.own, entry]
        rw [if_neg]
        rintro rfl
        rename_i hne
        exact hne (by rw [ha.fits.2])
theorem okB {T : Prop} {own0 : Own φ} : ∀ (b : Cmds ι φ) {ok : Bool} {c : Ctx} {h : Hold φ} {k : Nat → Prog ι φ} {n : Nat},
    At T ok c h n → h.last = none → (T → TidyB ok b) → (∀ m, n ≤ m → Ok Sides (Fin T own0) c.path m (k m) h.own) →
    Ok Sides (Fin T own0) c.path n (b.code c k n) h.own
  | .nil, ok, c, h, k, n, ha, hl, ht, hk => by
    rw [Cmds.code]
    exact hk n (Nat.le_refl n)
  | .cons p rest, ok, c, h, k, n, ha, hl, ht, hk => by
    rw [Cmds.code]
    have htb : T → TidyL ok p ∧ TidyB ok rest := fun t => by have := ht t; simpa only [TidyB] using this
    have e : ({ h with last := none } : Hold φ) = h := by cases h; simp_all
    refine okL p ha (by rw [hl]; rfl) (fun t => (htb t).1) (fun m hm => ?_)
    rw [e]
    exact okB rest ⟨ha.fits, hold_sides_mono ha.sides hm, ha.feeds, ha.may⟩ hl (fun t => (htb t).2)
      (fun m' hm' => hk m' (by omega))
theorem okL {T : Prop} {own0 : Own φ} : ∀ (p : Line ι φ) {ok : Bool} {c : Ctx} {h : Hold φ} {k : Nat → Prog ι φ} {n : Nat} {b : Bool},
    At T ok c h n → b = h.last.isSome → (T → TidyL ok p) →
    (∀ m, n ≤ m → Ok Sides (Fin T own0) c.path m (k m) ({ h with last := none } : Hold φ).own) →
    Ok Sides (Fin T own0) c.path n (p.code b c k n) h.own
  | .last r cmd, ok, c, h, k, n, b, ha, hb, ht, hk => by
    rw [Line.code]
    obtain ⟨h1, e1, a1, _, _, _, _⟩ := fed_above (ι := ι) c h ha.fits b hb
    have hf0 : Fits c ({ h with last := none } : Hold φ) := ha.fits
    obtain ⟨h2, e2, a2, _, _⟩ := redirect_above (ι := ι) a1 hf0 r
    have hfi : ∀ a ∈ (c.fed (ι := ι) (φ := φ) b).1 ++ ((c.fed (ι := ι) (φ := φ) b).2.redirect (ι := ι) r).1, Fine a := by
      intro a ha
      rcases List.mem_append.1 ha with h | h
      · exact fine_fed _ _ a h
      · exact fine_redirect _ _ a h
    have hsym := symL_append _ ((c.fed (ι := ι) (φ := φ) b).2.redirect (ι := ι) r).1 _ _ e1
    rw [e2] at hsym
    have hs2 := symL_sides ha.sides hfi hsym
    obtain ⟨f1, f2, f3, f4, f5, f6⟩ := a2.facts hf0
    refine ok_acts ha.sides hfi hsym ?_
    have hat : At T ok ((c.fed (ι := ι) (φ := φ) b).2.redirect (ι := ι) r).2 h2 n :=
      ⟨f1, by rw [f2]; exact hs2, by rw [f4]; exact ha.feeds, by rw [f2, f3]; exact ha.may⟩
    have := okC (T := T) (own0 := own0) cmd
      (k := fun m => .acts (pops ((c.fed (ι := ι) (φ := φ) b).2.redirect (ι := ι) r).2.stack
        (((c.fed (ι := ι) (φ := φ) b).2.redirect (ι := ι) r).2.stack.length - c.stack.length)) (k m))
      hat f5 (fun t => by have := ht t; simpa only [TidyL] using this) (fun m hm => by
        have hsm := hold_sides_mono hat.sides hm
        refine ok_acts hsm (fine_pops _ _) (a2.pops hf0) ?_
        rw [f2]
        exact hk m hm)
    rw [f2] at this
    exact this
  | .pipe r cmd rest, ok, c, h, k, n, b, ha, hb, ht, hk => by
    rw [Line.code]
    have hp : sym (ι := ι) (.pipe (n :: c.path) .p0 .p1) h.own = some (pipeOwn c h n) := rfl
    have hs1 : Sides c.path n (pipeOwn c h n) := by
      intro r x hx
      simp only [pipeOwn, upd] at hx
      split at hx
      · rename_i e; cases hx; exact .inr (.inl ⟨e, rfl⟩)
      · split at hx
        · rename_i e; cases hx; exact .inr (.inr ⟨.inl e, rfl⟩)
        · exact ha.sides r x hx
    have hc := clone_sym (ι := ι) c h (pipeOwn c h n) rfl rfl rfl rfl rfl rfl
    have hs := symL_sides hs1 (fine_clone c) hc
    have htb : T → TidyC true cmd ∧ TidyL ok rest := fun t => by have := ht t; simpa only [TidyL] using this
    refine .act ha.sides hp (ok_acts hs1 (fine_clone c) hc (.spawn hs ?_ ?_))
    · have hcs := child_sides true b hs
      have hj := joined_own c h (pipeOwn c h n) n b (.wr (n :: c.path)) rfl rfl
      obtain ⟨h1, e1, f1, p1, _, q1, r1, s1, _⟩ := joined_sym (ι := ι) (n :: c.path) h.inp h.out (h.streams c).err
        (.wr (n :: c.path)) (if b then h.last else none) b (by subst hb; cases h.last <;> rfl) _ hj
      obtain ⟨h2, e2, a2, _, _⟩ := redirect_above (ι := ι) (Above.refl (c := (Ctx.joined (ι := ι) (φ := φ) { path := n :: c.path } b).2)
        (h := h1)) f1 r
      have hfi : ∀ a ∈ (Ctx.joined (ι := ι) (φ := φ) { path := n :: c.path } b).1 ++
          ((Ctx.joined (ι := ι) (φ := φ) { path := n :: c.path } b).2.redirect (ι := ι) r).1, Fine a := by
        intro a ha
        rcases List.mem_append.1 ha with h | h
        · exact fine_joined _ _ a h
        · exact fine_redirect _ _ a h
      have hsym := symL_append _ ((Ctx.joined (ι := ι) (φ := φ) { path := n :: c.path } b).2.redirect (ι := ι) r).1 _ _ e1
      rw [e2] at hsym
      obtain ⟨g1, g2, g3, g4, g5, g6⟩ := a2.facts f1
      have hs2 := symL_sides hcs hfi hsym
      have hat : At T true ((Ctx.joined (ι := ι) (φ := φ) { path := n :: c.path } b).2.redirect (ι := ι) r).2 h2 0 :=
        ⟨g1, by rw [g2, p1]; exact hs2, by rw [g4, r1]; simp, fun _ _ => ⟨by rw [g2, p1]; simp, by rw [g3]; exact q1⟩⟩
      refine ok_acts hcs hfi hsym ?_
      have := okC (T := T) (own0 := own0) cmd
        (k := fun _ => ((Ctx.joined (ι := ι) (φ := φ) { path := n :: c.path } b).2.redirect (ι := ι) r).2.leave) hat (g5.trans s1)
        (fun t => (htb t).1)
        (fun m hm => leave_ok ⟨hat.fits, hold_sides_mono hat.sides hm, hat.feeds, hat.may⟩ (g5.trans s1) (fun _ => rfl))
      rw [g2, p1] at this
      exact this
    · have hset := rest_settled true b hs (.inl rfl)
      have hm := pipe_rest (ι := ι) c h n b hb
      have hset' : ∀ r x, ({ h with last := some (.rd (n :: c.path)) } : Hold φ).own r = some x → Settled c.path (n + 1) x := by
        intro r x hx
        by_cases hr : r = .last
        · subst hr; cases hx; exact .inl ⟨rfl, Nat.lt_succ_self n⟩
        · refine hset r x ?_
          rw [restOwn_cloned _ _ _ _ _ rfl rfl rfl]
          cases r <;> first | exact absurd rfl hr | exact hx | cases hx
      refine .act (sides_of_settled hset) hm ?_
      refine okL (h := { h with last := some (.rd (n :: c.path)) }) rest
        ⟨ha.fits, sides_of_settled hset', ha.feeds, ha.may⟩ rfl (fun t => (htb t).2) (fun m hm => hk m (by omega))
end

end PBat.Pipe
