import Verif.Spec.Buffer
/-
Lemmas on the buffering of the output.
-/
namespace PBat.Buf
open PBat.Spec.Buf

variable {β : Type}

/-- The text `p` if it is for file `c`. -/
def sel (a c : Nat) (p : List β) : List β := if a = c then p else []

theorem sel_eq {a c : Nat} (h : a = c) (p : List β) : sel a c p = p := if_pos h
theorem sel_ne {a c : Nat} (h : a ≠ c) (p : List β) : sel a c p = [] := if_neg h
theorem sel_nil (a c : Nat) : sel a c ([] : List β) = [] := by unfold sel; split <;> rfl

theorem app_eq {x c : Nat} (h : x = c) (d : Disk β) (t : List β) : app d x t c = d c ++ t := if_pos h.symm
theorem app_ne {x c : Nat} (h : x ≠ c) (d : Disk β) (t : List β) : app d x t c = d c := if_neg (fun a => h a.symm)
theorem app_sel (x c : Nat) (d : Disk β) (t : List β) : app d x t c = d c ++ sel x c t := by
  by_cases h : x = c
  · rw [app_eq h, sel_eq h]
  · rw [app_ne h, sel_ne h, List.append_nil]

theorem content_write (x c : Nat) (l t : List β) (es : List (Ev β)) : content c l (.write x t :: es) = content c (l ++ sel x c t) es := by
  by_cases h : x = c
  · rw [content, if_pos h, sel_eq h]
  · rw [content, if_neg h, sel_ne h, List.append_nil]

/-- The texts which wait to be written to file `c`. -/
def waiting (c : Nat) (s : St β) : List β := sel s.io.out c s.po ++ sel s.io.err c s.pe

/-- The invariant: `l` is what file `c` should hold. -/
structure Inv (lc : Libc β) (c : Nat) (l : List β) (v : View) (s : St β) : Prop where
  io : v.io = s.io
  text : s.disk c ++ waiting c s = l
  out : s.io.out = c → s.po ≠ [] → v.wo = true ∧ lc.tty c = false
  err : s.io.err = c → s.pe ≠ [] → v.we = true ∧ lc.tty c = false
  one : s.io.out = c → s.io.err = c → s.po = [] ∨ s.pe = []

theorem content_append (c : Nat) (es fs : List (Ev β)) (l : List β) : content c l (es ++ fs) = content c (content c l es) fs := by
  induction es generalizing l with
  | nil => rfl
  | cons e es ih => cases e <;> exact ih _

theorem writes_content (c : Nat) (io : Io Nat) (ws : List (Bool × List β)) (d : Disk β) :
    writes io ws d c = content c (d c) (ws.map (fun w => .write (if w.1 then errOf io else outOf io) w.2)) := by
  induction ws generalizing d with
  | nil => rfl
  | cons w ws ih =>
    obtain ⟨e, t⟩ := w
    simp only [writes, List.map_cons, content_write, ih, app_sel, errOf, outOf]

theorem inv_putOut (lc : Libc β) (c : Nat) (l : List β) (v : View) (s : St β) (t : List β) (h : Inv lc c l v s)
    (ho : s.io.out = c → s.io.err = c → s.pe = []) :
    Inv lc c (l ++ sel s.io.out c t) ⟨v.io, true, v.we⟩ (putOut lc s t) := by
  obtain ⟨h1, h2, h3, h4, h5⟩ := h
  by_cases hc : s.io.out = c
  · refine ⟨h1, ?_, ?_, h4, fun a b => Or.inr (ho a b)⟩
    · have he : sel s.io.err c s.pe = [] := by
        by_cases he : s.io.err = c
        · rw [ho hc he, sel_nil]
        · exact sel_ne he _
      simp only [putOut, waiting, app_eq hc, sel_eq hc, he, List.append_nil] at h2 ⊢
      rw [List.append_assoc, List.take_append_drop, ← List.append_assoc, h2]
    · intro _ hp
      refine ⟨rfl, ?_⟩
      cases ht : lc.tty c with
      | false => rfl
      | true => exact absurd (by simp [putOut, hc, ht]) hp
  · refine ⟨h1, ?_, fun a => absurd a hc, h4, fun a => absurd a hc⟩
    simp only [putOut, waiting, app_ne hc, sel_ne hc, List.append_nil] at h2 ⊢
    exact h2

theorem inv_putErr (lc : Libc β) (c : Nat) (l : List β) (v : View) (s : St β) (t : List β) (h : Inv lc c l v s)
    (ho : s.io.out = c → s.io.err = c → s.po = []) :
    Inv lc c (l ++ sel s.io.err c t) ⟨v.io, v.wo, true⟩ (putErr lc s t) := by
  obtain ⟨h1, h2, h3, h4, h5⟩ := h
  by_cases hc : s.io.err = c
  · refine ⟨h1, ?_, h3, ?_, fun a b => Or.inl (ho a b)⟩
    · have he : sel s.io.out c s.po = [] := by
        by_cases he : s.io.out = c
        · rw [ho he hc, sel_nil]
        · exact sel_ne he _
      simp only [putErr, waiting, app_eq hc, sel_eq hc, he, List.nil_append] at h2 ⊢
      rw [List.append_assoc, List.take_append_drop, ← List.append_assoc, h2]
    · intro _ hp
      refine ⟨rfl, ?_⟩
      cases ht : lc.tty c with
      | false => rfl
      | true => exact absurd (by simp [putErr, hc, ht]) hp
  · refine ⟨h1, ?_, h3, fun a => absurd a hc, fun _ a => absurd a hc⟩
    simp only [putErr, waiting, app_ne hc, sel_ne hc, List.append_nil] at h2 ⊢
    exact h2

theorem inv_flushOut (lc : Libc β) (c : Nat) (l : List β) (v : View) (s : St β) (h : Inv lc c l v s) :
    Inv lc c l ⟨v.io, false, v.we⟩ (flushOut s) := by
  obtain ⟨h1, h2, h3, h4, h5⟩ := h
  refine ⟨h1, ?_, fun _ a => absurd rfl a, h4, fun _ _ => Or.inl rfl⟩
  simp only [flushOut, waiting, app_sel, sel_nil, List.nil_append, List.append_assoc] at h2 ⊢
  exact h2

theorem inv_flushErr (lc : Libc β) (c : Nat) (l : List β) (v : View) (s : St β) (h : Inv lc c l v s) :
    Inv lc c l ⟨v.io, v.wo, false⟩ (flushErr s) := by
  obtain ⟨h1, h2, h3, h4, h5⟩ := h
  refine ⟨h1, ?_, h3, fun _ a => absurd rfl a, fun _ _ => Or.inr rfl⟩
  simp only [flushErr, waiting, app_sel, sel_nil, List.append_nil, List.append_assoc] at h2 ⊢
  rw [← h2]
  congr 1
  by_cases hc : s.io.err = c
  · by_cases he : s.io.out = c
    · rcases h5 he hc with h | h <;> simp [h, sel_nil]
    · simp [sel_ne he]
  · simp [sel_ne hc]

/-- Only what the streams `_fOutput` and `_fError` designate matters. -/
theorem inv_io (lc : Libc β) (c : Nat) (l : List β) (v : View) (s : St β) (io : Io Nat) (h : Inv lc c l v s)
    (ho : io.out = s.io.out ∨ s.po = []) (he : io.err = s.io.err ∨ s.pe = []) : Inv lc c l ⟨io, v.wo, v.we⟩ { s with io := io } := by
  obtain ⟨h1, h2, h3, h4, h5⟩ := h
  have e1 : sel io.out c s.po = sel s.io.out c s.po := by
    rcases ho with h | h
    · rw [h]
    · rw [h, sel_nil, sel_nil]
  have e2 : sel io.err c s.pe = sel s.io.err c s.pe := by
    rcases he with h | h
    · rw [h]
    · rw [h, sel_nil, sel_nil]
  refine ⟨rfl, ?_, ?_, ?_, ?_⟩
  · simp only [waiting] at h2 ⊢
    rw [e1, e2]
    exact h2
  · intro a b
    rcases ho with h | h
    · exact h3 (h ▸ a) b
    · exact absurd h b
  · intro a b
    rcases he with h | h
    · exact h4 (h ▸ a) b
    · exact absurd h b
  · intro a b
    rcases ho with h | h
    · rcases he with h' | h'
      · exact h5 (h ▸ a) (h' ▸ b)
      · exact Or.inr h'
    · exact Or.inl h

/-- If the file is not busy, nothing waits. -/
theorem idle (lc : Libc β) (c : Nat) (l : List β) (v : View) (s : St β) (h : Inv lc c l v s) (hb : ¬ Busy lc.tty c v) :
    (s.io.out = c → s.po = []) ∧ (s.io.err = c → s.pe = []) := by
  constructor
  · intro a
    rcases List.eq_nil_or_concat s.po with b | ⟨_, _, b⟩
    · exact b
    · have := h.out a (by simp [b])
      exact absurd ⟨this.2, Or.inl ⟨h.io ▸ a, this.1⟩⟩ hb
  · intro a
    rcases List.eq_nil_or_concat s.pe with b | ⟨_, _, b⟩
    · exact b
    · have := h.err a (by simp [b])
      exact absurd ⟨this.2, Or.inr ⟨h.io ▸ a, this.1⟩⟩ hb

theorem idle_waiting (c : Nat) (s : St β) (h : (s.io.out = c → s.po = []) ∧ (s.io.err = c → s.pe = [])) : waiting c s = [] := by
  unfold waiting sel
  split <;> split <;> simp_all

/-- Writing to the disk when nothing waits. -/
theorem inv_disk (lc : Libc β) (c : Nat) (l : List β) (v : View) (s : St β) (d : Disk β) (h : Inv lc c l v s)
    (hd : d c ++ waiting c s = l') : Inv lc c l' v { s with disk := d } :=
  ⟨h.io, hd, h.out, h.err, h.one⟩

theorem inv_open (lc : Libc β) (c : Nat) (l : List β) (v : View) (s : St β) (f : Nat) (b : Bool) (h : Inv lc c l v s)
    (ht : b = true → f = c → ¬ Busy lc.tty c v) :
    Inv lc c (content c l (if b then [.trunc f] else [])) v { s with disk := if b then cut s.disk f else s.disk } := by
  cases b with
  | false => exact h
  | true =>
    refine inv_disk lc c l v s _ h ?_
    simp only [if_true, content, cut]
    by_cases hf : f = c
    · rw [idle_waiting c s (idle lc c l v s h (ht rfl hf)), if_pos hf, if_pos hf.symm, List.append_nil]
    · rw [if_neg hf, if_neg (fun a : c = f => hf a.symm)]
      exact h.text

theorem inv_step (lc : Libc β) (io0 : Io Nat) (c : Nat) (l : List β) (v : View) (s : St β) (o : Op β) (h : Inv lc c l v s)
    (ht : Tidy lc.tty c v o) : Inv lc c (content c l (events s.io o)) (view io0 v o) (step lc io0 s o) := by
  have hio := h.io
  cases o with
  | out t =>
    simp only [Tidy, outOf, Io.streams] at ht
    simp only [hio] at ht
    simp only [events, content_write, content, view, step, printOut, outOf, Io.streams, next, hio]
    cases hw : s.io.outOwn with
    | true =>
      simp only [hw, if_true] at ht ⊢
      rw [show (⟨s.io, true, v.we⟩ : View) = ⟨v.io, true, v.we⟩ by rw [hio]]
      refine inv_putOut lc c l v s t h (fun a b => ?_)
      rcases List.eq_nil_or_concat s.pe with e | ⟨_, _, e⟩
      · exact e
      · have := h.err b (by simp [e])
        rcases ht (a.trans b.symm) a with q | q <;> simp_all
    | false =>
      simp only [hw, Bool.false_eq_true, if_false] at ht ⊢
      rw [show (⟨s.io, v.wo, true⟩ : View) = ⟨v.io, v.wo, true⟩ by rw [hio]]
      refine inv_putErr lc c l v s t h (fun a b => ?_)
      rcases List.eq_nil_or_concat s.po with e | ⟨_, _, e⟩
      · exact e
      · have := h.out a (by simp [e])
        rcases ht (a.trans b.symm) b with q | q <;> simp_all
  | err t =>
    simp only [Tidy, errOf, Io.streams] at ht
    simp only [hio] at ht
    simp only [events, content_write, content, view, step, printErr, errOf, Io.streams, next, hio]
    cases hw : s.io.errOut with
    | true =>
      simp only [hw, if_true] at ht ⊢
      rw [show (⟨s.io, true, v.we⟩ : View) = ⟨v.io, true, v.we⟩ by rw [hio]]
      refine inv_putOut lc c l v s t h (fun a b => ?_)
      rcases List.eq_nil_or_concat s.pe with e | ⟨_, _, e⟩
      · exact e
      · have := h.err b (by simp [e])
        rcases ht (a.trans b.symm) a with q | q <;> simp_all
    | false =>
      simp only [hw, Bool.false_eq_true, if_false] at ht ⊢
      rw [show (⟨s.io, v.wo, true⟩ : View) = ⟨v.io, v.wo, true⟩ by rw [hio]]
      refine inv_putErr lc c l v s t h (fun a b => ?_)
      rcases List.eq_nil_or_concat s.po with e | ⟨_, _, e⟩
      · exact e
      · have := h.out a (by simp [e])
        rcases ht (a.trans b.symm) b with q | q <;> simp_all
  | openOut f b =>
    have h' := inv_flushOut lc c _ v _ (inv_open lc c l v s f b h ht)
    simp only [view, next, hio]
    exact inv_io lc c _ _ _ (s.io.openOutput f .out) h' (Or.inr rfl) (Or.inl rfl)
  | openErr f b =>
    have h' := inv_flushErr lc c _ v _ (inv_open lc c l v s f b h ht)
    simp only [view, next, hio]
    exact inv_io lc c _ _ _ (s.io.openOutput f .err) h' (Or.inl rfl) (Or.inr rfl)
  | errToOut =>
    simp only [view, next, hio]
    exact inv_io lc c _ _ _ _ h (Or.inl rfl) (Or.inl rfl)
  | outToErr =>
    simp only [view, next, hio]
    exact inv_io lc c _ _ _ _ h (Or.inl rfl) (Or.inl rfl)
  | pop =>
    simp only [events, content, view, next, hio, step, pop]
    rcases hs : s.io.stack with _ | ⟨⟨fd, old, sub, lock⟩, rest⟩
    · have : s.io.pop = s.io := by simp [Io.pop, hs]
      simp only [this]
      exact ⟨rfl, h.text, h.out, h.err, h.one⟩
    · cases lock with
      | true =>
        have : s.io.pop = s.io := by simp [Io.pop, hs]
        simp only [this, if_true]
        exact ⟨rfl, h.text, h.out, h.err, h.one⟩
      | false =>
        have hp : s.io.pop = s.io.unwind ⟨fd, old, sub, false⟩ rest := by simp [Io.pop, hs]
        simp only [hp, Bool.false_eq_true, if_false]
        cases fd with
        | inp =>
          simp only [flushFd, hp]
          exact inv_io lc c _ _ _ _ h (Or.inl (by cases old <;> rfl)) (Or.inl (by cases old <;> rfl))
        | none =>
          simp only [flushFd, hp]
          exact inv_io lc c _ _ _ _ h (Or.inl (by cases old <;> rfl)) (Or.inl (by cases old <;> rfl))
        | out =>
          have h' := inv_flushOut lc c _ v _ h
          simp only [flushFd, flushOut, hp]
          exact inv_io lc c _ _ _ _ h' (Or.inr rfl) (Or.inl (by cases old <;> rfl))
        | err =>
          have h' := inv_flushErr lc c _ v _ h
          simp only [flushFd, flushErr, hp]
          exact inv_io lc c _ _ _ _ h' (Or.inl (by cases old <;> rfl)) (Or.inr rfl)
  | run ws =>
    simp only [view, next, events, step]
    refine inv_disk lc c l v s _ h ?_
    rw [writes_content]
    by_cases hb : outOf s.io = c ∨ errOf s.io = c
    · have hw := idle_waiting c s (idle lc c l v s h (ht (hio ▸ hb)))
      have ht := h.text
      rw [hw, List.append_nil] at ht ⊢
      rw [ht]
    · have key : ∀ m : List β, content c m (ws.map (fun w => .write (if w.1 then errOf s.io else outOf s.io) w.2)) = m := by
        intro m
        clear ht
        induction ws with
        | nil => rfl
        | cons w ws ih =>
          rw [List.map_cons, content, if_neg, ih]
          split <;> intro a
          · exact hb (Or.inr a)
          · exact hb (Or.inl a)
      rw [key, key]
      exact h.text
  | fail => exact h
  | start =>
    simp only [view, next, events, step]
    refine inv_disk lc c l v s _ h ?_
    have hi := idle lc c l v s h ht
    have hw := h.text
    simp only [content, app]
    by_cases hc : s.io.out = c
    · rw [if_pos hc.symm, hi.1 hc, List.append_nil]; exact hw
    · rw [if_neg (fun a => hc a.symm)]; exact hw
  | noStart m =>
    simp only [view, next, events, step]
    refine inv_disk lc c l v s _ h ?_
    have hi := idle lc c l v s h ht.1
    have hw := h.text
    rw [idle_waiting c s hi, List.append_nil] at hw ⊢
    rw [content_write, content]
    simp only [app_sel, errOf, Io.streams, hw]
    have e1 : sel s.io.out c s.po = [] := by
      by_cases a : s.io.out = c
      · rw [hi.1 a, sel_nil]
      · exact sel_ne a _
    rw [e1, List.append_nil]
    by_cases he : s.io.errOut = true
    · have := ht.2 (hio ▸ he)
      rw [hio] at this
      simp only [he, if_true, List.append_nil]
      rw [sel_ne this]
      by_cases a : s.io.err = c
      · rw [hi.2 a, sel_nil]
      · rw [sel_ne a]
    · simp only [if_neg he]
      by_cases a : s.io.err = c
      · rw [hi.2 a, List.nil_append]
      · rw [sel_ne a, sel_ne a]
  | brk =>
    have hi := idle lc c l v s h ht
    have hw := h.text
    rw [idle_waiting c s hi, List.append_nil] at hw
    refine ⟨rfl, ?_, fun _ a => absurd rfl a, fun _ a => absurd rfl a, fun _ _ => Or.inl rfl⟩
    simp only [step, waiting, events, content, sel_nil, List.append_nil]
    exact hw

/-- What the streams designate does not depend on the buffers. -/
theorem step_io (lc : Libc β) (io0 : Io Nat) (s : St β) (o : Op β) : (step lc io0 s o).io = next io0 s.io o := by
  cases o with
  | out t => simp only [step, printOut, next]; split <;> rfl
  | err t => simp only [step, printErr, next]; split <;> rfl
  | pop =>
    simp only [step, pop, next]
    rcases hs : s.io.stack with _ | ⟨⟨fd, old, sub, lock⟩, rest⟩
    · simp [Io.pop, hs]
    · cases lock
      · cases fd <;> rfl
      · simp [Io.pop, hs]
  | _ => rfl

theorem inv_steps (lc : Libc β) (io0 : Io Nat) (c : Nat) (os : List (Op β)) (l : List β) (v : View) (s : St β) (h : Inv lc c l v s)
    (ht : All io0 (Tidy lc.tty c) v os) : ∃ v', Inv lc c (content c l (history io0 s.io os)) v' (steps lc io0 s os) := by
  induction os generalizing l v s with
  | nil => exact ⟨v, h⟩
  | cons o os ih =>
    have := ih _ _ _ (inv_step lc io0 c l v s o h ht.1) ht.2
    rw [step_io] at this
    simp only [history, steps, content_append]
    exact this

theorem inv_init (lc : Libc β) (c out err : Nat) (d : Disk β) : Inv lc c (d c) ⟨(init out err d).io, false, false⟩ (init out err d) := by
  refine ⟨rfl, ?_, fun _ a => absurd rfl a, fun _ a => absurd rfl a, fun _ _ => Or.inl rfl⟩
  simp [waiting, init, sel_nil]

theorem inv_finish (lc : Libc β) (c : Nat) (l : List β) (v : View) (s : St β) (e : Bool) (h : Inv lc c l v s) : (finish e s).disk c = l := by
  cases e with
  | true =>
    have := (inv_flushOut lc c l _ _ (inv_flushErr lc c l v s h)).text
    rwa [idle_waiting c _ ⟨fun _ => rfl, fun _ => rfl⟩, List.append_nil] at this
  | false =>
    have := (inv_flushErr lc c l _ _ (inv_flushOut lc c l v s h)).text
    rwa [idle_waiting c _ ⟨fun _ => rfl, fun _ => rfl⟩, List.append_nil] at this

end PBat.Buf
