import Verif.Spec.StdIn
/- Lemmas for C109. -/
namespace PBat.In
open PBat.Spec.In (Src line Calm AllCalm)

/-- The stream and the sources agree. -/
structure Rel (l : Lib) (s : St) (t : Src) : Prop where
  cur : t.cur = s.buf ++ s.cur.rest
  aside : t.aside = s.stack.map Desc.rest
  eof : l.sticky = true → s.eof = true → t.cur = []
  le : s.buf.length ≤ s.cur.pos
  seg : s.cur.data.drop (s.cur.pos - s.buf.length) = s.buf ++ s.cur.rest

theorem rest_add (d : Desc) (n : Nat) : d.data.drop (d.pos + n) = d.rest.drop n := by
  simp [Desc.rest, List.drop_drop]

theorem take_max_eq {d : List UInt8} {k : Nat} {b : UInt8} {r : List UInt8} (h : d.take (max 1 k) = b :: r) :
    d = b :: r ++ d.drop (r.length + 1) := by
  have h1 : (d.take (max 1 k)).length = r.length + 1 := by rw [h]; rfl
  have h2 : d.take (r.length + 1) = b :: r := by
    have : d.take (r.length + 1) = (d.take (max 1 k)).take (r.length + 1) := by
      rw [List.take_take]; congr 1
      rw [List.length_take] at h1; omega
    rw [this, h]; simp
  conv => lhs; rw [← List.take_append_drop (r.length + 1) d, h2]

theorem take_max_nil {d : List UInt8} {k : Nat} (h : d.take (max 1 k) = []) : d = [] := by
  rcases List.take_eq_nil_iff.1 h with h | h
  · omega
  · exact h

/-- One byte. -/
theorem rel_getc {l : Lib} {s : St} {t : Src} (h : Rel l s t) (k : Nat → Nat) :
    (getc l k s).1.toList = t.cur.take 1 ∧ Rel l (getc l k s).2 { t with cur := t.cur.drop 1 }
    ∧ ((getc l k s).1 = none → t.cur = []) ∧ (getc l k s).2.cur.seek = s.cur.seek ∧ (getc l k s).2.stack = s.stack := by
  obtain ⟨h1, h2, h3, h4, h5⟩ := h
  unfold getc
  split
  · next b r hb =>
    rw [hb] at h1 h5 h4
    refine ⟨by simp [h1], ⟨by simp [h1], h2, ?_, ?_, ?_⟩, by simp, rfl, rfl⟩
    · intro a c
      have := h3 a c
      rw [h1] at this; cases this
    · simp at h4 ⊢; omega
    · dsimp only
      simp only [List.length_cons] at h5 h4
      have h6 : s.cur.pos - r.length = (s.cur.pos - (r.length + 1)) + 1 := by omega
      rw [h6, ← List.drop_drop, h5]; rfl
  · next hb =>
    rw [hb] at h1 h5 h4
    split
    · next hk =>
      rw [Bool.and_eq_true] at hk
      have := h3 hk.1 hk.2
      refine ⟨by simp [this], ⟨?_, h2, fun _ _ => by simp [this], by simp [hb], by simp [hb]; rfl⟩, fun _ => this, rfl, rfl⟩
      simp only [this] at h1 ⊢
      simp [← h1, hb]
    · split
      · next hr =>
        have hn := take_max_nil hr
        have hc : t.cur = [] := by rw [h1, hn]; rfl
        refine ⟨by simp [hc], ⟨?_, h2, fun _ _ => by simp [hc], by simp [hb], by simp [hb]; rfl⟩, fun _ => hc, rfl, rfl⟩
        simp [hc, hb, hn]
      · next b r hr =>
        have hd := take_max_eq hr
        have hc : t.cur = b :: (r ++ s.cur.rest.drop (r.length + 1)) := by
          rw [h1]; simpa using hd
        have hrest : ({ s.cur with pos := s.cur.pos + (r.length + 1) } : Desc).rest = s.cur.rest.drop (r.length + 1) := by
          simp only [Desc.rest, List.drop_drop]
        refine ⟨by simp [hc], ⟨?_, h2, ?_, ?_, ?_⟩, by simp, rfl, rfl⟩
        · rw [hrest, hc]; rfl
        · intro a c
          have := h3 a c
          rw [hc] at this; cases this
        · dsimp only; omega
        · dsimp only
          rw [hrest]
          have h6 : s.cur.pos + (r.length + 1) - r.length = s.cur.pos + 1 := by omega
          rw [h6, ← List.drop_drop]
          show (s.cur.rest).drop 1 = _
          conv => lhs; rw [hd]
          simp

/-- The bytes up to the first that stops, and that one. -/
def upTo (p : UInt8 → Bool) : List UInt8 → List UInt8
  | [] => []
  | b :: r => if p b then [b] else b :: upTo p r

theorem rel_getMany {l : Lib} (k : Nat → Nat) (p : UInt8 → Bool) : ∀ (n : Nat) (s : St) (t : Src), Rel l s t → t.cur.length < n →
    (getMany l k p n s).1 = upTo p t.cur
    ∧ Rel l (getMany l k p n s).2 { t with cur := t.cur.drop (upTo p t.cur).length }
    ∧ (getMany l k p n s).2.cur.seek = s.cur.seek ∧ (getMany l k p n s).2.stack = s.stack := by
  intro n
  induction n with
  | zero => intro s t _ h; omega
  | succ n ih =>
    intro s t h hn
    obtain ⟨h1, h2, h3, h4, h5⟩ := rel_getc h k
    unfold getMany
    split
    · next s' hg =>
      rw [hg] at h1 h2 h3 h4 h5
      have hc := h3 rfl
      dsimp only at h2 h4 h5 ⊢
      rw [hc] at h2 ⊢
      exact ⟨rfl, h2, h4, h5⟩
    · next b s' hg =>
      rw [hg] at h1 h2 h4 h5
      dsimp only [Option.toList] at h1 h2 h4 h5
      obtain ⟨r, hc⟩ : ∃ r, t.cur = b :: r := by
        cases hh : t.cur with
        | nil => rw [hh] at h1; simp at h1
        | cons x r => rw [hh] at h1; simp at h1; exact ⟨r, by rw [h1]⟩
      rw [hc] at h2 hn ⊢
      by_cases hp : p b
      · simp only [hp, if_true, upTo]
        exact ⟨trivial, h2, h4, h5⟩
      · simp only [hp, upTo]
        have := ih s' { t with cur := r } h2 (by simp at hn ⊢; omega)
        obtain ⟨g1, g2, g3, g4⟩ := this
        refine ⟨?_, ?_, ?_, ?_⟩
        · simp [g1]
        · simpa using g2
        · rw [← h4]; exact g3
        · rw [← h5]; exact g4

theorem upTo_line (t : List UInt8) : upTo (· == 10) t = line t := by
  induction t with
  | nil => rfl
  | cons b r ih =>
    unfold upTo line
    by_cases hb : b = 10
    · subst hb; rfl
    · have h1 : (b == 10) = false := by simpa using hb
      have h2 : (b != 10) = true := by simpa using hb
      simp only [h1, List.takeWhile_cons, List.dropWhile_cons, h2]
      rw [ih]; rfl

theorem upTo_all (t : List UInt8) : upTo (fun _ => false) t = t := by
  induction t with
  | nil => rfl
  | cons b r ih => simp [upTo, ih]

theorem fuel_lt {l : Lib} {s : St} {t : Src} (h : Rel l s t) : t.cur.length < fuel s := by
  rw [h.cur, fuel, List.length_append]; omega

/-- `leave` with nothing read ahead does nothing. -/
theorem leave_nil {l : Lib} {s : St} (h : s.buf = []) : leave l s = s := by
  have h1 : seekBack s.buf.length s.cur = s.cur := by
    rw [h]; simp only [seekBack, List.length_nil]; split <;> simp
  rw [leave, h1]
  unfold flush
  obtain ⟨c, b, e, st⟩ := s
  obtain ⟨d, p, k⟩ := c
  dsimp only at h
  subst h
  cases l.sync
  · rfl
  · rfl
  · dsimp only; split <;> rfl

/-- The state after `leave`, when the redirection is calm. -/
theorem leave_calm {l : Lib} {s : St} {t : Src} (h : Rel l s t)
    (hc : s.buf = [] ∨ (l.sync = .drop ∧ s.cur.seek = true)) :
    (leave l s).buf = [] ∧ (leave l s).cur.rest = t.cur ∧ (leave l s).stack = s.stack ∧ (leave l s).eof = s.eof := by
  obtain ⟨h1, h2, h3, h4, h5⟩ := h
  rcases hc with hb | ⟨hl, hs⟩
  · rw [leave_nil hb]
    exact ⟨hb, by rw [h1, hb]; rfl, rfl, rfl⟩
  · unfold leave flush
    rw [hl]
    refine ⟨rfl, ?_, rfl, rfl⟩
    dsimp only
    rw [seekBack, hs]
    simp only [Bool.true_and, h4, decide_true, if_true, Desc.rest]
    rw [h5, h1]

theorem rel_step {l : Lib} {s : St} {t : Src} (h : Rel l s t) (o : Op) (hc : Calm l s o) :
    (step l s o).1 = (PBat.Spec.In.step t o).1 ∧ Rel l (step l s o).2 (PBat.Spec.In.step t o).2 := by
  cases o with
  | getc k =>
    have := rel_getc h k
    exact ⟨this.1, this.2.1⟩
  | gets k =>
    have := rel_getMany k (· == 10) (fuel s) s t h (fuel_lt h)
    rw [upTo_line] at this
    exact ⟨this.1, this.2.1⟩
  | all k =>
    have := rel_getMany k (fun _ => false) (fuel s) s t h (fuel_lt h)
    rw [upTo_all, List.drop_length] at this
    exact ⟨this.1, this.2.1⟩
  | direct n =>
    have hb : s.buf = [] := hc
    obtain ⟨h1, h2, h3, h4, h5⟩ := h
    have h6 : t.cur = s.cur.rest := by rw [h1, hb]; rfl
    have h7 : ∀ d : Desc, ({ d with pos := d.pos + (d.rest.take n).length } : Desc).rest = d.rest.drop n := by
      intro d
      show d.data.drop _ = _
      rw [rest_add, List.length_take]
      rcases Nat.le_total n d.rest.length with h | h
      · rw [Nat.min_eq_left h]
      · rw [Nat.min_eq_right h, List.drop_eq_nil_of_le h, List.drop_eq_nil_of_le (Nat.le_refl _)]
    refine ⟨by rw [PBat.Spec.In.step, h6]; rfl, ⟨?_, h2, ?_, ?_, ?_⟩⟩
    · show t.cur.drop n = s.buf ++ _
      rw [hb, h6]; exact (h7 s.cur).symm
    · intro a c
      show t.cur.drop n = []
      rw [h3 a c]; simp
    · show s.buf.length ≤ _
      rw [hb]; simp
    · show List.drop (_ - s.buf.length) _ = s.buf ++ _
      rw [hb]; rfl
  | openIn d =>
    obtain ⟨g1, g2, g3, g4⟩ := leave_calm h hc.2
    refine ⟨rfl, ⟨?_, ?_, ?_, ?_, ?_⟩⟩
    · show d.rest = (leave l s).buf ++ d.rest
      rw [g1]; rfl
    · show t.cur :: t.aside = ((leave l s).cur :: (leave l s).stack).map Desc.rest
      rw [List.map_cons, g2, g3, h.aside]
    · intro a b
      have b : (leave l s).eof = true := b
      rw [g4, hc.1 a] at b; cases b
    · show (leave l s).buf.length ≤ _
      rw [g1]; simp
    · show d.data.drop (d.pos - (leave l s).buf.length) = (leave l s).buf ++ d.rest
      rw [g1]; rfl
  | pop =>
    obtain ⟨g1, g2, g3, g4⟩ := leave_calm h hc.2
    cases hs : s.stack with
    | nil =>
      have hp : pop l s = s := by unfold pop; simp only [g3, hs]
      have ha : t.aside = [] := by rw [h.aside, hs]; rfl
      refine ⟨rfl, ?_⟩
      show Rel l (pop l s) (match t.aside with | [] => t | c :: r => _)
      rw [hp, ha]; exact h
    | cons d r =>
      have hp : pop l s = { leave l s with cur := d, stack := r } := by unfold pop; simp only [g3, hs]
      have ha : t.aside = d.rest :: r.map Desc.rest := by rw [h.aside, hs]; rfl
      refine ⟨rfl, ?_⟩
      show Rel l (pop l s) (match t.aside with | [] => t | c :: r => _)
      rw [hp, ha]
      refine ⟨?_, rfl, ?_, ?_, ?_⟩
      · show d.rest = (leave l s).buf ++ d.rest
        rw [g1]; rfl
      · intro a b
        have b : (leave l s).eof = true := b
        rw [g4, hc.1 a] at b; cases b
      · show (leave l s).buf.length ≤ _
        rw [g1]; simp
      · show d.data.drop (d.pos - (leave l s).buf.length) = (leave l s).buf ++ d.rest
        rw [g1]; rfl

theorem rel_run {l : Lib} : ∀ (ops : List Op) (s : St) (t : Src), Rel l s t → AllCalm l s ops →
    (run l s ops).1 = PBat.Spec.In.run t ops := by
  intro ops
  induction ops with
  | nil => intros; rfl
  | cons o os ih =>
    intro s t h hc
    obtain ⟨h1, h2⟩ := rel_step h o hc.1
    show _ :: _ = _ :: _
    rw [h1, ih _ _ h2 hc.2]

theorem rel_fresh {l : Lib} {s : St} (h : PBat.Spec.In.Fresh s) : Rel l s (PBat.Spec.In.sources s) := by
  obtain ⟨h1, h2⟩ := h
  refine ⟨?_, rfl, ?_, ?_, ?_⟩
  · rw [h1]; rfl
  · intro _ h; rw [h2] at h; cases h
  · rw [h1]; simp
  · rw [h1]; rfl

/-- All sources are files. -/
def Seekable (s : St) : Prop := s.cur.seek = true ∧ ∀ d ∈ s.stack, d.seek = true

theorem seekBack_seek (n : Nat) (d : Desc) : (seekBack n d).seek = d.seek := by
  unfold seekBack; split <;> rfl

theorem leave_drop {l : Lib} (hl : l.sync = .drop) (s : St) :
    leave l s = { s with cur := seekBack s.buf.length s.cur, buf := [] } := by
  unfold leave flush; rw [hl]

theorem getc_keeps (l : Lib) (k : Nat → Nat) (s : St) : (getc l k s).2.cur.seek = s.cur.seek ∧ (getc l k s).2.stack = s.stack := by
  unfold getc
  split
  · exact ⟨rfl, rfl⟩
  · split
    · exact ⟨rfl, rfl⟩
    · split <;> exact ⟨rfl, rfl⟩

theorem getMany_keeps (l : Lib) (k : Nat → Nat) (p : UInt8 → Bool) : ∀ (n : Nat) (s : St),
    (getMany l k p n s).2.cur.seek = s.cur.seek ∧ (getMany l k p n s).2.stack = s.stack := by
  intro n
  induction n with
  | zero => intro s; exact ⟨rfl, rfl⟩
  | succ n ih =>
    intro s
    have hk := getc_keeps l k s
    unfold getMany
    split
    · next s' hg => rw [hg] at hk; exact hk
    · next b s' hg =>
      rw [hg] at hk
      split
      · exact hk
      · exact ⟨(ih s').1.trans hk.1, (ih s').2.trans hk.2⟩

theorem seekable_step {l : Lib} (hl : l.sync = .drop) {s : St} (h : Seekable s) {o : Op} (ho : PBat.Spec.In.Plain o) :
    Seekable (step l s o).2 := by
  cases o with
  | getc k =>
    have := getc_keeps l k s
    exact ⟨this.1.trans h.1, fun d hd => h.2 d (this.2 ▸ hd)⟩
  | gets k =>
    have := getMany_keeps l k (· == 10) (fuel s) s
    exact ⟨this.1.trans h.1, fun d hd => h.2 d (this.2 ▸ hd)⟩
  | all k =>
    have := getMany_keeps l k (fun _ => false) (fuel s) s
    exact ⟨this.1.trans h.1, fun d hd => h.2 d (this.2 ▸ hd)⟩
  | direct n => exact ho.elim
  | openIn d =>
    show Seekable (openIn l d s)
    unfold openIn
    rw [leave_drop hl]
    refine ⟨ho, ?_⟩
    intro e he
    rcases List.mem_cons.1 he with rfl | he
    · exact (seekBack_seek _ _).trans h.1
    · exact h.2 e he
  | pop =>
    show Seekable (pop l s)
    unfold pop
    rw [leave_drop hl]
    dsimp only
    split
    · exact h
    · next d r hs =>
      exact ⟨h.2 d (by rw [hs]; simp), fun e he => h.2 e (by rw [hs]; simp [he])⟩

theorem calm_plain {l : Lib} (hl : l.sync = .drop) (hs : l.sticky = false) : ∀ (ops : List Op) (s : St), Seekable s →
    (∀ o ∈ ops, PBat.Spec.In.Plain o) → AllCalm l s ops := by
  intro ops
  induction ops with
  | nil => intros; trivial
  | cons o os ih =>
    intro s h ho
    have h1 := ho o (by simp)
    refine ⟨?_, ih _ (seekable_step hl h h1) fun o' h' => ho o' (by simp [h'])⟩
    cases o with
    | direct n => exact h1.elim
    | openIn d => exact ⟨by rw [hs]; simp, .inr ⟨hl, h.1⟩⟩
    | pop => exact ⟨by rw [hs]; simp, .inr ⟨hl, h.1⟩⟩
    | _ => trivial

/-- At the end for good. -/
theorem getc_end {l : Lib} (hl : l.sticky = true) {s : St} (hb : s.buf = []) (he : s.eof = true) (k : Nat → Nat) :
    getc l k s = (none, s) := by
  unfold getc
  split
  · next h => rw [hb] at h; cases h
  · rw [hl, he]; rfl

theorem getMany_end {l : Lib} (hl : l.sticky = true) {s : St} (hb : s.buf = []) (he : s.eof = true) (k : Nat → Nat)
    (p : UInt8 → Bool) (n : Nat) : getMany l k p n s = ([], s) := by
  cases n with
  | zero => rfl
  | succ n => rw [getMany, getc_end hl hb he]

/-- Reading everything leaves the stream at its end, with nothing read ahead. -/
theorem getMany_all {l : Lib} (k : Nat → Nat) : ∀ (n : Nat) (s : St), s.eof = false → s.buf.length + s.cur.rest.length < n →
    (getMany l k (fun _ => false) n s).1 = s.buf ++ s.cur.rest
    ∧ (getMany l k (fun _ => false) n s).2.buf = [] ∧ (getMany l k (fun _ => false) n s).2.eof = true
    ∧ (getMany l k (fun _ => false) n s).2.cur.rest = []
    ∧ (getMany l k (fun _ => false) n s).2.stack = s.stack := by
  intro n
  induction n with
  | zero => intro s _ h; omega
  | succ n ih =>
    intro s he hn
    unfold getMany getc
    split
    · next s' hg =>
      split at hg
      · cases hg
      · next hb =>
        have hf : (l.sticky && s.eof) = false := by rw [he, Bool.and_false]
        simp only [hf, Bool.false_eq_true, if_false] at hg
        split at hg
        · next hr =>
          simp only [Prod.mk.injEq, true_and] at hg
          subst hg
          have := take_max_nil hr
          refine ⟨by rw [hb, this]; rfl, hb, rfl, this, rfl⟩
        · simp at hg
    · next b s' hg =>
      simp only [Bool.false_eq_true, if_false]
      split at hg
      · next b' r hb =>
        simp only [Prod.mk.injEq, Option.some.injEq] at hg
        obtain ⟨rfl, rfl⟩ := hg
        have := ih { s with buf := r } he (by rw [hb] at hn; simp at hn ⊢; omega)
        obtain ⟨g1, g2, g3, g4, g5⟩ := this
        exact ⟨by rw [g1, hb]; rfl, g2, g3, g4, g5⟩
      · next hb =>
        have hf : (l.sticky && s.eof) = false := by rw [he, Bool.and_false]
        simp only [hf, Bool.false_eq_true, if_false] at hg
        split at hg
        · simp at hg
        · next b' r hr =>
          simp only [Prod.mk.injEq, Option.some.injEq] at hg
          obtain ⟨rfl, rfl⟩ := hg
          have hd := take_max_eq hr
          have hrest : ({ s.cur with pos := s.cur.pos + (r.length + 1) } : Desc).rest = s.cur.rest.drop (r.length + 1) := by
            simp only [Desc.rest, List.drop_drop]
          have hlen : s.cur.rest.length = r.length + 1 + (s.cur.rest.drop (r.length + 1)).length := by
            conv => lhs; rw [hd]
            simp; omega
          have := ih { s with buf := r, cur := { s.cur with pos := s.cur.pos + (r.length + 1) } } he
            (by rw [hb] at hn; dsimp only; rw [hrest]; rw [List.length_nil] at hn; omega)
          obtain ⟨g1, g2, g3, g4, g5⟩ := this
          refine ⟨?_, g2, g3, g4, g5⟩
          rw [g1, hb]
          dsimp only
          rw [hrest]
          conv => rhs; rw [hd]
          rfl

theorem all_spec {l : Lib} (k : Nat → Nat) (s : St) (he : s.eof = false) :
    (all l k s).1 = s.buf ++ s.cur.rest ∧ (all l k s).2.buf = [] ∧ (all l k s).2.eof = true
    ∧ (all l k s).2.cur.rest = [] ∧ (all l k s).2.stack = s.stack :=
  getMany_all k (fuel s) s he (by unfold fuel; omega)

end PBat.In
