import Verif.Lemmas.Flow
/- Lemmas for C110: the commands. -/
namespace PBat.Flow
open PBat.Spec.Flow (text texts cut lines output result upto Takes TakesM Apart)

/-! ### What the commands write -/

theorem ends_puts {r : List Micro} {inp o c} (h : Ends next r inp o c) : ∀ t : List UInt8, ∃ c', Ends next (t.map .put ++ r) inp (t ++ o) c' := by
  intro t
  induction t with
  | nil => exact ⟨c, h⟩
  | cons b t ih =>
    obtain ⟨c', h'⟩ := ih
    exact ⟨c' + 1, .put rfl h'⟩

theorem ends_simple {r : List Micro} {inp o c} (h : Ends next r inp o c) (s : Simple) : ∃ c', Ends next (s.micro ++ r) inp (text s ++ o) c' := by
  have aux : ∀ (m : Mx) (t : List UInt8), ∃ c', Ends next (.lock m :: (t.map .put ++ [.unlock m]) ++ r) inp (t ++ o) c' := by
    intro m t
    have h1 : Ends next (.unlock m :: r) inp o (c + 1) := .unlock rfl h
    obtain ⟨c', h'⟩ := ends_puts h1 t
    refine ⟨c' + 1, .lock rfl (s' := (t.map .put ++ [.unlock m]) ++ r) ?_⟩
    rw [List.append_assoc]; exact h'
  cases s with
  | print t => exact ends_puts h t
  | echo t => exact aux .echo t
  | setA t => exact aux .set t

theorem ends_micros {r : List Micro} {inp o c} (h : Ends next r inp o c) : ∀ l : List Simple, ∃ c', Ends next (micros l ++ r) inp (texts l ++ o) c' := by
  intro l
  induction l with
  | nil => exact ⟨c, h⟩
  | cons s l ih =>
    obtain ⟨c', h'⟩ := ih
    obtain ⟨c'', h''⟩ := ends_simple h' s
    refine ⟨c'', ?_⟩
    have e1 : micros (s :: l) ++ r = s.micro ++ (micros l ++ r) := by simp [micros]
    have e2 : texts (s :: l) ++ o = text s ++ (texts l ++ o) := by simp [texts]
    rw [e1, e2]; exact h''

/-- The lines, when `acc` was read of the first one. -/
def linesFrom (acc : List UInt8) (inp : List UInt8) : List (List UInt8) :=
  match lines inp with
  | [] => if acc = [] then [] else [acc]
  | l :: ls => (acc ++ l) :: ls

theorem linesFrom_nil (inp : List UInt8) : linesFrom [] inp = lines inp := by
  unfold linesFrom; split <;> simp_all

theorem linesFrom_nl (acc : List UInt8) (r : List UInt8) : linesFrom acc (10 :: r) = (acc ++ [10]) :: lines r := by
  simp [linesFrom, lines]

theorem linesFrom_cons (acc : List UInt8) {b : UInt8} (hb : b ≠ 10) (r : List UInt8) : linesFrom acc (b :: r) = linesFrom (acc ++ [b]) r := by
  simp only [linesFrom, lines, hb, if_false]
  cases lines r <;> simp

theorem ends_each (f : List UInt8 → List Simple) {r : List Micro} {o c} (h : Ends next r [] o c) : ∀ (inp acc : List UInt8),
    ∃ c', Ends next (.each acc f :: r) inp (((linesFrom acc inp).map fun l => texts (f l)).flatten ++ o) c' := by
  intro inp
  induction inp with
  | nil =>
    intro acc
    by_cases ha : acc = []
    · subst ha
      exact ⟨c + 1, .eof rfl (by simpa [linesFrom, lines] using h)⟩
    · obtain ⟨c', h'⟩ := ends_micros h (f acc)
      exact ⟨c' + 1, .eof rfl (by simpa [linesFrom, lines, ha] using h')⟩
  | cons b t ih =>
    intro acc
    by_cases hb : b = 10
    · subst hb
      obtain ⟨c1, h1⟩ := ih []
      obtain ⟨c2, h2⟩ := ends_micros h1 (f (acc ++ [10]))
      refine ⟨c2 + 1, .get rfl ?_⟩
      rw [linesFrom_nl]
      rw [linesFrom_nil] at h2
      simpa using h2
    · obtain ⟨c1, h1⟩ := ih (acc ++ [b])
      refine ⟨c1 + 1, .get rfl ?_⟩
      rw [linesFrom_cons acc hb]
      simpa [hb] using h1

theorem ends_line (f : List UInt8 → List Simple) {r : List Micro} {o : List UInt8 → List UInt8} (h : ∀ inp, ∃ c, Ends next r inp (o inp) c) :
    ∀ (inp acc : List UInt8), ∃ c', Ends next (.line acc f :: r) inp (texts (f (acc ++ (cut inp).1)) ++ o (cut inp).2) c' := by
  intro inp
  induction inp with
  | nil =>
    intro acc
    obtain ⟨c, hc⟩ := h []
    obtain ⟨c', h'⟩ := ends_micros hc (f acc)
    exact ⟨c' + 1, .eof rfl (by simpa [cut] using h')⟩
  | cons b t ih =>
    intro acc
    by_cases hb : b = 10
    · subst hb
      obtain ⟨c, hc⟩ := h t
      obtain ⟨c', h'⟩ := ends_micros hc (f (acc ++ [10]))
      exact ⟨c' + 1, .get rfl (by simpa [cut] using h')⟩
    · obtain ⟨c1, h1⟩ := ih (acc ++ [b])
      exact ⟨c1 + 1, .get rfl (by simpa [hb, cut] using h1)⟩

/-- The commands of a member write what they should. -/
theorem ends_prog : ∀ (l : List Cmd) (inp : List UInt8), ∃ c, Ends next (prog l) inp (output l inp) c := by
  intro l
  induction l with
  | nil => intro inp; exact ⟨0, .done rfl⟩
  | cons cm l ih =>
    intro inp
    cases cm with
    | simple s =>
      obtain ⟨c, h⟩ := ih inp
      obtain ⟨c', h'⟩ := ends_simple h s
      refine ⟨c', ?_⟩
      have e : prog (.simple s :: l) = s.micro ++ prog l := by simp [prog, Cmd.micro]
      rw [e]; exact h'
    | each f =>
      obtain ⟨c, h⟩ := ih []
      obtain ⟨c', h'⟩ := ends_each f h inp []
      refine ⟨c', ?_⟩
      rw [linesFrom_nil] at h'
      have e : prog (.each f :: l) = .each [] f :: prog l := by simp [prog, Cmd.micro]
      rw [e]; exact h'
    | line f =>
      obtain ⟨c', h'⟩ := ends_line f ih inp []
      refine ⟨c', ?_⟩
      have e : prog (.line f :: l) = .line [] f :: prog l := by simp [prog, Cmd.micro]
      rw [e]; exact h'

theorem result_append : ∀ (a : List (List Cmd)) (m : List Cmd) (inp : List UInt8), result (a ++ [m]) inp = output m (result a inp) := by
  intro a
  induction a with
  | nil => intros; rfl
  | cons x a ih => intro m inp; exact ih m (output x inp)

/-- What the members have to write at the start. -/
def todo (ms : List (List Cmd)) (inp : List UInt8) : Nat → List UInt8
  | 0 => []
  | i + 1 => upto ms inp i

theorem inv_start (ms : List (List Cmd)) (inp : List UInt8) (hn : 0 < ms.length) :
    ∃ c, Inv next ms.length (start ms inp) (result ms inp) (todo ms inp) c := by
  have h : ∀ i, ∃ c, i < ms.length → Ends next ((start ms inp).prog i) ((start ms inp).pipe i ++ todo ms inp i) (todo ms inp (i + 1)) c := by
    intro i
    by_cases hi : i < ms.length
    · have hg : ms.getD i [] = ms[i] := by simp [List.getD, hi]
      have ht : ms.take (i + 1) = ms.take i ++ [ms[i]] := (List.take_append_getElem hi).symm
      have hin : (start ms inp).pipe i ++ todo ms inp i = result (ms.take i) inp := by
        cases i with
        | zero => simp [start, todo, result]
        | succ i => simp [start, todo, upto]
      obtain ⟨c, hc⟩ := ends_prog ms[i] (result (ms.take i) inp)
      refine ⟨c, fun _ => ?_⟩
      rw [hin]
      show Ends next (prog (ms.getD i [])) _ (result (ms.take (i + 1)) inp) c
      rw [hg, ht, result_append]; exact hc
    · exact ⟨0, fun h => absurd h hi⟩
  refine ⟨fun i => Classical.choose (h i), rfl, fun i hi => Classical.choose_spec (h i) hi, ?_⟩
  show (if ms.length = 0 then inp else []) ++ _ = _
  rw [if_neg (by omega)]
  obtain ⟨k, hk⟩ : ∃ k, ms.length = k + 1 := ⟨ms.length - 1, by omega⟩
  rw [hk]
  show result (ms.take (k + 1)) inp = _
  rw [← hk, List.take_length]

/-! ### The locks they take -/

/-- The lock held. -/
def heldBy : List Micro → Option Mx
  | .put _ :: r => heldBy r
  | .unlock m :: _ => some m
  | _ => none

/-- Locks are given back before anything else. -/
def wf : Option Mx → List Micro → Prop
  | h, [] => h = none
  | h, .put _ :: r => wf h r
  | h, .lock m :: r => h = none ∧ wf (some m) r
  | h, .unlock m :: r => h = some m ∧ wf none r
  | h, .each _ _ :: r => h = none ∧ wf none r
  | h, .line _ _ :: r => h = none ∧ wf none r

theorem wf_held : ∀ (st : List Micro) (h : Option Mx), wf h st → heldBy st = h := by
  intro st
  induction st with
  | nil => intro h hw; exact hw.symm
  | cons x st ih =>
    intro h hw
    cases x with
    | put b => exact ih h hw
    | unlock m => exact hw.1.symm
    | lock m => exact hw.1.symm
    | each a f => exact hw.1.symm
    | line a f => exact hw.1.symm

theorem wf_puts {h : Option Mx} {r : List Micro} (hw : wf h r) : ∀ t : List UInt8, wf h (t.map .put ++ r) := by
  intro t
  induction t with
  | nil => exact hw
  | cons b t ih => exact ih

theorem wf_simple {r : List Micro} (hw : wf none r) (s : Simple) : wf none (s.micro ++ r) := by
  have aux : ∀ m (t : List UInt8), wf none (.lock m :: (t.map .put ++ [.unlock m]) ++ r) := by
    intro m t
    refine ⟨rfl, ?_⟩
    show wf (some m) ((t.map .put ++ [.unlock m]) ++ r)
    rw [List.append_assoc]
    have h1 : wf (some m) (.unlock m :: r) := ⟨rfl, hw⟩
    exact wf_puts h1 t
  cases s with
  | print t => exact wf_puts hw t
  | echo t => exact aux .echo t
  | setA t => exact aux .set t

theorem wf_micros {r : List Micro} (hw : wf none r) : ∀ l : List Simple, wf none (micros l ++ r) := by
  intro l
  induction l with
  | nil => exact hw
  | cons s l ih =>
    have e1 : micros (s :: l) ++ r = s.micro ++ (micros l ++ r) := by simp [micros]
    rw [e1]; exact wf_simple ih s

theorem wf_prog : ∀ l : List Cmd, wf none (prog l) := by
  intro l
  induction l with
  | nil => rfl
  | cons c l ih =>
    have e : prog (c :: l) = c.micro ++ prog l := by simp [prog]
    rw [e]
    cases c with
    | simple s => exact wf_simple ih s
    | each f => exact ⟨rfl, ih⟩
    | line f => exact ⟨rfl, ih⟩

/-- What a command that reads does next. -/
theorem get_cases {t : List Micro} {k} (h : next t = .get k) :
    (∃ a f r, t = .each a f :: r ∧ ∀ x, k x = r ∨ (∃ l, k x = micros (f l) ++ r) ∨ (∃ l, k x = micros (f l) ++ .each [] f :: r) ∨ ∃ a', k x = .each a' f :: r)
    ∨ (∃ a f r, t = .line a f :: r ∧ ∀ x, (∃ l, k x = micros (f l) ++ r) ∨ ∃ a', k x = .line a' f :: r) := by
  cases t with
  | nil => cases h
  | cons x r =>
    cases x with
    | put b => cases h
    | lock m => cases h
    | unlock m => cases h
    | each a f =>
      left
      refine ⟨a, f, r, rfl, ?_⟩
      simp only [next, Act.get.injEq] at h
      subst h
      intro x
      cases x with
      | none => 
        dsimp only
        split
        · exact .inl rfl
        · exact .inr (.inl ⟨_, rfl⟩)
      | some b => 
        dsimp only
        split
        · exact .inr (.inr (.inl ⟨_, rfl⟩))
        · exact .inr (.inr (.inr ⟨_, rfl⟩))
    | line a f =>
      right
      refine ⟨a, f, r, rfl, ?_⟩
      simp only [next, Act.get.injEq] at h
      subst h
      intro x
      cases x with
      | none => exact .inl ⟨_, rfl⟩
      | some b => 
        dsimp only
        split
        · exact .inl ⟨_, rfl⟩
        · exact .inr ⟨_, rfl⟩

theorem wf_get {t : List Micro} {k} (h : next t = .get k) {o : Option Mx} (hw : wf o t) : o = none ∧ ∀ x, wf none (k x) := by
  rcases get_cases h with ⟨a, f, r, rfl, hk⟩ | ⟨a, f, r, rfl, hk⟩
  · refine ⟨hw.1, fun x => ?_⟩
    rcases hk x with e | ⟨l, e⟩ | ⟨l, e⟩ | ⟨a', e⟩ <;> rw [e]
    · exact hw.2
    · exact wf_micros hw.2 _
    · exact wf_micros (r := .each [] f :: r) ⟨rfl, hw.2⟩ _
    · exact ⟨rfl, hw.2⟩
  · refine ⟨hw.1, fun x => ?_⟩
    rcases hk x with ⟨l, e⟩ | ⟨a', e⟩ <;> rw [e]
    · exact wf_micros hw.2 _
    · exact ⟨rfl, hw.2⟩

theorem put_cases {t : List Micro} {b t'} (h : next t = .put b t') : t = .put b :: t' := by
  cases t with
  | nil => cases h
  | cons x r => cases x <;> simp_all [next]
theorem lock_cases {t : List Micro} {m t'} (h : next t = .lock m t') : t = .lock m :: t' := by
  cases t with
  | nil => cases h
  | cons x r => cases x <;> simp_all [next]
theorem unlock_cases {t : List Micro} {m t'} (h : next t = .unlock m t') : t = .unlock m :: t' := by
  cases t with
  | nil => cases h
  | cons x r => cases x <;> simp_all [next]
theorem done_cases {t : List Micro} (h : next t = .done) : t = [] := by
  cases t with
  | nil => rfl
  | cons x r => cases x <;> simp_all [next]

theorem wf_later {s t : List Micro} (h : Later next s t) : wf none s → ∃ o, wf o t := by
  intro hs
  induction h with
  | refl => exact ⟨_, hs⟩
  | put _ e ih => obtain ⟨o, ho⟩ := ih; rw [put_cases e] at ho; exact ⟨o, ho⟩
  | get x _ e ih => obtain ⟨o, ho⟩ := ih; exact ⟨none, (wf_get e ho).2 x⟩
  | lock _ e ih => obtain ⟨o, ho⟩ := ih; rw [lock_cases e] at ho; exact ⟨_, ho.2⟩
  | unlock _ e ih => obtain ⟨o, ho⟩ := ih; rw [unlock_cases e] at ho; exact ⟨_, ho.2⟩

theorem disc_prog (l : List Cmd) : Disc next heldBy (prog l) := by
  have hw := wf_prog l
  refine ⟨?_, ?_, ?_, ?_, ?_⟩
  · intro t _ e; rw [done_cases e]; rfl
  · intro t b t' _ e; rw [put_cases e]; rfl
  · intro t k ht e
    obtain ⟨o, ho⟩ := wf_later ht hw
    obtain ⟨h1, h2⟩ := wf_get e ho
    exact ⟨(wf_held _ _ ho).trans h1, fun x => wf_held _ _ (h2 x)⟩
  · intro t m t' ht e
    obtain ⟨o, ho⟩ := wf_later ht hw
    rw [lock_cases e] at ho ⊢
    exact ⟨rfl, wf_held _ _ ho.2⟩
  · intro t m t' ht e
    obtain ⟨o, ho⟩ := wf_later ht hw
    rw [unlock_cases e] at ho ⊢
    exact ⟨rfl, wf_held _ _ ho.2⟩

/-- The lock is not touched. -/
def NoMx (m : Mx) (st : List Micro) : Prop := ∀ x ∈ st, match x with
  | .put _ => True
  | .lock m' => m' ≠ m
  | .unlock m' => m' ≠ m
  | .each _ f => ∀ t, ∀ c ∈ f t, ¬ Takes m c
  | .line _ f => ∀ t, ∀ c ∈ f t, ¬ Takes m c

theorem noMx_append {m : Mx} {a b : List Micro} (ha : NoMx m a) (hb : NoMx m b) : NoMx m (a ++ b) := by
  intro x hx
  rcases List.mem_append.1 hx with h | h
  · exact ha x h
  · exact hb x h

theorem noMx_simple {m : Mx} {s : Simple} (h : ¬ Takes m s) : NoMx m s.micro := by
  have aux : ∀ (m' : Mx) (t : List UInt8), m' ≠ m → NoMx m (.lock m' :: (t.map .put ++ [.unlock m'])) := by
    intro m' t hm x hx
    simp only [List.mem_cons, List.mem_append, List.mem_map, List.not_mem_nil, or_false] at hx
    rcases hx with rfl | ⟨b, _, rfl⟩ | rfl
    · exact hm
    · trivial
    · exact hm
  cases s with
  | print t =>
    intro x hx
    simp only [Simple.micro, List.mem_map] at hx
    obtain ⟨b, _, rfl⟩ := hx
    trivial
  | echo t => exact aux .echo t (fun e => h e.symm)
  | setA t => exact aux .set t (fun e => h e.symm)

theorem noMx_micros {m : Mx} {l : List Simple} (h : ∀ c ∈ l, ¬ Takes m c) : NoMx m (micros l) := by
  intro x hx
  simp only [micros, List.mem_flatten, List.mem_map] at hx
  obtain ⟨_, ⟨c, hc, rfl⟩, hx⟩ := hx
  exact noMx_simple (h c hc) x hx

theorem noMx_prog {m : Mx} {l : List Cmd} (h : ¬ TakesM m l) : NoMx m (prog l) := by
  intro x hx
  simp only [prog, List.mem_flatten, List.mem_map] at hx
  obtain ⟨_, ⟨c, hc, rfl⟩, hx⟩ := hx
  cases c with
  | simple s =>
    exact noMx_simple (fun ht => h ⟨_, hc, ht⟩) x hx
  | each f =>
    simp only [Cmd.micro, List.mem_singleton] at hx
    subst hx
    exact fun t c' hc' ht => h ⟨_, hc, t, c', hc', ht⟩
  | line f =>
    simp only [Cmd.micro, List.mem_singleton] at hx
    subst hx
    exact fun t c' hc' ht => h ⟨_, hc, t, c', hc', ht⟩

theorem noMx_later {m : Mx} {s t : List Micro} (h : Later next s t) : NoMx m s → NoMx m t := by
  intro hs
  induction h with
  | refl => exact hs
  | put _ e ih => have := ih; rw [put_cases e] at this; exact fun x hx => this x (List.mem_cons_of_mem _ hx)
  | lock _ e ih => have := ih; rw [lock_cases e] at this; exact fun x hx => this x (List.mem_cons_of_mem _ hx)
  | unlock _ e ih => have := ih; rw [unlock_cases e] at this; exact fun x hx => this x (List.mem_cons_of_mem _ hx)
  | get x _ e ih =>
    have hm := ih
    rcases get_cases e with ⟨a, f, r, rfl, hk⟩ | ⟨a, f, r, rfl, hk⟩
    · have hf : ∀ t, ∀ c ∈ f t, ¬ Takes m c := hm (.each a f) (by simp)
      have hr : NoMx m r := fun y hy => hm y (List.mem_cons_of_mem _ hy)
      have he : ∀ a', NoMx m (.each a' f :: r) := by
        intro a' y hy
        rcases List.mem_cons.1 hy with rfl | hy
        · exact hf
        · exact hr y hy
      rcases hk x with e | ⟨l, e⟩ | ⟨l, e⟩ | ⟨a', e⟩ <;> rw [e]
      · exact hr
      · exact noMx_append (noMx_micros (hf l)) hr
      · exact noMx_append (noMx_micros (hf l)) (he [])
      · exact he a'
    · have hf : ∀ t, ∀ c ∈ f t, ¬ Takes m c := hm (.line a f) (by simp)
      have hr : NoMx m r := fun y hy => hm y (List.mem_cons_of_mem _ hy)
      rcases hk x with ⟨l, e⟩ | ⟨a', e⟩ <;> rw [e]
      · exact noMx_append (noMx_micros (hf l)) hr
      · intro y hy
        rcases List.mem_cons.1 hy with rfl | hy
        · exact hf
        · exact hr y hy

theorem noMx_held {m : Mx} : ∀ (st : List Micro), NoMx m st → heldBy st ≠ some m := by
  intro st
  induction st with
  | nil => intro _ h; cases h
  | cons x st ih =>
    intro h hh
    cases x with
    | put b => exact ih (fun y hy => h y (List.mem_cons_of_mem _ hy)) hh
    | unlock m' =>
      have : m' ≠ m := h (.unlock m') (by simp)
      simp only [heldBy, Option.some.injEq] at hh
      exact this hh
    | lock m' => cases hh
    | each a f => cases hh
    | line a f => cases hh

theorem locks_start (ms : List (List Cmd)) (inp : List UInt8) :
    Locks next heldBy ms.length (fun i => prog (ms.getD i [])) (start ms inp) := by
  refine ⟨fun i _ => .refl _, ?_, ?_⟩
  · intro m j h; cases h
  · intro m j _ h
    have : heldBy (prog (ms.getD j [])) = none := wf_held _ _ (wf_prog _)
    exact absurd (this.symm.trans h) (by simp)

/-- Nobody is left waiting. -/
theorem ends_all {cap : Nat} (hcap : 0 < cap) (ms : List (List Cmd)) (inp : List UInt8)
    (hok : ∀ m i j, i < ms.length → j + 1 < ms.length → i ≠ j → TakesM m (ms.getD i []) → TakesM m (ms.getD j []) →
      (upto ms inp j).length ≤ cap)
    {k : Nat} {s : St (List Micro)} (hr : Reach next cap ms.length k (start ms inp) s) (hs : Stuck next cap ms.length s) :
    AllDone next ms.length s := by
  have hD : ∀ i, i < ms.length → Disc next heldBy (prog (ms.getD i [])) := fun i _ => disc_prog _
  have hL := locks_reach hD hr (locks_start ms inp)
  refine stuck_done hcap hs ?_
  intro i hi m q hq
  cases hm : s.held m with
  | none => rfl
  | some j =>
    exfalso
    obtain ⟨b, q', hput, hj, hfull⟩ := holder hD hL hs hm
    obtain ⟨hj', hh⟩ := hL.own m j hm
    have hij : i ≠ j := by
      intro e; subst e; rw [hq] at hput; cases hput
    have hti : TakesM m (ms.getD i []) := by
      apply Classical.byContradiction
      intro hno
      have := noMx_later (hL.later i hi) (noMx_prog hno)
      rw [lock_cases hq] at this
      exact this (.lock m) (by simp) rfl
    have htj : TakesM m (ms.getD j []) := by
      apply Classical.byContradiction
      intro hno
      exact noMx_held _ (noMx_later (hL.later j hj') (noMx_prog hno)) hh
    have hle := hok m i j hi hj hij hti htj
    obtain ⟨c, hI⟩ := inv_start ms inp (by omega)
    obtain ⟨u', c', hI', _, hlen⟩ := inv_reach hr hI
    obtain ⟨o, d, ho, _, _⟩ := (hI'.ends j hj').inv_put hput
    have := hlen j hj'
    rw [ho] at this
    simp only [start, todo, List.length_cons, Nat.add_one_ne_zero, if_false, List.length_nil] at this
    omega

/-! ### ECHO on both sides -/

theorem reach_trans {σ : Type} {nx : σ → Act σ} {cap n a b : Nat} {s t u : St σ} (h1 : Reach nx cap n a s t) (h2 : Reach nx cap n b t u) :
    ∃ k, Reach nx cap n k s u := by
  induction h1 with
  | refl s => exact ⟨b, h2⟩
  | step hi hs _ ih =>
    obtain ⟨k, hk⟩ := ih h2
    exact ⟨k + 1, .step hi hs hk⟩

/-- The writer fills the pipe while the reader waits for the lock. -/
theorem fill {cap : Nat} {q : List Micro} : ∀ (ls : List (List UInt8)) (t : List UInt8) (s : St (List Micro)),
    s.prog 0 = t.map .put ++ .unlock .echo :: micros (ls.map .echo) → s.held .echo = some 0 → s.prog 1 = .lock .echo :: q →
    (s.pipe 1).length ≤ cap → cap < (s.pipe 1).length + t.length + ls.flatten.length →
    ∃ k s', Reach next cap 2 k s s' ∧ Stuck next cap 2 s' ∧ s'.prog 1 = .lock .echo :: q := by
  intro ls
  induction ls with
  | nil =>
    intro t
    induction t with
    | nil => intro s _ _ _ h1 h2; simp at h2; omega
    | cons b t ih =>
      intro s hp hh h1 hle hlt
      by_cases hfull : (s.pipe 1).length < cap
      · have hst : step next cap 2 0 s = some { s with prog := upd s.prog 0 (t.map .put ++ .unlock .echo :: micros ([].map .echo)), pipe := upd s.pipe 1 (s.pipe 1 ++ [b]) } := by
          unfold step
          rw [hp]
          simp [next, h1, isDone, hfull]
        obtain ⟨k, s', hr, hs', h1'⟩ := ih { s with prog := upd s.prog 0 (t.map .put ++ .unlock .echo :: micros ([].map .echo)), pipe := upd s.pipe 1 (s.pipe 1 ++ [b]) }
          rfl hh (by simp only [upd]; exact h1) (by simp [upd]; omega) (by simp [upd] at hlt ⊢; omega)
        exact ⟨k + 1, s', .step (by omega) hst hr, hs', h1'⟩
      · refine ⟨0, s, .refl s, ?_, h1⟩
        intro i hi
        unfold step
        rcases (by omega : i = 0 ∨ i = 1) with rfl | rfl
        · rw [hp]
          simp [next, h1, isDone, hfull]
        · rw [h1]
          simp [next, hh]
  | cons l ls ihl =>
    intro t
    induction t with
    | nil =>
      intro s hp hh h1 hle hlt
      -- gives the lock back, and takes it again
      let s1 : St (List Micro) := { s with prog := upd s.prog 0 (micros ((l :: ls).map .echo)), held := setMx s.held .echo none }
      have hst1 : step next cap 2 0 s = some s1 := by
        unfold step
        rw [hp]
        simp [next, s1]
      have hm : micros ((l :: ls).map .echo) = .lock .echo :: (l.map .put ++ .unlock .echo :: micros (ls.map .echo)) := by
        simp [micros, Simple.micro]
      let s2 : St (List Micro) := { s1 with prog := upd s1.prog 0 (l.map .put ++ .unlock .echo :: micros (ls.map .echo)), held := setMx s1.held .echo (some 0) }
      have hst2 : step next cap 2 0 s1 = some s2 := by
        have e1 : s1.prog 0 = .lock .echo :: (l.map .put ++ .unlock .echo :: micros (ls.map .echo)) := by
          rw [← hm]; simp [s1, upd]
        have e2 : s1.held .echo = none := by simp [s1, setMx]
        unfold step
        rw [e1]
        simp only [next, e2]
        rfl
      obtain ⟨k, s', hr, hs', h1'⟩ := ihl l s2 rfl (by simp [s2, setMx]) (by simp [s2, s1, upd]; exact h1) hle
        (by simp at hlt ⊢; show cap < (s.pipe 1).length + _ + _; omega)
      exact ⟨k + 1 + 1, s', .step (by omega) hst1 (.step (by omega) hst2 hr), hs', h1'⟩
    | cons b t ih =>
      intro s hp hh h1 hle hlt
      by_cases hfull : (s.pipe 1).length < cap
      · have hst : step next cap 2 0 s = some { s with prog := upd s.prog 0 (t.map .put ++ .unlock .echo :: micros ((l :: ls).map .echo)), pipe := upd s.pipe 1 (s.pipe 1 ++ [b]) } := by
          unfold step
          rw [hp]
          simp [next, h1, isDone, hfull]
        obtain ⟨k, s', hr, hs', h1'⟩ := ih { s with prog := upd s.prog 0 (t.map .put ++ .unlock .echo :: micros ((l :: ls).map .echo)), pipe := upd s.pipe 1 (s.pipe 1 ++ [b]) }
          rfl hh (by simp only [upd]; exact h1) (by simp [upd]; omega) (by simp [upd] at hlt ⊢; omega)
        exact ⟨k + 1, s', .step (by omega) hst hr, hs', h1'⟩
      · refine ⟨0, s, .refl s, ?_, h1⟩
        intro i hi
        unfold step
        rcases (by omega : i = 0 ∨ i = 1) with rfl | rfl
        · rw [hp]
          simp [next, h1, isDone, hfull]
        · rw [h1]
          simp [next, hh]

/-- The first line goes through the pipe. -/
theorem first_line {cap : Nat} (hcap : 0 < cap) {f : List UInt8 → List Simple} {r R : List Micro} : ∀ (w acc : List UInt8) (s : St (List Micro)),
    (∀ b ∈ w, b ≠ 10) → s.prog 0 = (w ++ [10]).map .put ++ R → s.prog 1 = .each acc f :: r → s.pipe 1 = [] →
    ∃ k s', Reach next cap 2 k s s' ∧ s'.prog 0 = R ∧ s'.prog 1 = micros (f (acc ++ (w ++ [10]))) ++ .each [] f :: r
      ∧ s'.pipe 1 = [] ∧ s'.held = s.held := by
  intro w
  induction w with
  | nil =>
    intro acc s _ h0 h1 hp
    let s1 : St (List Micro) := { s with prog := upd s.prog 0 R, pipe := upd s.pipe 1 (s.pipe 1 ++ [10]) }
    have hst1 : step next cap 2 0 s = some s1 := by
      unfold step
      rw [h0]
      simp [next, h1, isDone, hp, hcap, s1]
    let s2 : St (List Micro) := { s1 with prog := upd s1.prog 1 (micros (f (acc ++ [10])) ++ .each [] f :: r), pipe := upd s1.pipe 1 [] }
    have hst2 : step next cap 2 1 s1 = some s2 := by
      unfold step
      have e1 : s1.prog 1 = .each acc f :: r := by simp [s1, upd]; exact h1
      have e2 : s1.pipe 1 = [10] := by simp [s1, upd, hp]
      rw [e1]
      simp [next, e2, s2]
    exact ⟨2, s2, .step (by omega) hst1 (.step (by omega) hst2 (.refl _)), by simp [s2, s1, upd], by simp [s2, upd], by simp [s2, upd], rfl⟩
  | cons b w ih =>
    intro acc s hw h0 h1 hp
    have hb : b ≠ 10 := hw b (by simp)
    let s1 : St (List Micro) := { s with prog := upd s.prog 0 ((w ++ [10]).map .put ++ R), pipe := upd s.pipe 1 (s.pipe 1 ++ [b]) }
    have hst1 : step next cap 2 0 s = some s1 := by
      unfold step
      rw [h0]
      simp [next, h1, isDone, hp, hcap, s1]
    let s2 : St (List Micro) := { s1 with prog := upd s1.prog 1 (.each (acc ++ [b]) f :: r), pipe := upd s1.pipe 1 [] }
    have hst2 : step next cap 2 1 s1 = some s2 := by
      unfold step
      have e1 : s1.prog 1 = .each acc f :: r := by simp [s1, upd]; exact h1
      have e2 : s1.pipe 1 = [b] := by simp [s1, upd, hp]
      rw [e1]
      simp [next, e2, s2, hb]
    obtain ⟨k, s', hr, g0, g1, g2, g3⟩ := ih (acc ++ [b]) s2 (fun x hx => hw x (by simp [hx])) (by simp [s2, s1, upd]) (by simp [s2, upd]) (by simp [s2, upd])
    refine ⟨k + 1 + 1, s', .step (by omega) hst1 (.step (by omega) hst2 hr), g0, ?_, g2, g3⟩
    rw [g1]; simp

end PBat.Flow
