import Verif.Spec.Flow
/- Lemmas for C110: threads in a row, for any programs. -/
namespace PBat.Flow

theorem upd_same {α : Type} (f : Nat → α) (i : Nat) (x : α) : upd f i x i = x := by simp [upd]
theorem upd_other {α : Type} (f : Nat → α) {i j : Nat} (x : α) (h : j ≠ i) : upd f i x j = f j := by simp [upd, h]

section
variable {σ : Type} {next : σ → Act σ} {cap n : Nat}

/-- The thread in the state, given the whole input, writes the output and ends after so many steps. -/
inductive Ends (next : σ → Act σ) : σ → List UInt8 → List UInt8 → Nat → Prop
  | done {s inp} : next s = .done → Ends next s inp [] 0
  | put {s b s' inp out c} : next s = .put b s' → Ends next s' inp out c → Ends next s inp (b :: out) (c + 1)
  | eof {s k out c} : next s = .get k → Ends next (k none) [] out c → Ends next s [] out (c + 1)
  | get {s k b r out c} : next s = .get k → Ends next (k (some b)) r out c → Ends next s (b :: r) out (c + 1)
  | lock {s m s' inp out c} : next s = .lock m s' → Ends next s' inp out c → Ends next s inp out (c + 1)
  | unlock {s m s' inp out c} : next s = .unlock m s' → Ends next s' inp out c → Ends next s inp out (c + 1)

theorem Ends.inv_done {s : σ} {inp out c} (h : Ends next s inp out c) (e : next s = .done) : out = [] ∧ c = 0 := by
  cases h <;> simp_all
theorem Ends.inv_put {s : σ} {b s' inp out c} (h : Ends next s inp out c) (e : next s = .put b s') :
    ∃ o d, out = b :: o ∧ c = d + 1 ∧ Ends next s' inp o d := by
  cases h <;> simp_all
theorem Ends.inv_eof {s : σ} {k out c} (h : Ends next s [] out c) (e : next s = .get k) :
    ∃ d, c = d + 1 ∧ Ends next (k none) [] out d := by
  cases h <;> simp_all
theorem Ends.inv_get {s : σ} {k b r out c} (h : Ends next s (b :: r) out c) (e : next s = .get k) :
    ∃ d, c = d + 1 ∧ Ends next (k (some b)) r out d := by
  cases h <;> simp_all
theorem Ends.inv_lock {s : σ} {m s' inp out c} (h : Ends next s inp out c) (e : next s = .lock m s') :
    ∃ d, c = d + 1 ∧ Ends next s' inp out d := by
  cases h <;> simp_all
theorem Ends.inv_unlock {s : σ} {m s' inp out c} (h : Ends next s inp out c) (e : next s = .unlock m s') :
    ∃ d, c = d + 1 ∧ Ends next s' inp out d := by
  cases h <;> simp_all

/-- Sum of the first `n`. -/
def total (c : Nat → Nat) : Nat → Nat
  | 0 => 0
  | n + 1 => total c n + c n

theorem total_congr {c d : Nat → Nat} : ∀ n, (∀ i, i < n → c i = d i) → total c n = total d n := by
  intro n
  induction n with
  | zero => intros; rfl
  | succ n ih =>
    intro h
    rw [total, total, ih (fun i hi => h i (by omega)), h n (by omega)]

theorem total_upd {c : Nat → Nat} {i d : Nat} (hc : c i = d + 1) : ∀ n, i < n → total c n = total (upd c i d) n + 1 := by
  intro n
  induction n with
  | zero => intro h; omega
  | succ n ih =>
    intro h
    rw [total, total]
    by_cases hi : i = n
    · subst hi
      rw [upd_same, total_congr (c := c) (d := upd c i d) i (fun j hj => by rw [upd_other _ _ (by omega)])]
      omega
    · rw [ih (by omega), upd_other _ _ (by omega)]; omega

/-- What is still to be written by each member (`u (i + 1)` by the member `i`), and in how many steps. -/
structure Inv (next : σ → Act σ) (n : Nat) (s : St σ) (res : List UInt8) (u : Nat → List UInt8) (c : Nat → Nat) : Prop where
  zero : u 0 = []
  ends : ∀ i, i < n → Ends next (s.prog i) (s.pipe i ++ u i) (u (i + 1)) (c i)
  last : s.pipe n ++ u n = res

theorem isDone_iff {s : σ} : isDone next s = true ↔ next s = .done := by
  unfold isDone; split <;> simp_all

/-- A step keeps the invariant, and there is less to do. -/
theorem inv_step {s t : St σ} {res u c i} (h : Inv next n s res u c) (hi : i < n) (hs : step next cap n i s = some t) :
    ∃ u' c', Inv next n t res u' c' ∧ total c n = total c' n + 1
    ∧ (∀ j, j < n → (t.pipe (j + 1)).length + (u' (j + 1)).length ≤ (s.pipe (j + 1)).length + (u (j + 1)).length) := by
  obtain ⟨h0, h1, h2⟩ := h
  have hE := h1 i hi
  unfold step at hs
  split at hs
  · cases hs
  · next b p hn =>
    obtain ⟨o, d, ho, hd, hE'⟩ := hE.inv_put hn
    refine ⟨upd u (i + 1) o, upd c i d, ?_, total_upd hd n hi, ?_⟩
    · split at hs
      · next hin =>
        cases hs
        refine ⟨by rw [upd_other _ _ (by omega)]; exact h0, ?_, ?_⟩
        · intro j hj
          by_cases hji : j = i
          · subst hji
            simp only [upd_same]
            rw [upd_other _ _ (by omega), upd_other _ _ (by omega)]; exact hE'
          · simp only
            rw [upd_other _ _ hji, upd_other _ _ (by omega), upd_other _ _ (by omega), upd_other _ _ (by omega), upd_other _ _ hji]
            exact h1 j hj
        · subst hin
          simp only [upd_same]
          rw [← h2, ho]; simp
      · next hin =>
        split at hs
        · next hdn =>
          cases hs
          have hdn := isDone_iff.1 hdn
          refine ⟨by rw [upd_other _ _ (by omega)]; exact h0, ?_, ?_⟩
          · intro j hj
            by_cases hji : j = i
            · subst hji
              simp only [upd_same]
              rw [upd_other _ _ (by omega)]; exact hE'
            · by_cases hj1 : j = i + 1
              · subst hj1
                have hq := (h1 (i + 1) hj).inv_done hdn
                simp only
                rw [upd_other _ _ (by omega), upd_same, upd_other _ _ (by omega), upd_other _ _ (by omega), hq.1, hq.2]
                exact .done hdn
              · simp only
                rw [upd_other _ _ hji, upd_other _ _ (by omega), upd_other _ _ (by omega), upd_other _ _ hji]
                exact h1 j hj
          · simp only
            rw [upd_other _ _ (by omega)]; exact h2
        · split at hs
          · cases hs
            refine ⟨by rw [upd_other _ _ (by omega)]; exact h0, ?_, ?_⟩
            · intro j hj
              by_cases hji : j = i
              · subst hji
                simp only [upd_same]
                rw [upd_other _ _ (by omega), upd_other _ _ (by omega)]; exact hE'
              · by_cases hj1 : j = i + 1
                · subst hj1
                  simp only [upd_same]
                  rw [upd_other _ _ (by omega), upd_other _ _ (by omega), upd_other _ _ (by omega)]
                  have := h1 (i + 1) hj
                  rw [ho] at this
                  simpa using this
                · simp only
                  rw [upd_other _ _ hji, upd_other _ _ (by omega), upd_other _ _ (by omega), upd_other _ _ (by omega), upd_other _ _ hji]
                  exact h1 j hj
            · simp only
              rw [upd_other _ _ (by omega), upd_other _ _ (by omega)]; exact h2
          · cases hs
    · intro j hj
      by_cases hj1 : j = i
      · subst hj1
        rw [upd_same, ho]
        have : (t.pipe (j + 1)).length ≤ (s.pipe (j + 1)).length + 1 := by
          split at hs
          · cases hs; simp [upd_same]
          · split at hs
            · cases hs; simp
            · split at hs
              · cases hs; simp [upd_same]
              · cases hs
        simp only [List.length_cons]; omega
      · rw [upd_other _ _ (by omega)]
        have : t.pipe (j + 1) = s.pipe (j + 1) := by
          split at hs
          · cases hs; simp only; rw [upd_other _ _ (by omega)]
          · split at hs
            · cases hs; rfl
            · split at hs
              · cases hs; simp only; rw [upd_other _ _ (by omega)]
              · cases hs
        rw [this]; exact Nat.le_refl _
  · next k hn =>
    split at hs
    · next b r hp =>
      cases hs
      rw [hp] at hE
      obtain ⟨d, hd, hE'⟩ := hE.inv_get hn
      refine ⟨u, upd c i d, ⟨h0, ?_, ?_⟩, total_upd hd n hi, ?_⟩
      · intro j hj
        by_cases hji : j = i
        · subst hji
          simp only [upd_same]; exact hE'
        · simp only
          rw [upd_other _ _ hji, upd_other _ _ hji, upd_other _ _ hji]; exact h1 j hj
      · simp only
        rw [upd_other _ _ (by omega)]; exact h2
      · intro j hj
        by_cases hj1 : j + 1 = i
        · subst hj1
          simp only [upd_same]; rw [hp]; simp only [List.length_cons]; omega
        · simp only
          rw [upd_other _ _ hj1]; exact Nat.le_refl _
    · next hp =>
      split at hs
      · next hc =>
        cases hs
        have hu : u i = [] := by
          rcases hc with rfl | hc
          · exact h0
          · by_cases hi0 : i = 0
            · subst hi0; exact h0
            · have := ((h1 (i - 1) (by omega)).inv_done (isDone_iff.1 hc)).1
              rwa [show i - 1 + 1 = i by omega] at this
        rw [hp, hu] at hE
        obtain ⟨d, hd, hE'⟩ := Ends.inv_eof (by simpa using hE) hn
        refine ⟨u, upd c i d, ⟨h0, ?_, h2⟩, total_upd hd n hi, fun _ _ => Nat.le_refl _⟩
        intro j hj
        by_cases hji : j = i
        · subst hji
          simp only [upd_same]; rw [hp, hu]; exact hE'
        · simp only
          rw [upd_other _ _ hji, upd_other _ _ hji]; exact h1 j hj
      · cases hs
  · next m p hn =>
    obtain ⟨d, hd, hE'⟩ := hE.inv_lock hn
    split at hs
    · cases hs
      refine ⟨u, upd c i d, ⟨h0, ?_, h2⟩, total_upd hd n hi, fun _ _ => Nat.le_refl _⟩
      intro j hj
      by_cases hji : j = i
      · subst hji
        simp only [upd_same]; exact hE'
      · simp only
        rw [upd_other _ _ hji, upd_other _ _ hji]; exact h1 j hj
    · cases hs
  · next m p hn =>
    obtain ⟨d, hd, hE'⟩ := hE.inv_unlock hn
    cases hs
    refine ⟨u, upd c i d, ⟨h0, ?_, h2⟩, total_upd hd n hi, fun _ _ => Nat.le_refl _⟩
    intro j hj
    by_cases hji : j = i
    · subst hji
      simp only [upd_same]; exact hE'
    · simp only
      rw [upd_other _ _ hji, upd_other _ _ hji]; exact h1 j hj

theorem inv_reach {k : Nat} {s t : St σ} (hr : Reach next cap n k s t) : ∀ {res u c}, Inv next n s res u c →
    ∃ u' c', Inv next n t res u' c' ∧ total c n = total c' n + k
    ∧ (∀ j, j < n → (t.pipe (j + 1)).length + (u' (j + 1)).length ≤ (s.pipe (j + 1)).length + (u (j + 1)).length) := by
  induction hr with
  | refl s => intro res u c h; exact ⟨u, c, h, rfl, fun _ _ => Nat.le_refl _⟩
  | step hi hs _ ih =>
    intro res u c h
    obtain ⟨u', c', h', e, l⟩ := inv_step h hi hs
    obtain ⟨u'', c'', h'', e', l'⟩ := ih h'
    exact ⟨u'', c'', h'', by omega, fun j hj => Nat.le_trans (l' j hj) (l j hj)⟩

theorem inv_done {s : St σ} {res u c} (h : Inv next n s res u c) (hn : 0 < n) (hd : AllDone next n s) : s.pipe n = res := by
  have h1 := (h.ends (n - 1) (by omega)).inv_done (hd (n - 1) (by omega))
  rw [show n - 1 + 1 = n by omega] at h1
  have := h.last
  rw [h1.1] at this
  simpa using this

/-! ### Locks -/

/-- What a thread does later. -/
inductive Later (next : σ → Act σ) : σ → σ → Prop
  | refl (s) : Later next s s
  | put {s t b t'} : Later next s t → next t = .put b t' → Later next s t'
  | get {s t k} (x) : Later next s t → next t = .get k → Later next s (k x)
  | lock {s t m t'} : Later next s t → next t = .lock m t' → Later next s t'
  | unlock {s t m t'} : Later next s t → next t = .unlock m t' → Later next s t'

/-- `h s` is the lock held in the state `s`: one at a time, and nothing is read meanwhile. -/
structure Disc (next : σ → Act σ) (h : σ → Option Mx) (s : σ) : Prop where
  done : ∀ t, Later next s t → next t = .done → h t = none
  put : ∀ t b t', Later next s t → next t = .put b t' → h t' = h t
  get : ∀ t k, Later next s t → next t = .get k → h t = none ∧ ∀ x, h (k x) = none
  lock : ∀ t m t', Later next s t → next t = .lock m t' → h t = none ∧ h t' = some m
  unlock : ∀ t m t', Later next s t → next t = .unlock m t' → h t = some m ∧ h t' = none

/-- The locks are held by those who took them. -/
structure Locks (next : σ → Act σ) (h : σ → Option Mx) (n : Nat) (p : Nat → σ) (s : St σ) : Prop where
  later : ∀ i, i < n → Later next (p i) (s.prog i)
  own : ∀ m j, s.held m = some j → j < n ∧ h (s.prog j) = some m
  holds : ∀ m j, j < n → h (s.prog j) = some m → s.held m = some j

theorem locks_move {h : σ → Option Mx} {p : Nat → σ} {s : St σ} {i : Nat} {q : σ} (hL : Locks next h n p s)
    (hl : Later next (p i) q) (hh : h q = h (s.prog i)) (pp : Nat → List UInt8) :
    Locks next h n p { s with prog := upd s.prog i q, pipe := pp } := by
  refine ⟨?_, ?_, ?_⟩
  · intro j hj
    by_cases hji : j = i
    · subst hji; simp only [upd_same]; exact hl
    · simp only; rw [upd_other _ _ hji]; exact hL.later j hj
  · intro m j hm
    obtain ⟨h1, h2⟩ := hL.own m j hm
    refine ⟨h1, ?_⟩
    by_cases hji : j = i
    · subst hji; simp only [upd_same]; rw [hh]; exact h2
    · simp only; rw [upd_other _ _ hji]; exact h2
  · intro m j hj hm
    by_cases hji : j = i
    · subst hji
      simp only [upd_same] at hm
      exact hL.holds m j hj (hh ▸ hm)
    · simp only at hm
      rw [upd_other _ _ hji] at hm
      exact hL.holds m j hj hm

theorem locks_step {h : σ → Option Mx} {p : Nat → σ} (hD : ∀ i, i < n → Disc next h (p i)) {s t : St σ} {i : Nat}
    (hL : Locks next h n p s) (hi : i < n) (hs : step next cap n i s = some t) : Locks next h n p t := by
  have hl := hL.later i hi
  unfold step at hs
  split at hs
  · cases hs
  · next b q hn =>
    have hh := (hD i hi).put _ _ _ hl hn
    have hl' := Later.put hl hn
    split at hs
    · cases hs; exact locks_move hL hl' hh _
    · split at hs
      · cases hs; exact locks_move hL hl' hh _
      · split at hs
        · cases hs; exact locks_move hL hl' hh _
        · cases hs
  · next k hn =>
    have hh := (hD i hi).get _ _ hl hn
    split at hs
    · cases hs; exact locks_move hL (Later.get _ hl hn) ((hh.2 _).trans hh.1.symm) _
    · split at hs
      · cases hs; exact locks_move hL (Later.get _ hl hn) ((hh.2 _).trans hh.1.symm) _
      · cases hs
  · next m q hn =>
    have hh := (hD i hi).lock _ _ _ hl hn
    split at hs
    · next hfree =>
      cases hs
      refine ⟨?_, ?_, ?_⟩
      · intro j hj
        by_cases hji : j = i
        · subst hji; simp only [upd_same]; exact Later.lock hl hn
        · simp only; rw [upd_other _ _ hji]; exact hL.later j hj
      · intro m' j hm
        simp only [setMx] at hm
        split at hm
        · next e => cases hm; subst e; simp only [upd_same]; exact ⟨hi, hh.2⟩
        · obtain ⟨h1, h2⟩ := hL.own m' j hm
          have hji : j ≠ i := by intro e; subst e; rw [hh.1] at h2; cases h2
          simp only; rw [upd_other _ _ hji]; exact ⟨h1, h2⟩
      · intro m' j hj hm
        by_cases hji : j = i
        · subst hji
          simp only [upd_same] at hm
          rw [hh.2] at hm
          cases hm
          simp [setMx]
        · simp only at hm
          rw [upd_other _ _ hji] at hm
          have := hL.holds m' j hj hm
          have hne : m' ≠ m := by intro e; subst e; rw [hfree] at this; cases this
          simp only [setMx, hne, if_false]; exact this
    · cases hs
  · next m q hn =>
    have hh := (hD i hi).unlock _ _ _ hl hn
    cases hs
    refine ⟨?_, ?_, ?_⟩
    · intro j hj
      by_cases hji : j = i
      · subst hji; simp only [upd_same]; exact Later.unlock hl hn
      · simp only; rw [upd_other _ _ hji]; exact hL.later j hj
    · intro m' j hm
      simp only [setMx] at hm
      split at hm
      · cases hm
      · next hne =>
        obtain ⟨h1, h2⟩ := hL.own m' j hm
        have hji : j ≠ i := by
          intro e; subst e
          rw [hh.1] at h2; cases h2; exact hne rfl
        simp only; rw [upd_other _ _ hji]; exact ⟨h1, h2⟩
    · intro m' j hj hm
      by_cases hji : j = i
      · subst hji
        simp only [upd_same] at hm
        rw [hh.2] at hm; cases hm
      · simp only at hm
        rw [upd_other _ _ hji] at hm
        have h3 := hL.holds m' j hj hm
        have hne : m' ≠ m := by
          intro e; subst e
          have := hL.holds m' i hi hh.1
          rw [this] at h3; cases h3; exact hji rfl
        simp only [setMx, hne, if_false]; exact h3

theorem locks_reach {h : σ → Option Mx} {p : Nat → σ} (hD : ∀ i, i < n → Disc next h (p i)) {k : Nat} {s t : St σ}
    (hr : Reach next cap n k s t) : Locks next h n p s → Locks next h n p t := by
  induction hr with
  | refl s => exact id
  | step hi hs _ ih => exact fun hL => ih (locks_step hD hL hi hs)

/-- Nobody waits for a lock: then everybody has ended when nobody can go on. -/
theorem stuck_done (hcap : 0 < cap) {s : St σ} (hs : Stuck next cap n s)
    (hw : ∀ i, i < n → ∀ m q, next (s.prog i) = .lock m q → s.held m = none) : AllDone next n s := by
  -- a member that waits to write: so does the next one
  have key : ∀ d i, n - i = d → i < n → (∃ b q, next (s.prog i) = .put b q) → False := by
    intro d
    induction d with
    | zero => intro i hd hi _; omega
    | succ d ih =>
      intro i hd hi hp
      obtain ⟨b, q, hp⟩ := hp
      have hst := hs i hi
      rw [step, hp] at hst
      dsimp only at hst
      split at hst
      · cases hst
      · next hin =>
        split at hst
        · cases hst
        · next hnd =>
          split at hst
          · cases hst
          · next hfull =>
            have hi' : i + 1 < n := by omega
            have hst' := hs (i + 1) hi'
            have hw' := hw (i + 1) hi'
            rw [step] at hst'
            split at hst'
            · next e => exact hnd (isDone_iff.2 e)
            · next b' q' e => exact ih (i + 1) (by omega) hi' ⟨b', q', e⟩
            · next k e =>
              split at hst'
              · cases hst'
              · next hnil => rw [hnil] at hfull; exact hfull (by simpa using hcap)
            · next m q' e =>
              rw [hw' m q' e] at hst'
              cases hst'
            · cases hst'
  -- the members before it have ended
  intro i
  induction i with
  | zero =>
    intro hi
    have hst := hs 0 hi
    rw [step] at hst
    split at hst
    · next e => exact e
    · next b q e => exact (key _ 0 rfl hi ⟨b, q, e⟩).elim
    · split at hst
      · cases hst
      · simp at hst
    · next m q e =>
      rw [hw 0 hi m q e] at hst; cases hst
    · cases hst
  | succ i ih =>
    intro hi
    have hprev := ih (by omega)
    have hst := hs (i + 1) hi
    rw [step] at hst
    split at hst
    · next e => exact e
    · next b q e => exact (key _ (i + 1) rfl hi ⟨b, q, e⟩).elim
    · split at hst
      · cases hst
      · split at hst
        · cases hst
        · next hc => exact (hc (.inr (by rw [Nat.add_sub_cancel]; exact isDone_iff.2 hprev))).elim
    · next m q e =>
      rw [hw (i + 1) hi m q e] at hst; cases hst
    · cases hst

/-- Whoever holds a lock can go on, unless it is writing to a pipe that is full. -/
theorem holder {h : σ → Option Mx} {p : Nat → σ} (hD : ∀ i, i < n → Disc next h (p i)) {s : St σ}
    (hL : Locks next h n p s) (hs : Stuck next cap n s) {m : Mx} {j : Nat} (hm : s.held m = some j) :
    ∃ b q, next (s.prog j) = .put b q ∧ j + 1 < n ∧ cap ≤ (s.pipe (j + 1)).length := by
  obtain ⟨hj, hh⟩ := hL.own m j hm
  have hl := hL.later j hj
  have hst := hs j hj
  rw [step] at hst
  split at hst
  · next e =>
    have := (hD j hj).done _ hl e
    rw [this] at hh; cases hh
  · next b q e =>
    split at hst
    · cases hst
    · split at hst
      · cases hst
      · split at hst
        · cases hst
        · next hc => exact ⟨b, q, e, by omega, by omega⟩
  · next k e =>
    have := ((hD j hj).get _ _ hl e).1
    rw [this] at hh; cases hh
  · next m' q e =>
    have := ((hD j hj).lock _ _ _ hl e).1
    rw [this] at hh; cases hh
  · cases hst
end

end PBat.Flow
