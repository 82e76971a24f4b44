import Verif.Spec.Spawn
/-!
# Lemmas about the starting of programs
-/
namespace PBat.Spawn
open PBat.Spec.Spawn

/-- The ends that the thread has not closed yet. -/
def Holds : Ph → Nat → Bool → Prop
  | .piped r w, n, b | .forked _ r w, n, b => (n = r ∧ b = false) ∨ (n = w ∧ b = true)
  | .reading r, n, b | .shut _ r, n, b => n = r ∧ b = false
  | _, _, _ => False

/-- The shape of the table of a process. -/
def KOk (i : Nat) : Kd → Prop
  | .setup f r w => r ≠ w ∧ f.tab w = some (i, true) ∧ ∀ n, f.ce n = false
  | .closing k f r w => r ≠ w ∧ f.tab w = some (i, true) ∧ (∀ n, f.ce n = true ↔ n = w) ∧ ∀ n, n < k → n ≠ w → f.tab n = none
  | .ready f w => f.tab w = some (i, true) ∧ (∀ n, f.ce n = true ↔ n = w) ∧ ∀ n, n ≠ w → f.tab n = none
  | .failing f w => f.tab w = some (i, true) ∧ ∀ n, n ≠ w → f.tab n = none
  | .wrote f w => ∀ n, n ≠ w → f.tab n = none
  | .exiting f | .prog f => ∀ n, f.tab n = none
  | .bare _ => False
  | _ => True

/-- The process could not begin the program. -/
def Kd.Bad : Kd → Prop
  | .failing _ _ | .wrote _ _ | .exiting _ | .gone => True
  | _ => False

/-- The process has told so. -/
def Kd.Told : Kd → Prop
  | .wrote _ _ | .exiting _ | .gone => True
  | _ => False

/-- The process has begun the program. -/
def Kd.Good : Kd → Prop
  | .prog _ | .ended _ => True
  | _ => False

/-- The thread and the process fit together. -/
def Fits (l : List Act) (i : Nat) : Ph → Kd → Prop
  | .idle, k | .piped _ _, k => k = .none
  | .forked c _ _, k => if c then k ≠ .none else k = .none ∧ Act.fork i false ∈ l
  | .reading _, k => k ≠ .none
  | .shut true _, k | .done none, k => (k = .none ∧ Act.fork i false ∈ l) ∨ k.Told
  | .shut false _, k | .waiting, k | .done (some _), k => k.Good

/-- The thread knows where the ends of its pipe are. -/
structure Inv (waits : Nat → Bool) (l : List Act) (s : Sys) : Prop where
  ce : ∀ n, s.fds.ce n = false
  tab : ∀ n i b, s.fds.tab n = some (i, b) ↔ Holds (s.th i) n b
  low : ∀ n, s.fds.tab n ≠ none → 3 ≤ n ∧ n < 2048
  klow : ∀ i n, (s.kid i).tab n ≠ none → 3 ≤ n ∧ n < 2048
  kok : ∀ i, KOk i (s.kid i)
  dist : ∀ i c r w, s.th i = .piped r w ∨ s.th i = .forked c r w → r ≠ w
  data : ∀ i, s.data i = true ↔ (s.kid i).Told
  fits : ∀ i, Fits l i (s.th i) (s.kid i)
  good : ∀ i, Act.exec i true ∈ l ↔ (s.kid i).Good
  bad : ∀ i, Act.exec i false ∈ l ↔ (s.kid i).Bad
  ended : ∀ i st, Act.finish i st ∈ l ↔ s.kid i = .ended st
  nowait : ∀ i, waits i = false → s.th i ≠ .waiting
  value : ∀ i c, s.th i = .done (some c) → if waits i then ∃ st, s.kid i = .ended st ∧ c = st / 256 % 256 else c = 0
  begun : ∀ i, (∃ r w, Act.pipe i r w ∈ l) ↔ s.th i ≠ .idle
  waited : ∀ i, Act.wait i ∈ l → ∃ c, s.th i = .done (some c)

theorem inv_init (waits : Nat → Bool) : Inv waits [] Sys.init := by
  constructor <;> simp [Sys.init, Holds, Kd.tab, KOk, Kd.Told, Kd.Good, Kd.Bad, Fits]

theorem fits_mono {l : List Act} {a : Act} {i : Nat} {p : Ph} {k : Kd} (h : Fits l i p k) : Fits (a :: l) i p k := by
  rcases p with _ | _ | c | _ | b | _ | o
  · exact h
  · exact h
  · rcases c with _ | _
    · exact ⟨h.1, List.mem_cons_of_mem _ h.2⟩
    · exact h
  · exact h
  · rcases b with _ | _
    · exact h
    · exact h.imp (fun h => ⟨h.1, List.mem_cons_of_mem _ h.2⟩) id
  · exact h
  · rcases o with _ | _
    · exact h.imp (fun h => ⟨h.1, List.mem_cons_of_mem _ h.2⟩) id
    · exact h

/-- A process still in the preparation has the end for writing of its own pipe. -/
theorem held_of {i : Nat} {k : Kd} (h : KOk i k) (h0 : k ≠ .none) (h1 : ¬ k.Told) (h2 : ¬ k.Good) : ∃ n, k.tab n = some (i, true) := by
  cases k <;> simp_all [KOk, Kd.Told, Kd.Good, Kd.tab]
  all_goals first | exact ⟨_, h.1⟩ | exact ⟨_, h.2.1⟩

theorem told_good {k : Kd} (h : k.Told) (h' : k.Good) : False := by cases k <;> simp_all [Kd.Told, Kd.Good]

set_option maxHeartbeats 8000000 in
theorem inv_step {waits : Nat → Bool} {l : List Act} {s s' : Sys} {a : Act} (h : Inv waits l s) (hs : Step waits s a s')
    (hl : Low (a :: l)) (hq : Quiet (a :: l)) (hn : NoStart (a :: l)) : Inv waits (a :: l) s' := by
  obtain ⟨ce, tab, low, klow, kok, dist, data, fits, good, bad, ended, nowait, value, begun, waited⟩ := h
  cases hs
  case sigRead i r h => exact absurd (List.mem_cons_self ..) (hq i)
  case sigWait i h => exact absurd (List.mem_cons_self ..) (hq i)
  case start i h => exact absurd (List.mem_cons_self ..) (hn i)
  case bareOk i f h => have := kok i; rw [h] at this; exact this.elim
  case bareBad i f h => have := kok i; rw [h] at this; exact this.elim
  all_goals constructor
  case forkOk.klow | kMark.klow | kShut.klow | execBad.klow | kWrite.klow | kCloseW.klow =>
    intro j n; simp only [put]; split
    · rename_i e; subst e; have L := klow j n; simp_all [Kd.tab, Fds.close, Fds.mark, put]; try grind [put]
    · exact klow j n
  case kClose.kok i k f r w h hk =>
    intro j; simp only [put]; split
    · rename_i e; subst e; have K := kok j
      rw [h] at K
      obtain ⟨K1, K2, K3, K4⟩ := K
      by_cases e : k = w
      · rw [if_neg (by simpa using e)]
        exact ⟨K1, K2, K3, fun n hn hw => K4 n (by omega) hw⟩
      · rw [if_pos e]
        refine ⟨K1, ?_, K3, fun n hn hw => ?_⟩
        · simp only [Fds.close, put]; rw [if_neg (by omega)]; exact K2
        · simp only [Fds.close, put]; split
          · rfl
          · exact K4 n (by omega) hw
    · exact kok j
  case forkOk.kok i r w h =>
    intro j; simp only [put]; split
    · rename_i e; subst e
      exact ⟨dist j true r w (.inl h), (tab w j true).2 (by rw [h]; exact .inr ⟨rfl, rfl⟩), ce⟩
    · exact kok j
  case kClose.klow i k f r w h hk =>
    intro j n; simp only [put]; split
    · rename_i e; subst e; have L := klow j n
      rw [h] at L
      by_cases e : k = w
      · rw [if_neg (by simpa using e)]; exact L
      · rw [if_pos e]; simp only [Kd.tab, Fds.close, put] at L ⊢; split
        · simp
        · exact L
    · exact klow j n
  case kMark.kok | kShut.kok | kCloseW.kok =>
    intro j; simp only [put]; split
    · rename_i e; subst e; have L := klow j; have K := kok j; simp_all [KOk, Kd.tab, Fds.close, Fds.mark, put]; try grind [put]
    · exact kok j
  case readEnd.fits i r h hd hh =>
    intro j; simp only [put]; split
    · rename_i e; subst e
      have F := fits j; have D := data j
      rw [h] at F
      refine Classical.byContradiction fun hg => hh (.inr ⟨j, held_of (kok j) F (fun t => ?_) hg⟩)
      rw [D.2 t] at hd; simp at hd
    · exact fits_mono (fits j)
  case wait.value i st h hst =>
    intro j c; simp only [put]; split
    · rename_i e; subst e
      have F := fits j; have N := nowait j
      rw [h] at F
      intro hc
      have hw : waits j = true := by
        rcases hw : waits j with _ | _
        · exact absurd h (N hw)
        · rfl
      rw [if_pos hw]
      generalize s.kid j = k at *
      cases k <;> simp_all [Fits, Kd.Good, Kd.status, wexit]
    · exact value j c
  case closeW.fits i c r w h | closeR.fits i c r h =>
    intro j; simp only [put]; split
    · rename_i e; subst e
      have F := fits j
      rw [h] at F
      rcases c with _ | _
      · try rcases hw : waits j with _ | _
        all_goals simp_all [Fits]
      · simp_all [Fits]
    · exact fits_mono (fits j)
  case pipe.fits i r w h _ _ _ | forkOk.fits i r w h | forkBad.fits i r w h =>
    intro j; simp only [put]; split
    · rename_i e; subst e; have F := fits j
      rw [h] at F
      simp_all [Fits]
    · exact fits_mono (fits j)
  case readX.fits i r h hd =>
    intro j; simp only [put]; split
    · rename_i e; subst e
      exact .inr ((data j).1 hd)
    · exact fits_mono (fits j)
  case wait.fits i st h hst =>
    intro j; simp only [put]; split
    · rename_i e; subst e
      have F := fits j
      rw [h] at F
      exact F
    · exact fits_mono (fits j)
  case kMark.fits i _ _ _ h | kClose.fits i _ _ _ _ h _ | kShut.fits i _ _ _ _ h _ | execOk.fits i _ _ h | execBad.fits i _ _ h
      | kWrite.fits i _ _ h | kCloseW.fits i _ _ h | kExit.fits i _ h | finish.fits i _ _ h =>
    intro j; simp only [put]; split
    · rename_i e; subst e
      have F := fits j
      rw [h] at F
      generalize s.th j = p at *
      rcases p with _ | _ | c | _ | b | _ | o
      · simp [Fits] at F
      · simp [Fits] at F
      · rcases c with _ | _ <;> simp [Fits] at F ⊢
      · simp [Fits]
      · rcases b with _ | _ <;> simp [Fits, Kd.Told, Kd.Good] at F ⊢
      · simp [Fits, Kd.Good] at F ⊢
      · rcases o with _ | _ <;> simp [Fits, Kd.Told, Kd.Good] at F ⊢
    · exact fits_mono (fits j)
  case forkOk.data i r w h | forkOk.good i r w h | forkOk.bad i r w h | forkOk.ended i r w h =>
    have F := fits i
    rw [h] at F
    simp only [put]
    grind [Kd.Bad, Kd.Told, Kd.Good, Fits]
  case closeW.tab i c r w h =>
    intro n j b
    have T := tab n j b; have T' := tab n i b; have D := dist i c r w (.inr h)
    have W := (tab w i true).2 (by rw [h]; exact .inr ⟨rfl, rfl⟩)
    simp only [put, Fds.close]
    by_cases hj : j = i
    · subst hj
      rw [h] at T
      rcases c with _ | _ <;> simp [Holds] at T ⊢ <;> grind
    · rw [if_neg hj]; grind
  case closeR.tab i c r h =>
    intro n j b
    have T := tab n j b; have T' := tab n i b
    have W := (tab r i false).2 (by rw [h]; exact ⟨rfl, rfl⟩)
    simp only [put, Fds.close]
    by_cases hj : j = i
    · subst hj
      rw [h] at T
      rcases c with _ | _
      · rcases hw : waits j with _ | _ <;> simp [Holds] at T ⊢ <;> grind
      · simp [Holds] at T ⊢; grind
    · rw [if_neg hj]; grind
  all_goals simp only [put, Fds.close, Fds.mark, Fds.exec]
  all_goals try assumption
  all_goals try (grind [Holds, KOk, Kd.Bad, Kd.Told, Kd.Good, Kd.tab, Kd.status, Low, Held, wexit])

end PBat.Spawn
