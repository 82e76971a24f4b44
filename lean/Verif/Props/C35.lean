import Verif.Lemmas.Cache
/-
C35: the cache of temporary strings.
-/
namespace PBat

/-- What the users of the cache know: the strings they hold, with the text they last put into them. -/
abbrev HeldStrs := StrPtr → Option (List Char)

/-- A change for one string. -/
def HeldStrs.set (h : HeldStrs) (p : StrPtr) (v : Option (List Char)) : HeldStrs := fun q => if q = p then v else h q

/-- The histories of a cache: it is built (some allocations may fail), then strings are acquired, written and released in any order, as long
as only strings that are held are written or released.  A text is put in a buffer larger than it; a `realloc` may fail. -/
inductive CacheHist (al : Nat → Bool) : Cache → HeldStrs → Prop
  | build : CacheHist al (cacheBuild al) (fun _ => none)
  | acquire {c held} : CacheHist al c held → CacheHist al (cacheAcquire c).2 (held.set (cacheAcquire c).1 (some []))
  | write {c held} (p : StrPtr) (t : List Char) (cap : Nat) : CacheHist al c held → held p ≠ none → t.length < cap →
      CacheHist al (cacheWrite c p t cap) (held.set p (some t))
  | release {c held} (p : StrPtr) (re : Bool) : CacheHist al c held → held p ≠ none →
      CacheHist al (cacheRelease re c p) (held.set p none)

/-- What holds throughout. -/
structure CacheInv (al : Nat → Bool) (c : Cache) (held : HeldStrs) : Prop where
  len : c.status.length = 4
  text : ∀ p t, held p = some t → (c.get p).text = some t ∧ 0 < (c.get p).cap
  bit : ∀ x, held (.pool x) ≠ none → x < 128 ∧ statusBit c.status x = true
  free : ∀ x, x < 128 → statusBit c.status x = false → c.pool x = ⟨some [], (c.pool x).cap⟩ ∧ 0 < (c.pool x).cap
  used : ∀ x, x < 128 → statusBit c.status x = true → held (.pool x) ≠ none ∨ al x = false
  made : ∀ i, c.made ≤ i → held (.heap i) = none
  lost : ∀ x, x < 128 → al x = false → statusBit c.status x = true ∧ held (.pool x) = none

theorem held_same (h : HeldStrs) (p : StrPtr) (v : Option (List Char)) : h.set p v p = v := if_pos rfl
theorem held_ne {h : HeldStrs} {p q : StrPtr} {v : Option (List Char)} (hq : q ≠ p) : h.set p v q = h q := if_neg hq

theorem cacheBuild_inv (al : Nat → Bool) : CacheInv al (cacheBuild al) (fun _ => none) := by
  have hones : ∀ x, x < 128 → statusBit (List.replicate (cacheSize / 32) (BitVec.allOnes 32)) x = true := by
    intro x hx
    unfold statusBit
    rw [List.getElem?_replicate, if_pos (by show x / 32 < 4; omega)]
    simp only
    rw [BitVec.getLsbD_allOnes]
    exact decide_eq_true (Nat.mod_lt _ (by omega))
  have hbig : ∀ x, ¬ x < 128 → statusBit (List.replicate (cacheSize / 32) (BitVec.allOnes 32)) x = true := by
    intro x hx
    unfold statusBit
    rw [List.getElem?_replicate, if_neg (by show ¬ x / 32 < 4; omega)]
  have hb := buildLoop_spec al cacheSize 0
    { status := List.replicate (cacheSize / 32) (BitVec.allOnes 32), pool := fun _ => ⟨none, 0⟩, heap := fun _ => ⟨none, 0⟩, made := 0 }
    (by show 0 + 128 ≤ 32 * (List.replicate 4 (BitVec.allOnes 32)).length; simp) (fun x hx => by omega)
    (fun x _ => by
      by_cases hx : x < 128
      · exact hones x hx
      · exact hbig x hx)
  have hb : ∀ x, x < 128 → _ := fun x hx => hb x (by show x < 0 + 128; omega)
  refine { len := by rw [cacheBuild, (hb 0 (by omega)).1]; rfl, text := fun p t h => (by cases h), bit := fun x h => absurd rfl h,
           free := ?_, used := ?_, made := fun i _ => rfl, lost := ?_ }
  · intro x hx hf
    rw [cacheBuild, (hb x hx).2.2.1] at hf
    rw [cacheBuild, (hb x hx).2.2.2 (by simpa using hf)]
    exact ⟨rfl, by show 0 < 256; omega⟩
  · intro x hx hf
    rw [cacheBuild, (hb x hx).2.2.1] at hf
    exact .inr (by simpa using hf)
  · intro x hx ha
    rw [cacheBuild, (hb x hx).2.2.1, ha]
    exact ⟨rfl, rfl⟩

/-- The pointer acquired: a free element of the pool, the first one, or a new string if there is none. -/
theorem acquire_cases {al : Nat → Bool} {c : Cache} {held : HeldStrs} (h : CacheInv al c held) :
    (∃ x, x < 128 ∧ statusBit c.status x = false ∧ cacheAcquire c = (.pool x, { c with status := statusOn c.status x })) ∨
    ((∀ x, x < 128 → statusBit c.status x = true) ∧ cacheAcquire c =
      (.heap c.made, { c with heap := setStr c.heap c.made ⟨some [], defaultCap⟩, made := c.made + 1 })) := by
  have hs := scanStatus_spec c.status 0
  unfold cacheAcquire
  cases hsc : scanStatus 0 c.status with
  | some k =>
    obtain ⟨y, he, hl, hb, -⟩ := hs.1 k hsc
    have : k = y := by omega
    subst this
    rw [h.len] at hl
    exact .inl ⟨k, by omega, hb, rfl⟩
  | none =>
    refine .inr ⟨fun x hx => hs.2 hsc x (by rw [h.len]; omega), rfl⟩

theorem acquire_inv {al : Nat → Bool} {c : Cache} {held : HeldStrs} (h : CacheInv al c held) :
    CacheInv al (cacheAcquire c).2 (held.set (cacheAcquire c).1 (some [])) ∧ held (cacheAcquire c).1 = none ∧
    ∀ q, held q ≠ none → (cacheAcquire c).2.get q = c.get q := by
  rcases acquire_cases h with ⟨x, hx, hb, he⟩ | ⟨hall, he⟩
  · rw [he]
    have hnone : held (.pool x) = none := by
      cases hh : held (.pool x) with
      | none => rfl
      | some t =>
        have := (h.bit x (by rw [hh]; simp)).2
        rw [hb] at this
        cases this
    refine ⟨?_, hnone, fun q _ => by cases q <;> rfl⟩
    refine { len := by rw [statusOn_length]; exact h.len, text := ?_, bit := ?_, free := ?_, used := ?_, made := ?_, lost := ?_ }
    · intro p t hp
      by_cases e : p = .pool x
      · subst e
        rw [held_same] at hp
        cases hp
        obtain ⟨h1, h2⟩ := h.free x hx hb
        exact ⟨by show (c.pool x).text = _; rw [h1], h2⟩
      · rw [held_ne e] at hp
        have := h.text p t hp
        cases p <;> exact this
    · intro y hy
      simp only [bit_on]
      by_cases e : y = x
      · subst e; exact ⟨hx, by simp⟩
      · rw [held_ne (by simpa using e)] at hy
        obtain ⟨h1, h2⟩ := h.bit y hy
        exact ⟨h1, by rw [h2]; rfl⟩
    · intro y hy hf
      simp only [bit_on, Bool.or_eq_false_iff, decide_eq_false_iff_not] at hf
      exact h.free y hy hf.1
    · intro y hy hf
      by_cases e : y = x
      · subst e; rw [held_same]; exact .inl (by simp)
      · rw [held_ne (by simpa using e)]
        simp only [bit_on, e, decide_false, Bool.or_false] at hf
        exact h.used y hy hf
    · intro i hi
      rw [held_ne (by simp)]
      exact h.made i hi
    · intro y hy ha
      have hl := h.lost y hy ha
      have e : y ≠ x := by rintro rfl; rw [hb] at hl; cases hl.1
      rw [held_ne (by simpa using e)]
      simp only [bit_on]
      exact ⟨by rw [hl.1]; rfl, hl.2⟩
  · rw [he]
    refine ⟨?_, h.made _ (Nat.le_refl _), ?_⟩
    · refine { len := h.len, text := ?_, bit := ?_, free := h.free, used := ?_, made := ?_, lost := ?_ }
      · intro p t hp
        by_cases e : p = .heap c.made
        · subst e
          rw [held_same] at hp
          cases hp
          show (setStr c.heap c.made _ c.made).text = _ ∧ 0 < (setStr c.heap c.made _ c.made).cap
          rw [setStr_same]
          exact ⟨rfl, by show 0 < 256; omega⟩
        · rw [held_ne e] at hp
          have := h.text p t hp
          cases p with
          | pool y => exact this
          | heap i =>
            show (setStr c.heap c.made _ i).text = _ ∧ 0 < (setStr c.heap c.made _ i).cap
            rw [setStr_ne (by simpa using e)]
            exact this
      · intro y hy
        rw [held_ne (by simp)] at hy
        exact h.bit y hy
      · intro y hy hf
        rw [held_ne (by simp)]
        exact h.used y hy hf
      · intro i hi
        have hi : c.made + 1 ≤ i := hi
        rw [held_ne (by simp; omega)]
        exact h.made i (by omega)
      · intro y hy ha
        rw [held_ne (by simp)]
        exact h.lost y hy ha
    · intro q hq
      cases q with
      | pool y => rfl
      | heap i =>
        have hi : ¬ c.made ≤ i := fun hi => hq (h.made i hi)
        show setStr c.heap c.made _ i = _
        rw [setStr_ne (by omega)]
        rfl

theorem write_get (c : Cache) (p : StrPtr) (t : List Char) (cap : Nat) :
    (cacheWrite c p t cap).get p = ⟨some t, cap⟩ ∧ ∀ q, q ≠ p → (cacheWrite c p t cap).get q = c.get q := by
  cases p with
  | pool x =>
    refine ⟨setStr_same .., fun q hq => ?_⟩
    cases q with
    | pool y => exact setStr_ne (by simpa using hq)
    | heap i => rfl
  | heap j =>
    refine ⟨setStr_same .., fun q hq => ?_⟩
    cases q with
    | pool y => rfl
    | heap i => exact setStr_ne (by simpa using hq)

theorem write_inv {al : Nat → Bool} {c : Cache} {held : HeldStrs} (h : CacheInv al c held) (p : StrPtr) (hp : held p ≠ none)
    (t : List Char) (cap : Nat) (hc : t.length < cap) : CacheInv al (cacheWrite c p t cap) (held.set p (some t)) := by
  have hst : (cacheWrite c p t cap).status = c.status ∧ (cacheWrite c p t cap).made = c.made := by cases p <;> exact ⟨rfl, rfl⟩
  obtain ⟨hg, hg'⟩ := write_get c p t cap
  have hne : ∀ q, held.set p (some t) q ≠ none ↔ held q ≠ none := by
    intro q
    by_cases e : q = p
    · subst e; rw [held_same]; simp [hp]
    · rw [held_ne e]
  refine { len := by rw [hst.1]; exact h.len, text := ?_, bit := ?_, free := ?_, used := ?_, made := ?_, lost := ?_ }
  · intro q u hq
    by_cases e : q = p
    · subst e
      rw [held_same] at hq
      cases hq
      rw [hg]
      exact ⟨rfl, by show 0 < cap; omega⟩
    · rw [held_ne e] at hq
      rw [hg' q e]
      exact h.text q u hq
  · intro x hx
    rw [hst.1]
    exact h.bit x ((hne _).1 hx)
  · intro x hx hf
    rw [hst.1] at hf
    have e : StrPtr.pool x ≠ p := by
      rintro rfl
      have := (h.bit x hp).2
      rw [hf] at this
      cases this
    have := h.free x hx hf
    have hg := hg' _ e
    change (cacheWrite c p t cap).pool x = c.pool x at hg
    rw [hg]
    exact this
  · intro x hx hf
    rw [hst.1] at hf
    rcases h.used x hx hf with h1 | h1
    · exact .inl ((hne _).2 h1)
    · exact .inr h1
  · intro i hi
    rw [hst.2] at hi
    have hn := h.made i hi
    have e : StrPtr.heap i ≠ p := by rintro rfl; exact hp hn
    rw [held_ne e]
    exact hn
  · intro x hx ha
    have hl := h.lost x hx ha
    have e : StrPtr.pool x ≠ p := by rintro rfl; exact hp hl.2
    rw [hst.1, held_ne e]
    exact hl

theorem release_inv {al : Nat → Bool} {c : Cache} {held : HeldStrs} (h : CacheInv al c held) (p : StrPtr) (hp : held p ≠ none) (re : Bool) :
    CacheInv al (cacheRelease re c p) (held.set p none) := by
  cases p with
  | heap j =>
    refine { len := h.len, text := ?_, bit := ?_, free := h.free, used := ?_, made := ?_, lost := ?_ }
    · intro q u hq
      by_cases e : q = .heap j
      · subst e; rw [held_same] at hq; cases hq
      · rw [held_ne e] at hq
        have := h.text q u hq
        cases q with
        | pool y => exact this
        | heap i =>
          show (setStr c.heap j _ i).text = _ ∧ 0 < (setStr c.heap j _ i).cap
          rw [setStr_ne (by simpa using e)]
          exact this
    · intro x hx
      rw [held_ne (by simp)] at hx
      exact h.bit x hx
    · intro x hx hf
      rw [held_ne (by simp)]
      exact h.used x hx hf
    · intro i hi
      have hn := h.made i hi
      by_cases e : StrPtr.heap i = .heap j
      · rw [e, held_same]
      · rw [held_ne e]; exact hn
    · intro x hx ha
      rw [held_ne (by simp)]
      exact h.lost x hx ha
  | pool x =>
    obtain ⟨hx, hb⟩ := h.bit x hp
    cases hh : held (.pool x) with
    | none => exact absurd hh hp
    | some t =>
    obtain ⟨ht, hcap⟩ := h.text _ t hh
    change (c.pool x).text = some t at ht
    change 0 < (c.pool x).cap at hcap
    have hbit : ∀ y, statusBit (statusOff c.status x) y = (statusBit c.status y && !decide (y = x)) :=
      fun y => bit_off c.status x y (by rw [h.len]; omega)
    -- the string put back
    have hput : ∃ cap, 0 < cap ∧ (cacheRelease re c (.pool x)).pool x = ⟨some [], cap⟩ := by
      unfold cacheRelease
      simp only [setStr_same]
      by_cases e : (c.pool x).cap ≠ defaultCap
      · rw [if_pos e]
        cases re with
        | true => exact ⟨defaultCap, by decide, by simp [ht, show 0 < defaultCap by decide]⟩
        | false => exact ⟨(c.pool x).cap, hcap, by simp [ht, hcap]⟩
      · rw [if_neg e]
        exact ⟨(c.pool x).cap, hcap, by simp [ht, hcap]⟩
    have hoth : ∀ y, y ≠ x → (cacheRelease re c (.pool x)).pool y = c.pool y := fun y hy => setStr_ne hy
    have hst : (cacheRelease re c (.pool x)).status = statusOff c.status x := rfl
    refine { len := by rw [hst, statusOff_length]; exact h.len, text := ?_, bit := ?_, free := ?_, used := ?_, made := ?_, lost := ?_ }
    · intro q u hq
      by_cases e : q = .pool x
      · subst e; rw [held_same] at hq; cases hq
      · rw [held_ne e] at hq
        have := h.text q u hq
        cases q with
        | heap i => exact this
        | pool y =>
          show ((cacheRelease re c (.pool x)).pool y).text = _ ∧ 0 < ((cacheRelease re c (.pool x)).pool y).cap
          rw [hoth y (by simpa using e)]
          exact this
    · intro y hy
      have e : StrPtr.pool y ≠ .pool x := by
        intro e; rw [e, held_same] at hy; exact hy rfl
      rw [held_ne e] at hy
      obtain ⟨h1, h2⟩ := h.bit y hy
      refine ⟨h1, ?_⟩
      rw [hst, hbit, h2]
      simpa using e
    · intro y hy hf
      by_cases e : y = x
      · subst e
        obtain ⟨cap, h0, h1⟩ := hput
        rw [h1]
        exact ⟨rfl, h0⟩
      · rw [hst, hbit] at hf
        rw [hoth y e]
        exact h.free y hy (by simpa [e] using hf)
    · intro y hy hf
      rw [hst, hbit] at hf
      have e : y ≠ x := by
        rintro rfl
        simp at hf
      rw [held_ne (by simpa using e)]
      exact h.used y hy (by simpa [e] using hf)
    · intro i hi
      rw [held_ne (by simp)]
      exact h.made i hi
    · intro y hy ha
      have hl := h.lost y hy ha
      have e : y ≠ x := by rintro rfl; exact hp hl.2
      rw [held_ne (by simpa using e), hst, hbit, hl.1]
      exact ⟨by simp [e], hl.2⟩

theorem cacheHist_inv {al : Nat → Bool} {c : Cache} {held : HeldStrs} (h : CacheHist al c held) : CacheInv al c held := by
  induction h with
  | build => exact cacheBuild_inv al
  | acquire _ ih => exact (acquire_inv ih).1
  | write p t cap _ hp hc ih => exact write_inv ih p hp t cap hc
  | release p re _ hp ih => exact release_inv ih p hp re

/-- Over every history: a string acquired is not one of those held, it is empty, and the strings held are not touched. -/
theorem C35_acquire (al : Nat → Bool) (c : Cache) (held : HeldStrs) (h : CacheHist al c held) :
    held (cacheAcquire c).1 = none ∧ ((cacheAcquire c).2.get (cacheAcquire c).1).text = some [] ∧
      ∀ q, held q ≠ none → (cacheAcquire c).2.get q = c.get q := by
  obtain ⟨h1, h2, h3⟩ := acquire_inv (cacheHist_inv h)
  exact ⟨h2, (h1.text _ _ (held_same ..)).1, h3⟩

/-- Over every history: a string held contains what its holder last wrote into it, whatever happened to the others. -/
theorem C35_kept (al : Nat → Bool) (c : Cache) (held : HeldStrs) (h : CacheHist al c held) (p : StrPtr) (t : List Char)
    (hp : held p = some t) : (c.get p).text = some t := ((cacheHist_inv h).text p t hp).1

/-- Over every history: no string of the pool is lost.  As long as one that could be allocated is not held, a string of the pool is
handed out, so a new one is allocated only when all of them are held. -/
theorem C35_reused (al : Nat → Bool) (c : Cache) (held : HeldStrs) (h : CacheHist al c held) :
    (∃ x, x < 128 ∧ al x = true ∧ held (.pool x) = none) ↔ ∃ y, (cacheAcquire c).1 = .pool y := by
  have hi := cacheHist_inv h
  rcases acquire_cases hi with ⟨x, hx, hb, he⟩ | ⟨hall, he⟩
  · rw [he]
    refine iff_of_true ⟨x, hx, ?_, ?_⟩ ⟨x, rfl⟩
    · cases ha : al x with
      | true => rfl
      | false => have := (hi.lost x hx ha).1; rw [hb] at this; cases this
    · cases hh : held (.pool x) with
      | none => rfl
      | some t => have := (hi.bit x (by rw [hh]; simp)).2; rw [hb] at this; cases this
  · rw [he]
    refine iff_of_false ?_ (by simp)
    rintro ⟨x, hx, ha, hn⟩
    rcases hi.used x hx (hall x hx) with h1 | h1
    · exact h1 hn
    · rw [ha] at h1; cases h1

/-- A string acquired has room for some text, so that storing into it is possible without another allocation. -/
theorem C35_room (al : Nat → Bool) (c : Cache) (held : HeldStrs) (h : CacheHist al c held) :
    0 < ((cacheAcquire c).2.get (cacheAcquire c).1).cap :=
  ((acquire_inv (cacheHist_inv h)).1.text _ _ (held_same ..)).2

/-- A history: two strings are acquired, the first is written, released, and acquired again by someone else. -/
example : ∃ c held, CacheHist (fun _ => true) c held ∧ (held (.pool 0)).isSome ∧ (held (.pool 1)).isSome ∧ held (.pool 2) = none := by
  have h0 := CacheHist.build (al := fun _ => true)
  have h1 := h0.acquire
  have e0 : (cacheAcquire (cacheBuild fun _ => true)).1 = .pool 0 := by decide +kernel
  have h2 := h1.acquire
  have e1 : (cacheAcquire (cacheAcquire (cacheBuild fun _ => true)).2).1 = .pool 1 := by decide +kernel
  rw [e0, e1] at h2
  have h3 := CacheHist.write (.pool 0) "text".toList 512 h2 (by decide) (by decide)
  have h4 := CacheHist.release (.pool 0) false h3 (by decide)
  refine ⟨_, _, h4.acquire, ?_⟩
  have e2 : (cacheAcquire (cacheRelease false (cacheWrite (cacheAcquire (cacheAcquire (cacheBuild fun _ => true)).2).2 (.pool 0) "text".toList 512)
    (.pool 0))).1 = .pool 0 := by decide +kernel
  rw [e2]
  decide

end PBat
