import Verif.Model.For
import Verif.Spec.For
/-
Lemmas on FOR.
-/
namespace PBat
open Spec

variable {D : List Char}

theorem strpbrk_seg_clean {p : Char → Bool} {s : List Char} (h : ∀ c ∈ s, p c = false) : strpbrk p s = (s, []) := by
  induction s with
  | nil => rfl
  | cons c s ih => simp [strpbrk, h c (by simp), ih (fun x hx => h x (by simp [hx]))]

theorem strpbrk_seg_hit {p : Char → Bool} {s : List Char} (h : ∀ c ∈ s, p c = false) {d : Char} (hd : p d = true) (r : List Char) :
    strpbrk p (s ++ d :: r) = (s, d :: r) := by
  induction s with
  | nil => simp [strpbrk, hd]
  | cons c s ih => simp [strpbrk, h c (by simp), ih (fun x hx => h x (by simp [hx]))]

/-- The three shapes of a line. -/
theorem line_cases (D s : List Char) : (∀ c ∈ s, c ∉ D) ∨ (∃ d r, s = d :: r ∧ d ∈ D) ∨
    (∃ seg d r, s = seg ++ d :: r ∧ seg ≠ [] ∧ (∀ c ∈ seg, c ∉ D) ∧ d ∈ D) := by
  induction s with
  | nil => left; simp
  | cons c s ih =>
    by_cases hc : c ∈ D
    · exact .inr (.inl ⟨c, s, rfl, hc⟩)
    · rcases ih with h | ⟨d, r, rfl, hd⟩ | ⟨seg, d, r, rfl, _, hs, hd⟩
      · left
        intro x hx
        rcases List.mem_cons.1 hx with rfl | hx
        · exact hc
        · exact h x hx
      · exact .inr (.inr ⟨[c], d, r, rfl, by simp, by simpa using hc, hd⟩)
      · refine .inr (.inr ⟨c :: seg, d, r, rfl, by simp, ?_, hd⟩)
        intro x hx
        rcases List.mem_cons.1 hx with rfl | hx
        · exact hc
        · exact hs x hx

theorem fields_delim {d : Char} (hd : d ∈ D) (r : List Char) : fields D (d :: r) = fields D r := by
  rw [fields, if_pos hd]

theorem fields_clean {s : List Char} (h : ∀ c ∈ s, c ∉ D) : fields D s = if s = [] then [] else [s] := by
  cases s with
  | nil => rw [fields]; simp
  | cons c r =>
    rw [fields, if_neg (h c (by simp)), if_neg (by simp)]
    have hr : ∀ x ∈ r, decide (x ∉ D) = true := fun x hx => by simpa using h x (by simp [hx])
    have ht : r.takeWhile (fun x => decide (x ∉ D)) = r := by
      have := List.takeWhile_append_of_pos (l₂ := []) hr
      simpa using this
    have hd : r.dropWhile (fun x => decide (x ∉ D)) = [] := by
      have := List.dropWhile_append_of_pos (l₂ := []) hr
      simpa using this
    rw [ht, hd, fields]

theorem fields_seg {seg : List Char} (hne : seg ≠ []) (h : ∀ c ∈ seg, c ∉ D) {d : Char} (hd : d ∈ D) (r : List Char) :
    fields D (seg ++ d :: r) = seg :: fields D r := by
  cases seg with
  | nil => exact absurd rfl hne
  | cons c s =>
    rw [List.cons_append, fields, if_neg (h c (by simp))]
    have hr : ∀ x ∈ s, decide (x ∉ D) = true := fun x hx => by simpa using h x (by simp [hx])
    rw [List.takeWhile_append_of_pos hr, List.dropWhile_append_of_pos hr, List.takeWhile_cons_of_neg (by simpa using hd),
      List.dropWhile_cons_of_neg (by simpa using hd), fields_delim hd, List.append_nil]

theorem fields_nil : fields D [] = [] := by rw [fields]

theorem fields_join {d : Char} (hd : d ∈ D) (p s : List Char) :
    fields D (p ++ d :: s) = fields D p ++ fields D s := by
  induction hp : p.length using Nat.strongRecOn generalizing p with
  | _ l ih =>
    rcases line_cases D p with hc | ⟨d', r', rfl, hd'⟩ | ⟨seg, d', r', rfl, hne, hseg, hd'⟩
    · by_cases hp0 : p = []
      · subst hp0
        rw [List.nil_append, fields_delim hd, fields_nil, List.nil_append]
      · rw [fields_seg hp0 hc hd, fields_clean hc, if_neg hp0]; rfl
    · rw [List.cons_append, fields_delim hd', fields_delim hd']
      exact ih _ (by simp at hp; omega) _ rfl
    · rw [List.append_assoc, List.cons_append, fields_seg hne hseg hd', fields_seg hne hseg hd',
        ih _ (by simp at hp; omega) r' rfl]
      rfl

variable {s pre tok suf : List Char} {k : Nat}

theorem FieldAt_clean (hs : ∀ c ∈ s, c ∉ D) (h : FieldAt D s k pre tok suf) : k = 1 ∧ pre = [] ∧ tok = s ∧ suf = [] := by
  have hw := h.whole
  have hpre : pre = [] := by
    cases hl : pre.getLast? with
    | none => exact List.getLast?_eq_none_iff.1 hl
    | some c => exact absurd (h.left c hl) (hs c (by rw [hw]; simp [List.mem_of_getLast? hl]))
  have hsuf : suf = [] := by
    cases suf with
    | nil => rfl
    | cons c r => exact absurd (h.right c rfl) (hs c (by rw [hw]; simp))
  subst hpre hsuf
  have := h.before
  rw [fields] at this
  simp at this hw
  exact ⟨this.symm, rfl, hw.symm, rfl⟩

theorem FieldAt_delim {d : Char} {r : List Char} (hd : d ∈ D) (h : FieldAt D (d :: r) k pre tok suf) :
    ∃ pre', pre = d :: pre' ∧ FieldAt D r k pre' tok suf := by
  have hw := h.whole
  cases pre with
  | nil =>
    cases tok with
    | nil => exact absurd rfl h.nonempty
    | cons c t =>
      simp at hw
      exact absurd (hw.1 ▸ hd) (h.clean c (by simp))
  | cons c pre' =>
    simp at hw
    obtain ⟨rfl, hw⟩ := hw
    refine ⟨pre', rfl, by rw [hw]; simp, h.nonempty, h.clean, ?_, h.right, ?_⟩
    · intro x hx
      refine h.left x ?_
      rw [List.getLast?_cons, hx]
      rfl
    · have := h.before
      rwa [fields_delim hd] at this

theorem FieldAt_seg {seg : List Char} (hne : seg ≠ []) (hseg : ∀ c ∈ seg, c ∉ D) {d : Char} (hd : d ∈ D) {r : List Char}
    (h : FieldAt D (seg ++ d :: r) k pre tok suf) :
    (k = 1 ∧ pre = [] ∧ tok = seg ∧ suf = d :: r) ∨
    (∃ pre', pre = seg ++ d :: pre' ∧ 2 ≤ k ∧ FieldAt D r (k - 1) pre' tok suf) := by
  have hw := h.whole
  rw [List.append_assoc] at hw
  cases hp : pre with
  | nil =>
    left
    subst hp
    have hb := h.before
    rw [fields] at hb
    simp at hb hw
    refine ⟨hb.symm, rfl, ?_⟩
    rcases List.append_eq_append_iff.1 hw with ⟨x, h1, h2⟩ | ⟨x, h1, h2⟩
    · cases x with
      | nil => simp at h1 h2; exact ⟨h1, h2.symm⟩
      | cons y x =>
        simp at h2
        exact absurd (h2.1 ▸ hd) (h.clean y (by rw [h1]; simp))
    · cases x with
      | nil => simp at h1 h2; exact ⟨h1.symm, h2⟩
      | cons y x =>
        exact absurd (h.right y (by rw [h2]; rfl)) (hseg y (by rw [h1]; simp))
  | cons p0 p1 =>
    right
    rw [← hp]
    have hex : ∃ x ∈ pre, x ∈ D := by
      have : pre.getLast? = some (pre.getLast (by simp [hp])) := List.getLast?_eq_some_getLast (by simp [hp])
      exact ⟨_, List.mem_of_getLast? this, h.left _ this⟩
    have : ∃ pre', pre = seg ++ d :: pre' ∧ r = pre' ++ (tok ++ suf) := by
      rcases List.append_eq_append_iff.1 hw with ⟨x, h1, h2⟩ | ⟨x, h1, h2⟩
      · cases x with
        | nil =>
          obtain ⟨y, hy, hyD⟩ := hex
          exact absurd hyD (hseg y (by simpa [h1] using hy))
        | cons y x =>
          simp at h2
          exact ⟨x, by rw [h1, h2.1], h2.2⟩
      · obtain ⟨y, hy, hyD⟩ := hex
        exact absurd hyD (hseg y (by simp [h1, hy]))
    obtain ⟨pre', h1, h2⟩ := this
    have hb := h.before
    rw [h1, fields_seg hne hseg hd] at hb
    simp at hb
    refine ⟨pre', h1, by omega, by rw [h2]; simp, h.nonempty, h.clean, ?_, h.right, by omega⟩
    intro x hx
    refine h.left x ?_
    rw [h1, List.getLast?_append, List.getLast?_cons, hx]
    rfl

theorem FieldAt_pos (h : FieldAt D s k pre tok suf) : 1 ≤ k := by have := h.before; omega

theorem FieldAt_getElem (h : FieldAt D s k pre tok suf) : (fields D s)[k - 1]? = some tok := by
  induction hn : s.length using Nat.strongRecOn generalizing s k pre with
  | _ n ih =>
    rcases line_cases D s with hs | ⟨d, r, rfl, hd⟩ | ⟨seg, d, r, rfl, hne, hseg, hd⟩
    · obtain ⟨rfl, rfl, rfl, rfl⟩ := FieldAt_clean hs h
      rw [fields_clean hs, if_neg h.nonempty]
      rfl
    · obtain ⟨pre', _, h'⟩ := FieldAt_delim hd h
      rw [fields_delim hd]
      exact ih _ (by simp at hn; omega) h' rfl
    · rw [fields_seg hne hseg hd]
      rcases FieldAt_seg hne hseg hd h with ⟨rfl, rfl, rfl, rfl⟩ | ⟨pre', _, hk, h'⟩
      · rfl
      · have := ih _ (by simp at hn; omega) h' rfl
        have e : k - 1 = (k - 1 - 1) + 1 := by omega
        rw [e, List.getElem?_cons_succ]
        exact this

theorem FieldAt_exists (D s : List Char) (k : Nat) (h1 : 1 ≤ k) (h2 : k ≤ (fields D s).length) :
    ∃ pre tok suf, FieldAt D s k pre tok suf := by
  induction hn : s.length using Nat.strongRecOn generalizing s k with
  | _ n ih =>
    rcases line_cases D s with hs | ⟨d, r, rfl, hd⟩ | ⟨seg, d, r, rfl, hne, hseg, hd⟩
    · rw [fields_clean hs] at h2
      split at h2
      · simp at h2; omega
      · next hne =>
        simp at h2
        refine ⟨[], s, [], by simp, hne, hs, by simp, by simp, ?_⟩
        rw [fields]
        simp
        omega
    · rw [fields_delim hd] at h2
      obtain ⟨pre, tok, suf, h⟩ := ih _ (by simp at hn; omega) r k h1 h2 rfl
      refine ⟨d :: pre, tok, suf, by rw [h.whole]; simp, h.nonempty, h.clean, ?_, h.right, by rw [fields_delim hd]; exact h.before⟩
      intro x hx
      rw [List.getLast?_cons] at hx
      cases hp : pre.getLast? with
      | none => simp [hp] at hx; rw [← hx]; exact hd
      | some y => simp [hp] at hx; rw [← hx]; exact h.left y hp
    · rw [fields_seg hne hseg hd] at h2
      by_cases hk : k = 1
      · subst hk
        exact ⟨[], seg, d :: r, by simp, hne, hseg, by simp, by simpa using hd, by rw [fields]; rfl⟩
      · simp at h2
        obtain ⟨pre, tok, suf, h⟩ := ih _ (by simp at hn; omega) r (k - 1) (by omega) (by omega) rfl
        refine ⟨seg ++ d :: pre, tok, suf, by rw [h.whole]; simp, h.nonempty, h.clean, ?_, h.right, ?_⟩
        · intro x hx
          rw [List.getLast?_append, List.getLast?_cons] at hx
          cases hp : pre.getLast? with
          | none => simp [hp] at hx; rw [← hx]; exact hd
          | some y => simp [hp] at hx; rw [← hx]; exact h.left y hp
        · rw [fields_seg hne hseg hd]
          have := h.before
          simp
          omega

variable {b e pos : Nat} {beg : Option (List Char)}

theorem scan_clean (hs : ∀ c ∈ s, c ∉ D) :
    forTokenScan D b e pos beg s = (if pos = b ∧ beg = none then some s else beg, none) := by
  rw [forTokenScan]
  have := strpbrk_seg_clean (p := (D.contains ·)) (s := s) (by simpa using hs)
  split
  · rfl
  all_goals
    next h => rw [this] at h; simp at h

theorem scan_delim {d : Char} {r : List Char} (hd : d ∈ D) :
    forTokenScan D b e pos beg (d :: r) = forTokenScan D b e pos beg r := by
  rw [forTokenScan]
  have := strpbrk_seg_hit (p := (D.contains ·)) (s := []) (by simp) (d := d) (by simpa using hd) r
  rw [List.nil_append] at this
  split
  · next h => rw [this] at h; simp at h
  · next h => rw [this] at h; simp at h; rw [h.2]
  · next h => rw [this] at h; simp at h

theorem scan_seg {seg : List Char} (hne : seg ≠ []) (hseg : ∀ c ∈ seg, c ∉ D) {d : Char} {r : List Char} (hd : d ∈ D) :
    forTokenScan D b e pos beg (seg ++ d :: r) =
      if pos = e then (if pos = b then some (seg ++ d :: r) else beg, some (d :: r))
      else forTokenScan D b e (pos + 1) (if pos = b then some (seg ++ d :: r) else beg) r := by
  rw [forTokenScan]
  have := strpbrk_seg_hit (p := (D.contains ·)) (s := seg) (by simpa using hseg) (d := d) (by simpa using hd) r
  split
  · next h => rw [this] at h; simp at h
  · next h => rw [this] at h; simp at h; exact absurd h.1 hne
  · next x y d' r' h =>
    rw [this] at h
    simp at h
    obtain ⟨-, rfl, rfl⟩ := h
    simp only
    split
    · by_cases hb : pos = b <;> simp [hb]
    · rfl

/-- Past the beginning, with the end at the `k`-th field of the rest. -/
theorem scan_end {x : List Char} (hpos : b < pos) (h : FieldAt D s k pre tok suf) (hk : pos + k = e + 1) :
    forTokenScan D b e pos (some x) s = (some x, if suf = [] then none else some suf) := by
  induction hn : s.length using Nat.strongRecOn generalizing s k pre pos with
  | _ n ih =>
    rcases line_cases D s with hs | ⟨d, r, rfl, hd⟩ | ⟨seg, d, r, rfl, hne, hseg, hd⟩
    · obtain ⟨rfl, rfl, rfl, rfl⟩ := FieldAt_clean hs h
      rw [scan_clean hs, if_neg (by simp), if_pos rfl]
    · obtain ⟨pre', _, h'⟩ := FieldAt_delim hd h
      rw [scan_delim hd]
      exact ih _ (by simp at hn; omega) hpos h' hk rfl
    · rw [scan_seg hne hseg hd]
      rcases FieldAt_seg hne hseg hd h with ⟨rfl, rfl, rfl, rfl⟩ | ⟨pre', _, hk2, h'⟩
      · rw [if_pos (by omega), if_neg (by omega), if_neg (by simp)]
      · rw [if_neg (by omega), if_neg (by omega)]
        exact ih _ (by simp at hn; omega) (by omega) h' (by omega) rfl

/-- Past the beginning, with the end beyond the last field. -/
theorem scan_no_end {x : List Char} (hpos : b < pos) (h : pos + (fields D s).length ≤ e ∨ e < pos) :
    forTokenScan D b e pos (some x) s = (some x, none) := by
  induction hn : s.length using Nat.strongRecOn generalizing s pos with
  | _ n ih =>
    rcases line_cases D s with hs | ⟨d, r, rfl, hd⟩ | ⟨seg, d, r, rfl, hne, hseg, hd⟩
    · rw [scan_clean hs, if_neg (by simp)]
    · rw [scan_delim hd]
      rw [fields_delim hd] at h
      exact ih _ (by simp at hn; omega) hpos h rfl
    · rw [scan_seg hne hseg hd]
      rw [fields_seg hne hseg hd] at h
      simp at h
      rw [if_neg (by omega), if_neg (by omega)]
      exact ih _ (by simp at hn; omega) (by omega) (by omega) rfl

/-- Up to the beginning. -/
theorem scan_begin (h : FieldAt D s k pre tok suf) (hk : pos + k = b + 1) (hbe : b ≤ e ∨ e < pos) :
    forTokenScan D b e pos none s =
      if b = e then (some (tok ++ suf), if suf = [] then none else some suf)
      else if suf = [] then (some tok, none)
      else forTokenScan D b e (b + 1) (some (tok ++ suf)) suf.tail := by
  induction hn : s.length using Nat.strongRecOn generalizing s k pre pos with
  | _ n ih =>
    have hk1 := FieldAt_pos h
    rcases line_cases D s with hs | ⟨d, r, rfl, hd⟩ | ⟨seg, d, r, rfl, hne, hseg, hd⟩
    · obtain ⟨rfl, rfl, rfl, rfl⟩ := FieldAt_clean hs h
      rw [scan_clean hs, if_pos (by simp; omega)]
      split <;> simp
    · obtain ⟨pre', _, h'⟩ := FieldAt_delim hd h
      rw [scan_delim hd]
      exact ih _ (by simp at hn; omega) h' hk hbe rfl
    · rw [scan_seg hne hseg hd]
      rcases FieldAt_seg hne hseg hd h with ⟨rfl, rfl, rfl, rfl⟩ | ⟨pre', _, hk2, h'⟩
      · have e1 : pos = b := by omega
        subst e1
        split
        · next h2 => subst h2; simp
        · next h2 => simp
      · rw [if_neg (by omega), if_neg (by omega)]
        exact ih _ (by simp at hn; omega) h' (by omega) (by omega) rfl

/-- The beginning lies beyond the last field. -/
theorem scan_no_begin (h : pos + (fields D s).length ≤ b) :
    (forTokenScan D b e pos none s).1 = none ∨ (forTokenScan D b e pos none s) = (some [], none) := by
  induction hn : s.length using Nat.strongRecOn generalizing s pos with
  | _ n ih =>
    rcases line_cases D s with hs | ⟨d, r, rfl, hd⟩ | ⟨seg, d, r, rfl, hne, hseg, hd⟩
    · rw [scan_clean hs]
      rw [fields_clean hs] at h
      split
      · next hp =>
        right
        split at h
        · next hs0 => rw [hs0]
        · simp at h; omega
      · left; rfl
    · rw [scan_delim hd]
      rw [fields_delim hd] at h
      exact ih _ (by simp at hn; omega) h rfl
    · rw [scan_seg hne hseg hd]
      rw [fields_seg hne hseg hd] at h
      simp at h
      simp only [show ¬ pos = b by omega, if_false]
      split
      · left; rfl
      · exact ih _ (by simp at hn; omega) (by omega) rfl

end PBat

namespace PBat
open Spec

/-- A later field lies in the text behind an earlier one. -/
theorem FieldAt_split {D s pre tok suf pre' tok' suf' : List Char} {n m : Nat} (h : FieldAt D s n pre tok suf)
    (h' : FieldAt D s m pre' tok' suf') (hnm : n < m) :
    ∃ d r pre'', suf = d :: r ∧ pre' = pre ++ tok ++ d :: pre'' ∧ FieldAt D r (m - n) pre'' tok' suf' := by
  induction hl : s.length using Nat.strongRecOn generalizing s n m pre pre' with
  | _ l ih =>
    rcases line_cases D s with hs | ⟨d, r, rfl, hd⟩ | ⟨seg, d, r, rfl, hne, hseg, hd⟩
    · have a1 := FieldAt_clean hs h
      have a2 := FieldAt_clean hs h'
      omega
    · obtain ⟨p1, rfl, h1⟩ := FieldAt_delim hd h
      obtain ⟨p2, rfl, h2⟩ := FieldAt_delim hd h'
      obtain ⟨d', r', p3, e1, e2, h3⟩ := ih _ (by simp at hl; omega) h1 h2 hnm rfl
      exact ⟨d', r', p3, e1, by simp [e2], h3⟩
    · have k1 := FieldAt_pos h
      rcases FieldAt_seg hne hseg hd h with ⟨rfl, rfl, rfl, rfl⟩ | ⟨p1, rfl, hn2, h1⟩
      · rcases FieldAt_seg hne hseg hd h' with ⟨rfl, rfl, rfl, rfl⟩ | ⟨p2, rfl, hm2, h2⟩
        · omega
        · exact ⟨d, r, p2, rfl, by simp, h2⟩
      · rcases FieldAt_seg hne hseg hd h' with ⟨rfl, rfl, rfl, rfl⟩ | ⟨p2, rfl, hm2, h2⟩
        · omega
        · obtain ⟨d', r', p3, e1, e2, h3⟩ := ih _ (by simp at hl; omega) h1 h2 (by omega) rfl
          refine ⟨d', r', p3, e1, by simp [e2], ?_⟩
          have : m - 1 - (n - 1) = m - n := by omega
          rwa [this] at h3

theorem FieldAt_unique {D s pre tok suf pre' tok' suf' : List Char} {n : Nat} (h : FieldAt D s n pre tok suf)
    (h' : FieldAt D s n pre' tok' suf') : pre = pre' ∧ tok = tok' ∧ suf = suf' := by
  induction hl : s.length using Nat.strongRecOn generalizing s n pre pre' with
  | _ l ih =>
    rcases line_cases D s with hs | ⟨d, r, rfl, hd⟩ | ⟨seg, d, r, rfl, hne, hseg, hd⟩
    · obtain ⟨-, rfl, rfl, rfl⟩ := FieldAt_clean hs h
      obtain ⟨-, rfl, rfl, rfl⟩ := FieldAt_clean hs h'
      exact ⟨rfl, rfl, rfl⟩
    · obtain ⟨p1, rfl, h1⟩ := FieldAt_delim hd h
      obtain ⟨p2, rfl, h2⟩ := FieldAt_delim hd h'
      obtain ⟨e1, e2, e3⟩ := ih _ (by simp at hl; omega) h1 h2 rfl
      exact ⟨by rw [e1], e2, e3⟩
    · rcases FieldAt_seg hne hseg hd h with ⟨rfl, rfl, rfl, rfl⟩ | ⟨p1, rfl, hn2, h1⟩
      · rcases FieldAt_seg hne hseg hd h' with ⟨-, rfl, rfl, rfl⟩ | ⟨p2, rfl, hm2, h2⟩
        · exact ⟨rfl, rfl, rfl⟩
        · omega
      · rcases FieldAt_seg hne hseg hd h' with ⟨rfl, rfl, rfl, rfl⟩ | ⟨p2, rfl, hm2, h2⟩
        · omega
        · obtain ⟨e1, e2, e3⟩ := ih _ (by simp at hl; omega) h1 h2 rfl
          exact ⟨by rw [e1], e2, e3⟩

end PBat
