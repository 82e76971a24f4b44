import Verif.Lemmas.EsGet
/-
C04 — reading a file line by line loses, merges and invents nothing.
-/
namespace PBat
open Spec

/-- The texts obtained by calling `pBat_EsGet` until it signals the end of input. -/
inductive Reads (g : Nat → Char) : Estr → List Char → List (List Char) → Prop
  | eof {e s rc e' r} : esGet g e s = .ok (rc, e', r) → rc ≠ 0 → Reads g e s []
  | line {e s e' r t ts} : esGet g e s = .ok (0, e', r) → cstr e'.str = some t → Reads g e' r ts →
      Reads g e s (t :: ts)

/-- Reading a stream whose lines hold at most 2^27 bytes terminates without undefined behaviour and
returns exactly its lines in order, each complete and normalised.  Any reading gives this result. -/
theorem C04_reads_lines (g : Nat → Char) (s : List Char) (e : Estr) (t0 : List Char) (h : Holds e t0)
    (hlen : e.len ≤ 2 ^ 28 ∨ s = []) (hnul : NUL ∉ s) (hb : ∀ l ∈ lines s, l.length ≤ 2 ^ 27)
    (texts : List (List Char)) :
    Reads g e s texts ↔ texts = (lines s).map normNL := by
  induction hls : lines s generalizing s e t0 texts with
  | nil =>
    have hs : s = [] := by
      have := lines_flatten s
      rw [hls] at this
      simpa using this.symm
    subst hs
    obtain ⟨e', h1, -⟩ := esGet_nil g e t0 h
    constructor
    · intro hr
      cases hr with
      | eof => rfl
      | line h2 =>
        rw [h1] at h2
        simp at h2
    · rintro rfl
      exact .eof h1 (by decide)
  | cons l ls ih =>
    have hsne : s ≠ [] := by rintro rfl; simp [lines] at hls
    obtain ⟨e', h1, h2, h3⟩ := esGet_line g s hnul e t0 l ls hls h (hlen.resolve_right hsne)
      (hb l (by rw [hls]; simp))
    have hfl : l ++ ls.flatten = s := by rw [← lines_flatten s, hls]; simp
    have hlr : lines ls.flatten = ls := by
      have hs2 : s = l ++ ls.flatten := hfl.symm
      by_cases hl : '\n' ∈ l
      · -- the first line of `lines s` ends at its first line feed
        have key : ∀ (u : List Char) l ls, lines u = l :: ls → '\n' ∈ l →
            ∃ a, '\n' ∉ a ∧ l = a ++ ['\n'] := by
          intro u
          induction u with
          | nil => intro l ls hu; simp [lines] at hu
          | cons c cs ihu =>
            intro l ls hu hm
            simp only [lines] at hu
            split at hu
            · simp at hu; exact ⟨[], by simp, hu.1.symm⟩
            · next hc =>
              split at hu
              · simp at hu
                rw [← hu.1] at hm
                simp at hm
                exact absurd hm.symm hc
              · next l2 ls2 hu2 =>
                simp at hu
                rw [← hu.1] at hm
                simp at hm
                rcases hm with hm | hm
                · exact absurd hm.symm hc
                · obtain ⟨a, ha1, ha2⟩ := ihu l2 ls2 hu2 hm
                  exact ⟨c :: a, by simp [ha1, Ne.symm hc], by rw [← hu.1, ha2]; rfl⟩
        obtain ⟨a, ha1, ha2⟩ := key s l ls hls hl
        have := lines_lf a ls.flatten ha1
        rw [show a ++ '\n' :: ls.flatten = s by rw [hs2, ha2]; simp, hls] at this
        simp at this
        exact this.2.symm
      · -- no line feed in the first line: it is the last one
        have key : ∀ (u : List Char) l ls, lines u = l :: ls → '\n' ∉ l → ls = [] := by
          intro u
          induction u with
          | nil => intro l ls hu; simp [lines] at hu
          | cons c cs ihu =>
            intro l ls hu hm
            simp only [lines] at hu
            split at hu
            · simp at hu; rw [← hu.1] at hm; simp at hm
            · split at hu
              · simp at hu; exact hu.2
              · next l2 ls2 hu2 =>
                simp at hu
                rw [← hu.1] at hm
                simp at hm
                rw [← hu.2]
                exact ihu l2 ls2 hu2 hm.2
        rw [key s l ls hls hl]; rfl
    have hnul2 : NUL ∉ ls.flatten := fun hm => hnul (by rw [← hfl]; exact List.mem_append_right _ hm)
    have hb2 : ∀ l ∈ lines ls.flatten, l.length ≤ 2 ^ 27 := by
      rw [hlr]; intro l' hl'; exact hb l' (by rw [hls]; simp [hl'])
    have hlen2 : e'.len ≤ 2 ^ 28 ∨ ls.flatten = [] := by
      rcases h3 with h3 | h3
      · exact Or.inl h3
      · right; rw [h3]; rfl
    constructor
    · intro hr
      cases hr with
      | eof h4 h5 =>
        rw [h1] at h4
        simp at h4
        exact absurd h4.1.symm h5
      | line h4 h5 h6 =>
        rw [h1] at h4
        simp at h4
        obtain ⟨rfl, rfl⟩ := h4
        have := (ih ls.flatten e' (normNL l) h2 hlen2 hnul2 hb2 _ hlr).1 h6
        rw [h2.cstr] at h5
        simp at h5
        rw [this, ← h5]
        simp
    · rintro rfl
      exact .line h1 h2.cstr ((ih ls.flatten e' (normNL l) h2 hlen2 hnul2 hb2 _ hlr).2 rfl)

/-- Concatenating the texts read gives the whole stream, normalised. -/
theorem C04_concat (s : List Char) : ((lines s).map normNL).flatten = normNL s := by
  have key : ∀ (n : Nat) (s : List Char), s.length = n → ((lines s).map normNL).flatten = normNL s := by
    intro n
    induction n using Nat.strongRecOn with
    | _ n ih =>
      intro s hn
      by_cases hm : '\n' ∈ s
      · obtain ⟨a, b, rfl, ha⟩ := List.append_of_mem hm |>.elim (fun a h => by
          obtain ⟨b, hb⟩ := h
          have : ∃ a b, s = a ++ '\n' :: b ∧ '\n' ∉ a := by
            clear ih hn hb
            induction s with
            | nil => simp at hm
            | cons c cs ih2 =>
              by_cases hc : c = '\n'
              · exact ⟨[], cs, by simp [hc], by simp⟩
              · have : '\n' ∈ cs := by
                  rcases List.mem_cons.1 hm with h | h
                  · exact absurd h.symm hc
                  · exact h
                obtain ⟨a, b, h1, h2⟩ := ih2 this
                exact ⟨c :: a, b, by simp [h1], by simp [h2, Ne.symm hc]⟩
          exact this)
        rw [lines_lf a b ha, List.map_cons, List.flatten_cons, ih b.length (by rw [← hn]; simp; omega) b rfl,
          ← normNL_append_lf]
      · cases s with
        | nil => rfl
        | cons c cs => rw [lines_last _ hm (by simp)]; simp
  exact key _ s rfl

/-- When every carriage return is followed by a line feed, what is read is exactly the sequence of lines
of the normalised stream.  Missing from the full claim: lone carriage returns (see
`C04_lone_cr_merges_lines`) and lines longer than 2^27 bytes. -/
theorem C04_lines_partial (g : Nat → Char) (s : List Char) (e : Estr) (t0 : List Char) (h : Holds e t0)
    (hlen : e.len ≤ 2 ^ 28) (hnul : NUL ∉ s) (hb : ∀ l ∈ lines s, l.length ≤ 2 ^ 27)
    (hcr : ∀ i, s[i]? = some '\r' → s[i + 1]? = some '\n') (texts : List (List Char)) :
    Reads g e s texts ↔ texts = lines (normNL s) := by
  rw [C04_reads_lines g s e t0 h (Or.inl hlen) hnul hb]
  suffices (lines s).map normNL = lines (normNL s) by rw [this]
  clear hb hnul
  have key : ∀ (n : Nat) (s : List Char), s.length = n → (∀ i, s[i]? = some '\r' → s[i + 1]? = some '\n') →
      (lines s).map normNL = lines (normNL s) := by
    intro n
    induction n using Nat.strongRecOn with
    | _ n ih =>
      intro s hn hcr
      match s, hn, hcr with
      | [], _, _ => rfl
      | [c], _, hcr =>
        by_cases hc : c = '\r'
        · have := hcr 0 (by simp [hc]); simp at this
        · by_cases hl : c = '\n'
          · subst hl; rfl
          · simp [lines, normNL, hc, hl]
      | c :: d :: r, hn, hcr =>
        simp only [List.length_cons] at hn
        have hr := ih r.length (by omega) r rfl (fun i hi => by simpa using hcr (i + 2) (by simpa using hi))
        have hd := ih (d :: r).length (by simp; omega) (d :: r) rfl
          (fun i hi => by simpa using hcr (i + 1) (by simpa using hi))
        by_cases hc : c = '\r'
        · have h1 := hcr 0 (by simp [hc])
          simp at h1
          subst hc h1
          simp only [normNL, if_true]
          rw [lines]
          simp only [lines, if_true]
          simp [normNL, hr]
        · simp only [normNL, hc, if_false]
          by_cases hl : c = '\n'
          · subst hl
            rw [lines_cons '\n' (d :: r), lines_cons '\n' (normNL (d :: r))]
            simp only [if_true, List.map_cons, hd]
            rfl
          · rw [lines_cons c (d :: r), lines_cons c (normNL (d :: r))]
            simp only [hl, if_false]
            rw [← hd]
            cases hld : lines (d :: r) with
            | nil => exact absurd hld (lines_ne_nil d r)
            | cons l ls =>
              simp only [List.map_cons]
              congr 1
              cases l with
              | nil => exact absurd hld (fun h => lines_head_ne h)
              | cons x xs => simp [normNL, hc]
  exact key _ s rfl hcr

/-- A lone carriage return is turned into a line feed but does not end the line: the two lines it
separates are returned merged in one reading. -/
theorem C04_lone_cr_merges_lines (g : Nat → Char) :
    Reads g (esInit g) ['a', '\r', 'b', '\n'] [['a', '\n', 'b', '\n']] := by
  rw [C04_reads_lines g _ _ [] (Holds_init g) (Or.inl (by simp [esInit])) (by decide) (by decide)]
  decide

/-- Non-vacuity: two lines, the first ended by CR LF, the second unterminated. -/
example (g : Nat → Char) : Reads g (esInit g) ['a', '\r', '\n', 'b'] [['a', '\n'], ['b']] := by
  rw [C04_reads_lines g _ _ [] (Holds_init g) (Or.inl (by simp [esInit])) (by decide) (by decide)]
  decide

end PBat
