import Verif.Spec.Cu8Read
/-
C94: reading a text file.
-/
namespace PBat.Spec
open PBat.Cu8

theorem oneLine_nil (n : Nat) : oneLine n [] = [] := by cases n <;> rfl

theorem oneLine_length (n : Nat) (t : List Nat) : (oneLine n t).length ≤ n := by
  induction t generalizing n with
  | nil => simp [oneLine_nil]
  | cons b t ih =>
    cases n with
    | zero => simp [oneLine]
    | succ n => rw [oneLine]; split <;> simp [ih n]

theorem oneLine_prefix (n : Nat) (t : List Nat) : oneLine n t <+: t := by
  induction t generalizing n with
  | nil => simp [oneLine_nil]
  | cons b t ih =>
    cases n with
    | zero => simp [oneLine]
    | succ n =>
      rw [oneLine]
      split
      · simp
      · exact List.cons_prefix_cons.2 ⟨rfl, ih n⟩

theorem oneLine_ne {n : Nat} {t : List Nat} (hn : n ≠ 0) (ht : t ≠ []) : oneLine n t ≠ [] := by
  cases n with
  | zero => exact absurd rfl hn
  | succ n =>
    cases t with
    | nil => exact absurd rfl ht
    | cons b t => rw [oneLine]; split <;> simp

/-- Bytes without an end of line in front. -/
theorem oneLine_append {u : List Nat} (hu : 10 ∉ u) (n : Nat) (t : List Nat) :
    oneLine n (u ++ t) = u.take n ++ oneLine (n - u.length) t := by
  induction u generalizing n with
  | nil => simp
  | cons b u ih =>
    simp only [List.mem_cons, not_or] at hu
    cases n with
    | zero => simp [oneLine]
    | succ n =>
      simp only [List.cons_append, oneLine, List.take_succ_cons, List.length_cons, Nat.add_sub_add_right]
      rw [if_neg (fun e => hu.1 e.symm), ih hu.2]

/-- The bytes of a character, one after the other. -/
theorem readfile_glyph {cd : Codec} {g : CuGlyph} (hg : Encodes cd g) (rest : List Nat) (size : Nat) (remain : List Nat) :
    ∀ (q p : List Nat), q ≠ [] → p ++ q = g.file → readfile cd (q ++ rest) p (size + 1) remain =
      (let w := writeBuffered (size + 1) g.utf8 remain
       if g.utf8 = [10] then (some w.1, { file := rest, remain := w.2.2 })
       else
        let r := readfile cd rest [] w.2.1 w.2.2
        (r.1.map (w.1 ++ ·), r.2)) := by
  intro q
  induction q with
  | nil => intro p h; exact absurd rfl h
  | cons b q ih =>
    intro p _ hp
    have hlen : p.length + (q.length + 1) = g.file.length := by rw [← hp]; simp
    have hs := hg.short
    rw [List.cons_append, readfile, if_neg (by rw [filenameMax]; omega)]
    by_cases hq : q = []
    · subst hq
      rw [hp, hg.whole]
      cases hu : g.utf8 with
      | nil => exact absurd hu hg.utf8
      | cons u us =>
        simp only [List.nil_append]
        by_cases h10 : u = 10
        · have := hg.newline (by rw [hu, h10]; simp)
          rw [hu] at this
          rw [if_pos h10, if_pos this]
        · rw [if_neg h10, if_neg (by intro e; injection e with e; exact h10 e)]
    · have hd := hg.parts (p ++ [b]) (by simp)
        (by intro e; rw [← hp] at e; exact hq (by have := List.append_cancel_left e; simpa using this.symm))
        ⟨q, by rw [← hp]; simp⟩
      rw [hd]
      exact ih (p ++ [b]) hq (by rw [← hp]; simp)

/-- The characters of a text. -/
def Encoded (cd : Codec) (t : List CuGlyph) : Prop := ∀ g ∈ t, Encodes cd g

/-- The last character is one byte of UTF-8. -/
def EndsPlain (t : List CuGlyph) : Prop := ∀ g, t.getLast? = some g → g.utf8.length = 1

theorem EndsPlain.tail {g : CuGlyph} {t : List CuGlyph} (h : EndsPlain (g :: t)) : EndsPlain t := by
  intro x hx
  cases t with
  | nil => cases hx
  | cons y t => exact h x (by simpa [List.getLast?_cons_cons] using hx)

/-- What is left after reading. -/
structure Left (cd : Codec) (t : List CuGlyph) (got : List Nat) (f : Stream) (t' : List CuGlyph) : Prop where
  enc : Encoded cd t'
  text : got ++ (f.remain ++ cuText t') = cuText t
  file : f.file = cuFile t'
  line : 10 ∉ f.remain
  eof : f.eof = true → t' = [] ∧ f.remain = []
  plain : EndsPlain t → EndsPlain t' ∧ (f.remain ≠ [] → t' ≠ [])

theorem cuText_cons (g : CuGlyph) (t : List CuGlyph) : cuText (g :: t) = g.utf8 ++ cuText t := rfl
theorem cuFile_cons (g : CuGlyph) (t : List CuGlyph) : cuFile (g :: t) = g.file ++ cuFile t := rfl

theorem readfile_text {cd : Codec} (t : List CuGlyph) (ht : Encoded cd t) (size : Nat) :
    (readfile cd (cuFile t) [] size []).1 = some (oneLine size (cuText t)) ∧
      ∃ t', Left cd t (oneLine size (cuText t)) (readfile cd (cuFile t) [] size []).2 t' := by
  induction t generalizing size with
  | nil =>
    cases size with
    | zero => exact ⟨rfl, [], by simp [Encoded], rfl, rfl, by simp [readfile], by simp [readfile], by simp [readfile, cuFile, EndsPlain]⟩
    | succ n => exact ⟨rfl, [], by simp [Encoded], rfl, rfl, by simp [readfile, cuFile], by simp [readfile, cuFile],
        by simp [readfile, cuFile, EndsPlain]⟩
  | cons g t ih =>
    have hg : Encodes cd g := ht g (by simp)
    have ht' : Encoded cd t := fun x hx => ht x (by simp [hx])
    cases size with
    | zero =>
      rw [readfile]
      exact ⟨rfl, g :: t, ht, by simp [oneLine], rfl, by simp, by simp, fun h => ⟨h, by simp⟩⟩
    | succ n =>
      rw [cuFile_cons, cuText_cons, readfile_glyph hg (cuFile t) n [] g.file [] hg.file rfl]
      simp only
      by_cases h10 : g.utf8 = [10]
      · rw [if_pos h10, h10]
        refine ⟨by simp [writeBuffered, oneLine], t, ht', ?_, rfl, ?_, by simp, fun h => ⟨h.tail, ?_⟩⟩
        · simp [writeBuffered, oneLine, cuText_cons, h10]
        · simp [writeBuffered]
        · simp [writeBuffered]
      · rw [if_neg h10]
        have hn : 10 ∉ g.utf8 := fun h => h10 (hg.newline h)
        rw [oneLine_append hn]
        by_cases hs : n + 1 ≥ g.utf8.length
        · rw [writeBuffered, if_pos hs]
          simp only
          obtain ⟨a, t', b⟩ := ih ht' (n + 1 - g.utf8.length)
          rw [a]
          refine ⟨by simp [List.take_of_length_le hs], t', b.enc, ?_, b.file, b.line, b.eof, fun h => b.plain h.tail⟩
          rw [List.take_of_length_le hs, List.append_assoc, b.text, cuText_cons]
        · rw [writeBuffered, if_neg hs]
          have hz : n + 1 - g.utf8.length = 0 := by omega
          simp only [hz, readfile, oneLine, Option.map_some, List.append_nil]
          refine ⟨trivial, t, ht', ?_, rfl, ?_, by simp, fun h => ⟨h.tail, fun _ e => ?_⟩⟩
          · simp only [cuText_cons]
            rw [← List.append_assoc, List.take_append_drop]
          · exact fun h => hn (List.mem_of_mem_drop h)
          · subst e
            have := h g (by simp)
            omega

/-- One call. -/
theorem fgets_text {cd : Codec} {t0 t : List CuGlyph} {got : List Nat} {f : Stream} (h : Left cd t0 got f t) (hp : EndsPlain t0) (s : Nat) (hs : 2 ≤ s) :
    (fgets cd s f).1 = (if f.remain ++ cuText t = [] then none else some (oneLine (s - 1) (f.remain ++ cuText t))) ∧
      ∃ t', Left cd t0 (got ++ oneLine (s - 1) (f.remain ++ cuText t)) (fgets cd s f).2 t' := by
  obtain ⟨hpl, hrem⟩ := h.plain hp
  by_cases he : f.eof = true
  · obtain ⟨rfl, hr⟩ := h.eof he
    rw [fgets, if_pos (.inr he)]
    refine ⟨by simp [hr, cuText], [], ?_⟩
    simpa [hr, cuText, oneLine_nil] using h
  · rw [fgets, if_neg (by rintro (h | h); omega; exact he h), if_neg (by omega)]
    rw [oneLine_append h.line]
    by_cases hl : f.remain.length ≤ s - 1
    · simp only [readBuffered, if_pos hl]
      rw [List.take_of_length_le hl]
      by_cases hz : s - 1 - f.remain.length = 0
      · rw [if_pos hz, hz]
        have hne : f.remain ≠ [] := by intro e; rw [e] at hz; simp at hz; omega
        refine ⟨by simp [hne, oneLine], t, h.enc, by simpa [oneLine] using h.text, h.file, by simp, fun e => absurd e he,
          fun _ => ⟨hpl, by simp⟩⟩
      · rw [if_neg hz, h.file]
        obtain ⟨a, t', b⟩ := readfile_text t h.enc (s - 1 - f.remain.length)
        have hlen := oneLine_length (s - 1 - f.remain.length) (cuText t)
        generalize hR : readfile cd (cuFile t) [] (s - 1 - f.remain.length) [] = R at a b
        obtain ⟨R1, R2⟩ := R
        simp only at a b
        subst a
        simp only
        have hleft : Left cd t0 (got ++ (f.remain ++ oneLine (s - 1 - f.remain.length) (cuText t))) R2 t' := by
          refine ⟨b.enc, ?_, b.file, b.line, b.eof, fun _ => b.plain hpl⟩
          rw [List.append_assoc, List.append_assoc, b.text, h.text]
        by_cases ht : cuText t = []
        · have htn : t = [] := by
            cases t with
            | nil => rfl
            | cons g t =>
              rw [cuText_cons] at ht
              exact absurd (List.append_eq_nil_iff.1 ht).1 (h.enc g (by simp)).utf8
          have hrn : f.remain = [] := by
            apply Decidable.byContradiction
            intro hne
            exact hrem hne htn
          rw [if_neg (by rw [ht, oneLine_nil]; simp)]
          exact ⟨by simp [ht, hrn], t', hleft⟩
        · have hne := oneLine_ne hz ht
          rw [if_pos ⟨hlen, hne⟩, if_neg (by simp [ht])]
          exact ⟨rfl, t', hleft⟩
    · have hz : s - 1 - f.remain.length = 0 := by omega
      simp only [readBuffered, if_neg hl, ↓reduceIte, hz, oneLine, List.append_nil]
      have hne : f.remain ≠ [] := by intro e; rw [e] at hl; simp at hl
      refine ⟨by simp [hne], t, h.enc, ?_, h.file, ?_, fun e => absurd e he, fun _ => ⟨hpl, ?_⟩⟩
      · simp only
        rw [List.append_assoc, ← List.append_assoc (f.remain.take (s - 1)), List.take_append_drop, h.text]
      · exact fun hx => h.line (List.mem_of_mem_drop hx)
      · exact fun _ => hrem hne

theorem fgets_all {cd : Codec} {t0 : List CuGlyph} (hp : EndsPlain t0) : ∀ (ss : List Nat) {t : List CuGlyph} {got : List Nat} {f : Stream},
    Left cd t0 got f t → (∀ s ∈ ss, 2 ≤ s) → fgetsAll cd ss f = linesOf ss (f.remain ++ cuText t)
  | [], _, _, _, _, _ => rfl
  | s :: ss, t, got, f, h, hs => by
    obtain ⟨a, t', b⟩ := fgets_text h hp s (hs s (by simp))
    have ih := fgets_all hp ss b (fun x hx => hs x (by simp [hx]))
    have htext : (fgets cd s f).2.remain ++ cuText t' =
        (f.remain ++ cuText t).drop (oneLine (s - 1) (f.remain ++ cuText t)).length := by
      have h1 := b.text
      have h2 := h.text
      rw [← h2, List.append_assoc] at h1
      have h3 := List.append_cancel_left h1
      have h4 := congrArg (List.drop (oneLine (s - 1) (f.remain ++ cuText t)).length) h3
      rwa [List.drop_left] at h4
    rw [fgetsAll, linesOf, a, ih, htext]
    split
    · rename_i he
      rw [he, oneLine_nil]; rfl
    · rfl

end PBat.Spec
