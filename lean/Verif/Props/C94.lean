import Verif.Lemmas.Cu8Read
/-
C94: reading a text file (Windows) gives its text in UTF-8, whatever the sizes of the buffers.
-/
namespace PBat.Spec
open PBat.Cu8

/-- Read with buffers of any sizes, the text comes as the standard says: each byte once, in order, and no line beyond its
end.  Not shown for texts that end with a character of more than one byte, see `C94_lost`. -/
theorem C94_fgets_partial (cd : Codec) (t : List CuGlyph) (ht : Encoded cd t) (hp : EndsPlain t) (ss : List Nat)
    (hs : ∀ s ∈ ss, 2 ≤ s) : fgetsAll cd ss { file := cuFile t } = linesOf ss (cuText t) :=
  fgets_all hp ss (t := t) (got := []) ⟨ht, rfl, rfl, by simp, by simp, fun h => ⟨h, by simp⟩⟩ hs

/-- The end of a text is lost when a buffer ends within its last character. -/
theorem C94_lost (cd : Codec) (t : List CuGlyph) (ht : Encoded cd t) (hn : 10 ∉ cuText t) (g : CuGlyph) (hg : t.getLast? = some g)
    (h2 : 2 ≤ g.utf8.length) (s : Nat) (hs : 3 ≤ s) :
    fgetsAll cd [(cuText t).length, s] { file := cuFile t } = [some (cuText t).dropLast, none] := by
  obtain ⟨t1, rfl⟩ := List.getLast?_eq_some_iff.1 hg
  have hlen : (cuText (t1 ++ [g])).length = (cuText t1).length + g.utf8.length := by simp [cuText]
  have hread : ∀ (l : List CuGlyph), Encoded cd l → 10 ∉ cuText l → ∀ n, 0 < n → n < g.utf8.length → Encodes cd g →
      readfile cd (cuFile (l ++ [g])) [] ((cuText l).length + n) [] =
        (some (cuText l ++ g.utf8.take n), { file := [], remain := g.utf8.drop n }) := by
    intro l
    induction l with
    | nil =>
      intro _ _ n h0 h1 he
      obtain ⟨n, rfl⟩ : ∃ m, n = m + 1 := ⟨n - 1, by omega⟩
      have := readfile_glyph he [] n [] g.file [] he.file rfl
      simp only [List.append_nil] at this
      simp only [List.nil_append, cuFile, cuText, List.flatMap_cons, List.flatMap_nil, List.append_nil, List.length_nil, Nat.zero_add]
      rw [this, if_neg (by intro e; rw [e] at h1; simp at h1), writeBuffered, if_neg (by omega)]
      simp [readfile]
    | cons x l ih =>
      intro hl hn n h0 h1 he
      have hx : Encodes cd x := hl x (by simp)
      have ih := ih (fun y hy => hl y (by simp [hy])) (fun h => hn (by rw [cuText_cons]; simp [h])) n h0 h1 he
      have hx0 : 0 < x.utf8.length := List.length_pos_iff.2 hx.utf8
      obtain ⟨m, hm⟩ : ∃ m, (cuText (x :: l)).length + n = m + 1 := ⟨(cuText (x :: l)).length + n - 1, by omega⟩
      rw [hm, List.cons_append, cuFile_cons, readfile_glyph hx _ m [] x.file [] hx.file rfl]
      rw [cuText_cons] at hm ⊢
      simp only [List.length_append] at hm
      rw [if_neg (by intro e; exact hn (by rw [cuText_cons, e]; simp)), writeBuffered, if_pos (by omega)]
      have : m + 1 - x.utf8.length = (cuText l).length + n := by omega
      simp only [this, ih]
      simp
  have hg' : Encodes cd g := ht g (by simp)
  have hr := hread t1 (fun x hx => ht x (by simp [hx])) (fun h => hn (by simp only [cuText, List.flatMap_append, List.mem_append] at h ⊢; exact .inl h)) (g.utf8.length - 1) (by omega) (by omega) hg'
  have hsz : (cuText (t1 ++ [g])).length - 1 = (cuText t1).length + (g.utf8.length - 1) := by omega
  have hdl : (cuText (t1 ++ [g])).dropLast = cuText t1 ++ g.utf8.take (g.utf8.length - 1) := by
    simp only [cuText, List.flatMap_append, List.flatMap_cons, List.flatMap_nil, List.append_nil]
    rw [List.dropLast_append_of_ne_nil (by intro e; rw [e] at h2; simp at h2), List.dropLast_eq_take]
  have hfirst : fgets cd (cuText (t1 ++ [g])).length { file := cuFile (t1 ++ [g]) } =
      (some (cuText (t1 ++ [g])).dropLast, { file := [], remain := g.utf8.drop (g.utf8.length - 1) }) := by
    rw [fgets, if_neg (by rintro (h | h) <;> first | omega | cases h), if_neg (by omega)]
    simp only [readBuffered, List.length_nil, Nat.zero_le, ↓reduceIte, Nat.sub_zero, List.nil_append]
    rw [if_neg (by omega), hsz, hr]
    simp only
    rw [if_pos, hdl]
    refine ⟨by simp, ?_⟩
    intro e
    have := congrArg List.length e
    simp at this
    omega
  have hone : (g.utf8.drop (g.utf8.length - 1)).length = 1 := by simp; omega
  rw [fgetsAll, hfirst]
  simp only [fgetsAll]
  have hs1 : 1 ≤ s - 1 := by omega
  rw [fgets, if_neg (by rintro (h | h) <;> first | omega | cases h), if_neg (by omega)]
  simp only [readBuffered, hone, if_pos hs1]
  rw [if_neg (by omega)]
  obtain ⟨n, hn⟩ : ∃ n, s - 1 - 1 = n + 1 := ⟨s - 3, by omega⟩
  rw [hn]
  simp [readfile]

/-- A byte that cannot begin a character with the next one takes it away, although that one is a character. -/
theorem C94_swallowed (cd : Codec) (a b : Nat) (ha : cd [a] = .incomplete) (hb : cd [a, b] = .invalid) (file : List Nat) (s : Nat)
    (hs : 2 ≤ s) : fgets cd s { file := a :: b :: file } = fgets cd s { file := file } := by
  have h : readfile cd (a :: b :: file) [] (s - 1) [] = readfile cd file [] (s - 1) [] := by
    obtain ⟨n, hn⟩ : ∃ n, s - 1 = n + 1 := ⟨s - 2, by omega⟩
    rw [hn, readfile, if_neg (by simp [filenameMax])]
    simp only [List.nil_append, ha]
    rw [readfile, if_neg (by simp [filenameMax])]
    simp only [List.cons_append, List.nil_append, hb]
  have h0 : ¬ (s = 0 ∨ false = true) := by rintro (h | h) <;> first | omega | cases h
  have h1 : ¬ s = 1 := by omega
  have h2 : ¬ s - 1 = 0 := by omega
  simp only [fgets, readBuffered, List.length_nil, Nat.zero_le, ↓reduceIte, Nat.sub_zero, h, if_neg h0, if_neg h1, if_neg h2]

/-- The first byte of a text, and the end. -/
theorem C94_fgetc_partial (cd : Codec) (t : List CuGlyph) (ht : Encoded cd t) :
    (fgetc cd { file := cuFile t }).1 = match cuText t with
      | [] => -1
      | c :: _ => if c < 128 then (c : Int) else (c : Int) - 256 := by
  obtain ⟨a, t', b⟩ := readfile_text t ht 1
  have e : fgets cd 2 { file := cuFile t } = match cuText t with
      | [] => (none, (readfile cd (cuFile t) [] 1 []).2)
      | c :: _ => (some [c], (readfile cd (cuFile t) [] 1 []).2) := by
    rw [fgets]
    rw [if_neg (by simp), if_neg (by simp)]
    simp only [↓reduceIte, readBuffered, List.length_nil, Nat.zero_le, Nat.sub_zero, List.nil_append, Nat.add_one_sub_one,
      Nat.one_ne_zero]
    generalize hR : readfile cd (cuFile t) [] 1 [] = R at a
    obtain ⟨R1, R2⟩ := R
    simp only at a
    subst a
    simp only
    cases hx : cuText t with
    | nil => simp [oneLine]
    | cons c x => simp only [oneLine]; split <;> simp
  rw [fgetc, e]
  cases cuText t with
  | nil => rfl
  | cons c x => rfl

/-- A byte of a character beyond ASCII is returned as a negative number, unlike what the standard says of `fgetc`. -/
theorem C94_negative (cd : Codec) (t : List CuGlyph) (ht : Encoded cd t) (c : Nat) (x : List Nat) (hx : cuText t = c :: x)
    (h1 : 128 ≤ c) (h2 : c < 256) : (fgetc cd { file := cuFile t }).1 < 0 := by
  rw [C94_fgetc_partial cd t ht, hx]
  simp only
  rw [if_neg (by omega)]
  omega

/-! ### Examples -/

/-- ISO 8859-1. -/
def latin : Codec
  | [b] => if b < 128 then .char [b] else .char [192 + b / 64, 128 + b % 64]
  | _ => .invalid

/-- UTF-8, two bytes at most. -/
def short8 : Codec
  | [b] => if b < 128 then .char [b] else if 194 ≤ b ∧ b < 224 then .incomplete else .invalid
  | [a, b] => if 128 ≤ b ∧ b < 192 then .char [a, b] else .invalid
  | _ => .invalid

/-- `é` and the end of the line. -/
def sampleGlyphs : List CuGlyph := [⟨[233], [195, 169]⟩, ⟨[97], [97]⟩, ⟨[10], [10]⟩, ⟨[232], [195, 168]⟩, ⟨[10], [10]⟩]

example : Encoded latin sampleGlyphs ∧ EndsPlain sampleGlyphs := by
  constructor
  · intro g hg
    simp only [sampleGlyphs, List.mem_cons, List.not_mem_nil, or_false] at hg
    rcases hg with rfl | rfl | rfl | rfl | rfl <;>
    · refine ⟨rfl, ?_, by simp, by simp, by simp, by simp, by simp⟩
      intro p h1 h2 h3
      have := h3.length_le
      match p, h1, h2, h3 with
      | [x], _, h2, h3 => simp at h3; exact absurd (by rw [h3]) h2
      | _ :: _ :: _, _, _, _ => simp at this
  · intro g hg
    cases hg
    rfl

example : fgetsAll latin [2, 100, 3, 100, 100] { file := cuFile sampleGlyphs } =
    [some [195], some [169, 97, 10], some [195, 168], some [10], none] := by decide +kernel

example : Encodes short8 ⟨[195, 169], [195, 169]⟩ := by
  refine ⟨rfl, ?_, by simp, by simp, by simp, by simp, by simp⟩
  intro p h1 h2 h3
  have hl := h3.length_le
  match p, h1, h2, h3 with
  | [x], _, h2, h3 => simp at h3; subst h3; decide
  | [x, y], _, h2, h3 => simp at h3; exact absurd (by rw [h3.1, h3.2]) h2
  | _ :: _ :: _ :: _, _, _, _ => simp at hl

example : fgetsAll latin [3, 3] { file := [97, 233] } = [some [97, 195], none] := by decide +kernel
example : fgetsAll short8 [100, 100] { file := [97, 195, 10, 98, 10] } = [some [97, 98, 10], none] := by decide +kernel

end PBat.Spec
