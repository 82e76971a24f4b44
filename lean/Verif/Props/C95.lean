import Verif.Lemmas.Cu8Write
/-
C95: writing text (Windows): the text is converted as a whole, whatever its length and the pieces it is written in.
-/
namespace PBat.Spec
open PBat PBat.Cu8

/-- A string of any length is converted; bytes that are no character are left out, and so is an incomplete character at
the end. -/
theorem C95_converted (cd : Coder) (t : List CuItem) (hk : ∀ i ∈ t, i.Known cd) (tail : List Nat) (ht : Cut cd tail) :
    xconvert cd (cuSrc t ++ tail) = .ok (cuOut t) := by
  rw [xconvert, convertLoop_items ht t hk]
  rfl

/-- Names and texts survive the conversion to UTF-16 and back. -/
theorem C95_there_and_back (cs : List Nat) (h : ∀ c ∈ cs, scalar c = true) :
    xconvert toU16 (cs.flatMap utf8) = .ok (cs.flatMap utf16) ∧ xconvert fromU16 (cs.flatMap utf16) = .ok (cs.flatMap utf8) := by
  constructor
  · have := C95_converted toU16 (cs.map fun c => .glyph (utf8 c) (utf16 c))
      (by intro i hi; obtain ⟨c, hc, rfl⟩ := List.mem_map.1 hi; exact toU16_known c (h c hc)) [] (.inl rfl)
    simpa [cuSrc, cuOut, List.flatMap_map, CuItem.src, CuItem.out] using this
  · have := C95_converted fromU16 (cs.map fun c => .glyph (utf16 c) (utf8 c))
      (by intro i hi; obtain ⟨c, hc, rfl⟩ := List.mem_map.1 hi; exact fromU16_known c (h c hc)) [] (.inl rfl)
    simpa [cuSrc, cuOut, List.flatMap_map, CuItem.src, CuItem.out] using this

theorem fputs_items (cd : Coder) (t : List CuItem) (hk : ∀ i ∈ t, i.Known cd) (tail : List Nat) (ht : Cut cd tail)
    (hl : tail.length ≤ 4) (full : Bool) (w : List Nat) :
    fputs cd (cuSrc t ++ tail) full { written := w } =
      .ok (true, { remainder := tail, written := if full then w else w ++ cuOut t }) := by
  rw [fputs, convert, if_neg (by simp)]
  rw [List.nil_append, convertLoop_items ht t hk]
  show (Res.bind (Res.bind (.ok (cuOut t, tail)) _) _) = _
  simp only [Res.bind]
  rw [if_neg (by omega)]
  rfl

/-- Text written in pieces that are whole characters comes out as if it was written at once. -/
theorem C95_pieces_partial (cd : Coder) (ps : List (List CuItem)) (hk : ∀ p ∈ ps, ∀ i ∈ p, i.Known cd) (w : List Nat) :
    fputsAll cd (ps.map cuSrc) { written := w } = .ok { written := w ++ cuOut ps.flatten } := by
  induction ps generalizing w with
  | nil => simp [fputsAll, cuOut]
  | cons p ps ih =>
    have h := fputs_items cd p (hk p (by simp)) [] (.inl rfl) (by simp) false w
    rw [List.append_nil] at h
    rw [List.map_cons, fputsAll, h]
    show fputsAll cd (ps.map cuSrc) { remainder := [], written := w ++ cuOut p } = _
    rw [ih (fun q hq => hk q (by simp [hq])), List.flatten_cons, cuOut_append, List.append_assoc]

/-- A character written in two pieces: the second one is written beyond the end of a block of memory. -/
theorem C95_split (cd : Coder) (t : List CuItem) (hk : ∀ i ∈ t, i.Known cd) (tail : List Nat) (hne : tail ≠ [])
    (ht : cd tail = .incomplete) (hl : tail.length ≤ 4) (next : List Nat) :
    fputsAll cd [cuSrc t ++ tail, next] {} = .ub := by
  have h := fputs_items cd t hk tail (.inr ⟨hne, ht⟩) hl false []
  rw [fputsAll, show ({} : Sink) = { written := [] } from rfl, h]
  show fputsAll cd [next] { remainder := tail, written := [] ++ cuOut t } = .ub
  rw [fputsAll, fputs, convert, if_pos ⟨hne, by have := List.length_pos_iff.2 hne; simp only; omega⟩]
  rfl

/-- A device that takes no more bytes is not reported. -/
theorem C95_unreported (cd : Coder) (t : List CuItem) (hk : ∀ i ∈ t, i.Known cd) (w : List Nat) :
    fputs cd (cuSrc t) true { written := w } = .ok (true, { written := w }) := by
  have h := fputs_items cd t hk [] (.inl rfl) (by simp) true w
  simpa using h

/-- A formatted text of at most 512 bytes is written. -/
theorem C95_printf_partial (cd : Coder) (t : List CuItem) (hk : ∀ i ∈ t, i.Known cd) (w : List Nat) (hl : (cuSrc t).length ≤ 512) :
    vfprintf cd (cuSrc t) { written := w } = .ok (((cuSrc t).length : Int), { written := w ++ cuOut t }) := by
  have h := fputs_items cd t hk [] (.inl rfl) (by simp) false w
  rw [List.append_nil] at h
  have hv : vsnprintfWin 512 (cuSrc t) = (cuSrc t).length := by rw [vsnprintfWin, if_pos hl]
  rw [vfprintf, hv, if_neg (by omega), h]
  rfl

/-- Nothing at all of a longer one. -/
theorem C95_printf_lost (cd : Coder) (text : List Nat) (hl : 512 < text.length) (f : Sink) :
    vfprintf cd text f = .ok (-1, f) := by
  have hv : vsnprintfWin 512 text = -1 := by rw [vsnprintfWin, if_neg (by omega)]
  rw [vfprintf, hv, if_pos (by omega)]
  rfl

/-- After a unit of UTF-16 that is no character the bytes of the following ones are taken in the wrong pairs: a name made
of such a unit and an ASCII character becomes another character. -/
theorem C95_shifted (x : Nat) (hx : x < 128) : xconvert fromU16 [0, 220, x, 0] = .ok (utf8 (220 + 256 * x)) := by
  have hs : scalar (220 + 256 * x) = true := by simp [scalar]; omega
  have e1 : iconv fromU16 [0, 220, x, 0] (chunkSize - ([] : List Nat).length) = ([], [0, 220, x, 0], .eilseq) := by
    rw [iconv]
    rfl
  have e2 : fromU16 [220, x, 0] = .char 2 (utf8 (220 + 256 * x)) := by
    simp only [fromU16, hs, ↓reduceIte]
  have hlen : ¬ (chunkSize - ([] : List Nat).length < (utf8 (220 + 256 * x)).length) := by
    have : (utf8 (220 + 256 * x)).length ≤ 4 := by unfold utf8; (repeat' split) <;> simp
    simp [chunkSize]; omega
  have e3 : iconv fromU16 [220, x, 0] (chunkSize - ([] : List Nat).length) = (utf8 (220 + 256 * x), [0], .einval) := by
    rw [iconv, e2]
    simp only
    rw [if_neg hlen, show [x, 0].drop (2 - 1) = [0] from rfl, iconv]
    simp [fromU16]
  rw [xconvert, convertLoop, e1]
  simp only
  rw [dif_pos (by simp), show ([0, 220, x, 0] : List Nat).drop 1 = [220, x, 0] from rfl, convertLoop]
  simp only [List.append_nil, e3]
  rfl

/-! ### Examples -/

/-- `aé€😀`. -/
example : [97, 233, 8364, 128512].all scalar = true ∧
    [97, 233, 8364, 128512].flatMap utf8 = [97, 195, 169, 226, 130, 172, 240, 159, 152, 128] ∧
    [97, 233, 8364, 128512].flatMap utf16 = [97, 0, 233, 0, 172, 32, 61, 216, 0, 222] := by decide +kernel

example : (CuItem.junk 255).Known toU16 := fun _ => rfl
example : Cut toU16 [195] ∧ toU16 [195] = .incomplete := ⟨.inr ⟨by simp, rfl⟩, rfl⟩

example : fputsAll toU16 [[97], [195, 169], []] {} = .ok { written := [97, 0, 233, 0] } := by
  have h := C95_pieces_partial toU16 [[.glyph (utf8 97) (utf16 97)], [.glyph (utf8 233) (utf16 233)], []] (by
    intro p hp i hi
    simp only [List.mem_cons, List.not_mem_nil, or_false] at hp
    rcases hp with rfl | rfl | rfl <;> simp only [List.mem_cons, List.not_mem_nil, or_false] at hi
    · subst hi; exact toU16_known 97 rfl
    · subst hi; exact toU16_known 233 rfl) []
  exact h

example : fputsAll toU16 [[97, 195], [169]] {} = .ub :=
  C95_split toU16 [.glyph (utf8 97) (utf16 97)] (by simpa using toU16_known 97 rfl) [195] (by simp) rfl (by simp) [169]

end PBat.Spec
