import Verif.Lemmas.Attr
/-
C34: attribute filters.
-/
namespace PBat
open Spec

/-- What a file has. -/
def fileHas (f : FileStat) : Attr → Bool
  | .void => f.size == 0
  | .archive => f.archive
  | .readonly => f.readonly
  | .hidden => f.hidden
  | .system => f.system
  | .dir => f.dir

theorem any_true_iff (l : List (Attr × Bool)) (a : Attr) : l.any (·.1 == a) = true ↔ ∃ b, (a, b) ∈ l := by
  rw [List.any_eq_true]
  constructor
  · rintro ⟨⟨x, b⟩, hm, he⟩
    have : x = a := by simpa using he
    exact ⟨b, this ▸ hm⟩
  · rintro ⟨b, hm⟩
    exact ⟨(a, b), hm, by simp⟩

/-- One test, when an attribute is not both required and excluded. -/
theorem attrTest_own (l : List (Attr × Bool)) (a : Attr) (hl : ¬ ((a, true) ∈ l ∧ (a, false) ∈ l)) (r : Bool) :
    attrTest (flagsOf l) (flagOf a) (flagOf a <<< 1) r = true ↔ ∀ b, (a, b) ∈ l → r = b := by
  unfold attrTest
  rw [hasFlag_flags, hasFlag_neg]
  by_cases h : ∃ b, (a, b) ∈ l
  · rw [if_pos ((any_true_iff l a).2 h)]
    by_cases hn : (a, false) ∈ l
    · rw [if_pos (List.any_eq_true.2 ⟨_, hn, by simp⟩)]
      constructor
      · intro hr b hb
        cases b with
        | true => exact absurd ⟨hb, hn⟩ hl
        | false => simpa using hr
      · intro hb
        simp [hb false hn]
    · rw [if_neg (by
        rw [List.any_eq_true]
        rintro ⟨x, hx, he⟩
        have : x = (a, false) := by simpa using he
        exact hn (this ▸ hx))]
      constructor
      · intro hr b hb
        cases b with
        | true => exact hr
        | false => exact absurd hb hn
      · intro hb
        obtain ⟨b, h⟩ := h
        cases b with
        | true => exact hb true h
        | false => exact absurd h hn
  · rw [if_neg (fun hh => h ((any_true_iff l a).1 hh))]
    simp only [true_iff]
    intro b hb
    exact absurd ⟨b, hb⟩ h

/-- The tests of the system and empty attributes look whether *hidden* is excluded. -/
theorem attrTest_hidden (l : List (Attr × Bool)) (a : Attr) (h1 : (a, false) ∉ l)
    (h2 : (Attr.hidden, false) ∈ l → (a, true) ∉ l) (r : Bool) :
    attrTest (flagsOf l) (flagOf a) (flagOf .hidden <<< 1) r = true ↔ ∀ b, (a, b) ∈ l → r = b := by
  unfold attrTest
  rw [hasFlag_flags, hasFlag_neg]
  by_cases h : ∃ b, (a, b) ∈ l
  · rw [if_pos ((any_true_iff l a).2 h)]
    obtain ⟨b, h⟩ := h
    cases b with
    | false => exact absurd h h1
    | true =>
      rw [if_neg (by
        rw [List.any_eq_true]
        rintro ⟨x, hx, he⟩
        have : x = (Attr.hidden, false) := by simpa using he
        exact h2 (this ▸ hx) h)]
      constructor
      · intro hr b hb
        cases b with
        | true => exact hr
        | false => exact absurd hb h1
      · intro hb
        exact hb true h
  · rw [if_neg (fun hh => h ((any_true_iff l a).1 hh))]
    simp only [true_iff]
    intro b hb
    exact absurd ⟨b, hb⟩ h

/-- For every text of a filter and every file: the file passes iff it has every attribute required and none of those excluded.
Missing: filters excluding `S` or `I`, or requiring one of them while excluding `H` (`C34_system`, `C34_void`, `C34_hidden_system`), and filters
naming an attribute both ways (`C34_both`). -/
theorem C34_filter_partial (s : List Char) (l : List (Attr × Bool)) (hs : AttrText s l) (f : FileStat)
    (hboth : ∀ a, ¬ ((a, true) ∈ l ∧ (a, false) ∈ l))
    (hneg : (Attr.system, false) ∉ l ∧ (Attr.void, false) ∉ l)
    (hhid : (Attr.hidden, false) ∈ l → (Attr.system, true) ∉ l ∧ (Attr.void, true) ∉ l) :
    checkFileAttributes (makeFileAttributes s) f = true ↔ ∀ a b, (a, b) ∈ l → fileHas f a = b := by
  have hmk : makeFileAttributes s = flagsOf l := by
    unfold makeFileAttributes
    rw [makeAttrLoop_text hs, BitVec.zero_or]
  rw [hmk]
  unfold checkFileAttributes
  by_cases h0 : flagsOf l = 0#16
  · rw [if_pos h0]
    simp only [true_iff]
    intro a b hm
    have := (any_true_iff l a).2 ⟨b, hm⟩
    rw [← hasFlag_flags, h0] at this
    have hz : hasFlag 0#16 (flagOf a) = false := by cases a <;> decide
    rw [hz] at this
    cases this
  · rw [if_neg h0]
    simp only [Bool.and_eq_true]
    have e1 := attrTest_own l .archive (hboth _) f.archive
    have e2 := attrTest_own l .hidden (hboth _) f.hidden
    have e3 := attrTest_hidden l .system hneg.1 (fun h => (hhid h).1) f.system
    have e4 := attrTest_hidden l .void hneg.2 (fun h => (hhid h).2) (f.size == 0)
    have e5 := attrTest_own l .dir (hboth _) f.dir
    have e6 := attrTest_own l .readonly (hboth _) f.readonly
    have k1 : flagOf .archive <<< 1 = 0x200#16 := by decide
    have k2 : flagOf .hidden <<< 1 = 0x20#16 := by decide
    have k5 : flagOf .dir <<< 1 = 0x800#16 := by decide
    have k6 : flagOf .readonly <<< 1 = 0x02#16 := by decide
    rw [k1] at e1; rw [k2] at e2 e3 e4; rw [k5] at e5; rw [k6] at e6
    simp only [flagOf] at e1 e2 e3 e4 e5 e6
    rw [e1, e2, e3, e4, e5, e6]
    constructor
    · rintro ⟨⟨⟨⟨⟨h1, h2⟩, h3⟩, h4⟩, h5⟩, h6⟩ a b hm
      cases a
      · exact h4 b hm
      · exact h1 b hm
      · exact h6 b hm
      · exact h2 b hm
      · exact h3 b hm
      · exact h5 b hm
    · intro h
      exact ⟨⟨⟨⟨⟨h .archive, h .hidden⟩, h .system⟩, h .void⟩, h .dir⟩, h .readonly⟩

/-- Splitting a list: for every chain of distinct cells, after as many turns as there are cells the loop is over, and the two resulting chains
are the cells that pass and those that do not, in their order; no other cell is modified. -/
theorem C34_split (ok : Nat → Bool) (next : Nat → Option Nat) (p : Option Nat) (l : List Nat) (hl : Chain next p l) (hn : l.Nodup) :
    let s := splitRun ok l.length (splitInit next p)
    s.inp = none ∧ Chain (splitFinish s).next (splitFinish s).sel (l.filter ok) ∧
      Chain (splitFinish s).next (splitFinish s).rem (l.filter (!ok ·)) ∧ ∀ q, q ∉ l → (splitFinish s).next q = next q := by
  intro s
  have hinv : SplitInv ok next [] l (splitInit next p) :=
    { nodup := by simpa using hn, inp := hl, sel := rfl, mat := rfl, lsel := trivial, rem := rfl, unm := rfl, lrem := trivial, out := fun _ _ => rfl }
  have h := splitRun_inv l [] _ hinv
  rw [List.nil_append] at h
  change SplitInv ok next l [] s at h
  generalize s = s at h
  obtain ⟨nx, inp, mat, unm, sel, rem⟩ := s
  have hinp := h.inp
  cases hinp
  have hsel := h.sel; have hmat := h.mat; have hrem := h.rem; have hunm := h.unm
  have hls := h.lsel; have hlr := h.lrem; have ho := h.out
  simp only [List.append_nil] at hsel hmat hrem hunm hls hlr ho
  refine ⟨rfl, ?_⟩
  -- the fields after each of the two assignments
  have hnext : (splitFinish ⟨nx, none, mat, unm, sel, rem⟩).sel = sel ∧ (splitFinish ⟨nx, none, mat, unm, sel, rem⟩).rem = rem ∧
      ∀ q, (splitFinish ⟨nx, none, mat, unm, sel, rem⟩).next q = if mat = some q ∨ unm = some q then none else nx q := by
    unfold splitFinish
    cases mat <;> cases unm <;> refine ⟨rfl, rfl, fun q => ?_⟩ <;> simp only [setNext, Option.some.injEq, reduceCtorEq, or_false, false_or, if_false] <;>
      grind
  obtain ⟨h1, h2, h3⟩ := hnext
  rw [h1, h2]
  generalize (splitFinish ⟨nx, none, mat, unm, sel, rem⟩).next = nx' at h3
  rw [hsel, hrem]
  refine ⟨chain_linked ?_ ?_, chain_linked ?_ ?_, ?_⟩
  · refine linked_congr (fun q hq hq' => ?_) (hn.filter _) hls
    rw [h3, if_neg]
    rintro (e | e)
    · exact hq' (by rw [← hmat, e])
    · exact filter_disj hq (List.mem_of_getLast? (by rw [← hunm, e]))
  · intro m hm
    rw [h3, if_pos (.inl (by rw [hmat, hm]))]
  · refine linked_congr (fun q hq hq' => ?_) (hn.filter _) hlr
    rw [h3, if_neg]
    rintro (e | e)
    · exact filter_disj (List.mem_of_getLast? (by rw [← hmat, e])) hq
    · exact hq' (by rw [← hunm, e])
  · intro m hm
    rw [h3, if_pos (.inr (by rw [hunm, hm]))]
  · intro q hq
    rw [h3, if_neg, ho q hq]
    rintro (e | e)
    · exact hq ((List.mem_filter.1 (List.mem_of_getLast? (by rw [← hmat, e]))).1)
    · exact hq ((List.mem_filter.1 (List.mem_of_getLast? (by rw [← hunm, e]))).1)

/-- Violation: excluding system files selects exactly the system files. -/
theorem C34_system (f : FileStat) : checkFileAttributes (makeFileAttributes "-S".toList) f = f.system := by
  rw [show makeFileAttributes "-S".toList = 0xC0#16 by decide]
  simp [checkFileAttributes, attrTest, hasFlag]

/-- Violation: excluding empty files selects exactly the empty files. -/
theorem C34_void (f : FileStat) : checkFileAttributes (makeFileAttributes "-I".toList) f = (f.size == 0) := by
  rw [show makeFileAttributes "-I".toList = 0x0C#16 by decide]
  simp [checkFileAttributes, attrTest, hasFlag]

/-- Violation: asking for system files that are not hidden selects files that are neither. -/
theorem C34_hidden_system (f : FileStat) : checkFileAttributes (makeFileAttributes "S-H".toList) f = (!f.hidden && !f.system) := by
  rw [show makeFileAttributes "S-H".toList = 0x70#16 by decide]
  simp [checkFileAttributes, attrTest, hasFlag]

/-- Violation: a filter naming an attribute both ways keeps the files without it instead of none. -/
theorem C34_both (f : FileStat) : checkFileAttributes (makeFileAttributes "D-D".toList) f = !f.dir := by
  rw [show makeFileAttributes "D-D".toList = 0xC00#16 by decide]
  simp [checkFileAttributes, attrTest, hasFlag]

/-- Violation: the filter used by `FIND` to leave out directories (`PBAT_CMD_ATTR_DIR_N`, pbat/command/pBat_Find.c:288) accepts every file. -/
theorem C34_find_filter (f : FileStat) : checkFileAttributes 0x800#16 f = true := by
  simp [checkFileAttributes, attrTest, hasFlag]

/-- A case meeting the hypotheses: `a-dr`. -/
example : AttrText "a-dr".toList [(.archive, true), (.dir, false), (.readonly, true)] ∧
    checkFileAttributes (makeFileAttributes "a-dr".toList) ⟨true, false, false, false, true, 3⟩ = true ∧
    checkFileAttributes (makeFileAttributes "a-dr".toList) ⟨true, false, false, true, true, 3⟩ = false := by
  refine ⟨.present .archive (by decide) (.absent .dir (by decide) (.present .readonly (by decide) .nil)), by decide, by decide⟩

/-- A chain of three cells. -/
example : Chain (fun p => if p < 3 then some (p + 1) else none) (some 1) [1, 2, 3] ∧ [1, 2, 3].Nodup :=
  ⟨.cons (.cons (.cons .nil)), by decide⟩

end PBat
