import Verif.Model.SplitPath
import Verif.Lemmas.Str
/-
C36: splitting a path into its parts is lossless.

It is not for a path with a drive: the separator after the colon belongs to no part (`C36_drive_loses_separator`).  Carets hide separators and
dots (`C36_caret`), and parts that fill their buffer are not terminated (`C36_long`).  `C36_split_partial` is the property for all other paths.
-/
namespace PBat
open Spec

/-- Separators of paths. -/
def PathSep (c : Char) : Prop := c = '\\' ∨ c = '/'

/-- The path begins with a drive: a character, a colon, and a separator. -/
def HasDrive (s : List Char) : Prop := ∃ d c r, s = d :: ':' :: c :: r ∧ PathSep c

theorem driveOf_iff (s : List Char) (d : Char) : driveOf s = some d ↔ ∃ c r, s = d :: ':' :: c :: r ∧ PathSep c := by
  unfold driveOf PathSep
  split
  · next e c r =>
    split
    · next h =>
      constructor
      · intro he
        cases he
        exact ⟨c, r, rfl, h⟩
      · rintro ⟨c', r', he, -⟩
        simp only [List.cons.injEq, true_and] at he
        rw [he.1]
    · next h =>
      constructor
      · intro he
        cases he
      · rintro ⟨c', r', he, hc'⟩
        simp only [List.cons.injEq, true_and] at he
        exact absurd (he.2.1 ▸ hc') h
  · next h =>
    constructor
    · intro h; cases h
    · rintro ⟨c, r, rfl, -⟩
      exact absurd rfl (h _ _ _)

theorem driveOf_none (s : List Char) : driveOf s = none ↔ ¬ HasDrive s := by
  unfold HasDrive
  cases h : driveOf s with
  | none =>
    simp only [true_iff]
    rintro ⟨d, c, r, hs, hc⟩
    rw [(driveOf_iff s d).2 ⟨c, r, hs, hc⟩] at h
    cases h
  | some d =>
    obtain ⟨c, r, hs, hc⟩ := (driveOf_iff s d).1 h
    exact ⟨fun h => (by cases h), fun hn => absurd ⟨d, c, r, hs, hc⟩ hn⟩

/-- A text without carets has no escaped position. -/
theorem free_of_no_caret {s : List Char} (h : '^' ∉ s) (i : Nat) : Free s i := by
  unfold Free caretsBefore
  have : (s.take i).reverse.takeWhile (· == '^') = [] := by
    cases hr : (s.take i).reverse with
    | nil => rfl
    | cons c r =>
      have hc : c ∈ s := List.mem_of_mem_take (List.mem_reverse.1 (hr ▸ List.mem_cons_self))
      rw [List.takeWhile_cons, if_neg]
      intro he
      rw [beq_iff_eq] at he
      exact h (he ▸ hc)
  rw [this]
  rfl

/-- Without carets, the text after the last hit contains no searched character. -/
theorem searchLast_none_after {p : Char → Bool} (hp : p '^' = false) {s : List Char} (hc : '^' ∉ s) :
    (∀ i, searchLastTok p s = some i → ∃ c, s[i]? = some c ∧ p c = true ∧ ∀ d ∈ s.drop (i + 1), p d = false) ∧
    (searchLastTok p s = none → ∀ d ∈ s, p d = false) := by
  have hl := searchLastTok_last p hp s
  constructor
  · intro i hi
    rw [hi] at hl
    obtain ⟨⟨⟨c, h1, h2⟩, -⟩, hn⟩ := hl
    refine ⟨c, h1, h2, ?_⟩
    intro d hd
    obtain ⟨j, hj⟩ := List.mem_iff_getElem?.1 hd
    rw [List.getElem?_drop] at hj
    cases hpd : p d with
    | false => rfl
    | true => exact absurd ⟨⟨d, hj, hpd⟩, free_of_no_caret hc _⟩ (hn (i + 1 + j) (by omega))
  · intro hn d hd
    rw [hn] at hl
    obtain ⟨j, hj⟩ := List.mem_iff_getElem?.1 hd
    cases hpd : p d with
    | false => rfl
    | true => exact absurd ⟨⟨d, hj, hpd⟩, free_of_no_caret hc _⟩ (hl j)

/-- The parts of a text after its drive; the extension is empty or a dot and a text. -/
theorem split_rest (max : Nat) (token : List Char) (drive : List Char) (hlen : token.length < max) :
    ∃ dir name ext, splitToken max drive token = .ok ⟨drive, dir, name, ext⟩ ∧ dir ++ name ++ ext = token ∧
      ('^' ∉ token →
        (dir = [] ∨ ∃ d c, dir = d ++ [c] ∧ PathSep c) ∧ (∀ c ∈ name ++ ext, ¬ PathSep c) ∧
        ((ext = [] ∧ '.' ∉ name) ∨ ∃ r, ext = '.' :: r ∧ '.' ∉ r)) := by
  unfold splitToken
  generalize hk : dirLen token = k
  unfold dirLen at hk
  have hdir : (token.take k).length < max := by rw [List.length_take]; omega
  have hseps : '^' ∉ token → (token.take k = [] ∨ ∃ d c, token.take k = d ++ [c] ∧ PathSep c) ∧ ∀ c ∈ token.drop k, ¬ PathSep c := by
    intro hcar
    obtain ⟨l1, l2⟩ := searchLast_none_after (p := fun c => c == '\\' || c == '/') (by decide) hcar
    cases hs : searchLastTok (fun c => c == '\\' || c == '/') token with
    | none =>
      rw [hs] at hk
      subst hk
      refine ⟨Or.inl rfl, ?_⟩
      intro c hc hsep
      have := l2 hs c hc
      unfold PathSep at hsep
      simp at this
      grind
    | some i =>
      rw [hs] at hk
      subst hk
      obtain ⟨c, h1, h2, h3⟩ := l1 i hs
      refine ⟨Or.inr ⟨token.take i, c, ?_, ?_⟩, ?_⟩
      · rw [List.take_add_one, h1]; rfl
      · unfold PathSep; simpa using h2
      · intro d hd hsep
        have := h3 d hd
        unfold PathSep at hsep
        simp at this
        grind
  rw [copyName, if_pos hdir, Res.ok_bind, splitName]
  have hcar2 : '^' ∉ token → '^' ∉ token.drop k := fun h hm => h (List.mem_of_mem_drop hm)
  have hlen2 : (token.drop k).length < max := by rw [List.length_drop]; omega
  cases hdot : searchLastTok (· == '.') (token.drop k) with
  | none =>
    simp only [copyName, if_pos hlen2, Res.ok_bind, Res.pure_eq]
    refine ⟨_, _, _, rfl, by simp, ?_⟩
    intro hcar
    obtain ⟨s1, s2⟩ := hseps hcar
    refine ⟨s1, by simpa using s2, Or.inl ⟨rfl, ?_⟩⟩
    intro hm
    have := (searchLast_none_after (p := (· == '.')) (by decide) (hcar2 hcar)).2 hdot '.' hm
    simp at this
  | some i =>
    have hname : ((token.drop k).take i).length < max := by rw [List.length_take]; omega
    -- the searched position holds a dot even with carets
    obtain ⟨⟨⟨c, hc, hpc⟩, -⟩, -⟩ : IsLast (Hit (· == '.') (token.drop k)) (some i) := by
      rw [← hdot]; exact searchLastTok_last _ (by decide) _
    rw [beq_iff_eq] at hpc
    subst hpc
    have hi : i < (token.drop k).length := (List.getElem?_eq_some_iff.1 hc).1
    have hext : ('.' :: (token.drop k).drop (i + 1)).take (max - 1) = (token.drop k).drop i := by
      rw [List.take_of_length_le (by simp only [List.length_cons, List.length_drop] at *; omega)]
      rw [List.drop_eq_getElem_cons hi, (List.getElem?_eq_some_iff.1 hc).2]
    simp only [copyName, if_pos hname, Res.ok_bind, Res.pure_eq]
    refine ⟨_, _, _, rfl, ?_, ?_⟩
    · rw [hext, List.append_assoc, List.take_append_drop, List.take_append_drop]
    · intro hcar
      obtain ⟨s1, s2⟩ := hseps hcar
      refine ⟨s1, ?_, Or.inr ⟨(token.drop k).drop (i + 1), ?_, ?_⟩⟩
      · rw [hext, List.take_append_drop]; exact s2
      · rw [hext, List.drop_eq_getElem_cons hi, (List.getElem?_eq_some_iff.1 hc).2]
      · obtain ⟨_, _, _, h3⟩ := (searchLast_none_after (p := (· == '.')) (by decide) (hcar2 hcar)).1 i hdot
        intro hm
        have := h3 '.' hm
        simp at this

/-- A path without drive and without caret, shorter than the buffers: the parts make up the path; the directory is empty or ends with a separator;
name and extension contain none; the extension begins at the last dot.  Missing: paths with a drive, with carets, or too long. -/
theorem C36_split_partial (max : Nat) (path : List Char) (hlen : path.length < max) (hd : ¬ HasDrive path) (hcar : '^' ∉ path) :
    ∃ dir name ext, splitPath max path = .ok ⟨[], dir, name, ext⟩ ∧ dir ++ name ++ ext = path ∧
      (dir = [] ∨ ∃ d c, dir = d ++ [c] ∧ PathSep c) ∧ (∀ c ∈ name ++ ext, ¬ PathSep c) ∧
      ((ext = [] ∧ '.' ∉ name) ∨ ∃ r, ext = '.' :: r ∧ '.' ∉ r) := by
  have hn := (driveOf_none path).2 hd
  obtain ⟨dir, name, ext, h1, h2, h3⟩ := split_rest max path [] hlen
  rw [splitPath, hn]
  exact ⟨dir, name, ext, h1, h2, h3 hcar⟩

/-- With carets the parts still make up the path. -/
theorem C36_lossless_partial (max : Nat) (path : List Char) (hlen : path.length < max) (hd : ¬ HasDrive path) :
    ∃ p, splitPath max path = .ok p ∧ p.drive ++ p.dir ++ p.name ++ p.ext = path := by
  have hn := (driveOf_none path).2 hd
  obtain ⟨dir, name, ext, h1, h2, -⟩ := split_rest max path [] hlen
  rw [splitPath, hn]
  exact ⟨_, h1, h2⟩

/-- Violation: for every path with a drive, the separator that follows the colon is lost: the parts make up the path without it, so that
the result denotes another file. -/
theorem C36_drive_loses_separator (max : Nat) (d c : Char) (r : List Char) (hc : PathSep c) (hlen : r.length < max) :
    ∃ p, splitPath max (d :: ':' :: c :: r) = .ok p ∧ p.drive = [d, ':'] ∧ p.drive ++ p.dir ++ p.name ++ p.ext = d :: ':' :: r := by
  have hn := (driveOf_iff (d :: ':' :: c :: r) d).2 ⟨c, r, rfl, hc⟩
  obtain ⟨dir, name, ext, h1, h2, -⟩ := split_rest max r [d, ':'] hlen
  rw [splitPath, hn]
  refine ⟨_, h1, rfl, ?_⟩
  simp only [List.append_assoc, List.cons_append, List.nil_append] at h2 ⊢
  rw [h2]

/-- Violation: a caret, an ordinary character of file names, hides the separator after it: the name contains it. -/
theorem C36_caret : ∃ p, splitPath 4096 "a^/b.c".toList = .ok p ∧ '/' ∈ p.name := by
  exact ⟨⟨[], [], "a^/b".toList, ".c".toList⟩, by decide +kernel, by decide⟩

/-- Violation: a name that fills the buffer is left without terminator, for every buffer size. -/
theorem C36_long (max : Nat) (hmax : 0 < max) (s : List Char) (hlen : max ≤ s.length) (hs : ∀ c ∈ s, ¬ PathSep c ∧ c ≠ '.' ∧ c ≠ '^' ∧ c ≠ ':') :
    splitPath max s = .ub := by
  have hcar : '^' ∉ s := fun h => (hs _ h).2.2.1 rfl
  have hd : driveOf s = none := by
    rw [driveOf_none]
    rintro ⟨d, c, r, rfl, hc⟩
    exact (hs ':' (by simp)).2.2.2 rfl
  have h1 : searchLastTok (fun c => c == '\\' || c == '/') s = none := by
    cases h : searchLastTok (fun c => c == '\\' || c == '/') s with
    | none => rfl
    | some i =>
      obtain ⟨c, h1, h2, -⟩ := (searchLast_none_after (p := fun c => c == '\\' || c == '/') (by decide) hcar).1 i h
      exact absurd (by unfold PathSep; simpa using h2) (hs c (List.mem_of_getElem? h1)).1
  have h2 : searchLastTok (· == '.') s = none := by
    cases h : searchLastTok (· == '.') s with
    | none => rfl
    | some i =>
      obtain ⟨c, h1, h2, -⟩ := (searchLast_none_after (p := (· == '.')) (by decide) hcar).1 i h
      exact absurd (by simpa using h2) (hs c (List.mem_of_getElem? h1)).2.1
  have hk : dirLen s = 0 := by rw [dirLen, h1]
  simp only [splitPath, hd, splitToken, hk, List.take_zero, List.drop_zero, splitName, h2]
  rw [copyName, if_pos (by simp; omega), Res.ok_bind, copyName, if_neg (by omega)]
  rfl

/- Examples. -/
example : splitPath 4096 "/usr/lib.d/a.tar.gz".toList = .ok ⟨[], "/usr/lib.d/".toList, "a.tar".toList, ".gz".toList⟩ := by decide +kernel
example : splitPath 4096 "c:\\dir\\f".toList = .ok ⟨"c:".toList, "dir\\".toList, "f".toList, []⟩ := by decide +kernel
example : "/usr/lib.d/a.tar.gz".toList.length < 4096 ∧ '^' ∉ "/usr/lib.d/a.tar.gz".toList := by decide
example : ¬ HasDrive "/usr/lib.d/a.tar.gz".toList := (driveOf_none _).1 (by decide)
example : HasDrive "c:/f".toList := ⟨'c', '/', ['f'], rfl, Or.inr rfl⟩

end PBat
