import Verif.Model.Ren
import Verif.Spec.FileMap
/-
C58: REN gives the file a new name in the directory it is in.
-/
namespace PBat
open Spec

theorem renCut_dir (d n : List Char) (h1 : d.getLast? = some '/') (h2 : '/' ∉ n) (h3 : '\\' ∉ n) : renCut (d ++ n) = d := by
  obtain ⟨d', rfl⟩ : ∃ d', d = d' ++ ['/'] := by
    rw [List.getLast?_eq_some_iff] at h1
    obtain ⟨ys, h⟩ := h1
    exact ⟨ys, h⟩
  unfold renCut renDir
  rw [if_pos (by simp)]
  have : (d' ++ ['/'] ++ n).reverse = n.reverse ++ '/' :: d'.reverse := by simp
  rw [this, List.dropWhile_append_of_pos]
  · simp
  · intro c hc
    rw [List.mem_reverse] at hc
    have e1 : c ≠ '/' := by rintro rfl; exact h2 hc
    have e2 : c ≠ '\\' := by rintro rfl; exact h3 hc
    simp [e1, e2]

/-- A name without separators. -/
def PlainName (b : List Char) : Prop := '/' ∉ b ∧ '\\' ∉ b

theorem plainName_any {b : List Char} : (b.any (fun c => c = '/' || c = '\\') = false) ↔ PlainName b := by
  rw [List.any_eq_false]
  constructor
  · intro h
    exact ⟨fun h' => by simpa using h _ h', fun h' => by simpa using h _ h'⟩
  · rintro ⟨h1, h2⟩ c hc
    have e1 : c ≠ '/' := by rintro rfl; exact h1 hc
    have e2 : c ≠ '\\' := by rintro rfl; exact h2 hc
    simp [e1, e2]

/-- The file `n` in the directory `d` is renamed to `b` in `d`; the error level says whether the system did it.  Missing: a name `n` with a backslash
(`C58_backslash`), and paths that do not fit in the buffers (`C58_overflow`, `C58_cut`). -/
theorem C58_renames_partial {W : Type} (rename : W → List Char → List Char → W × Bool) (full : List Char → List Char) (a b d n : List Char)
    (more : List (List Char)) (w : W) (ha : full a = d ++ n) (hd : d.getLast? = some '/') (hn : PlainName n) (hb : PlainName b)
    (hl : (full a).length < 4096) (hl' : d.length + b.length < 4096) :
    cmdRen rename full (a :: b :: more) w = .ok ((rename w (d ++ n) (d ++ b)).1, if (rename w (d ++ n) (d ++ b)).2 then 0 else 10) := by
  unfold cmdRen
  simp only
  rw [plainName_any.2 hb, List.take_of_length_le (by unfold filenameMax; omega), ha, renCut_dir d n hd hn.1 hn.2]
  rw [if_neg (by simp), if_neg (by unfold filenameMax; omega)]

/-- A new name with a separator is refused, and nothing is done; so is a missing name. -/
theorem C58_refused {W : Type} (rename : W → List Char → List Char → W × Bool) (full : List Char → List Char) (a b : List Char)
    (more : List (List Char)) (w : W) (hb : ¬ PlainName b) :
    cmdRen rename full (a :: b :: more) w = .ok (w, 52) ∧ cmdRen rename full [a] w = .ok (w, 8) ∧ cmdRen rename full [] w = .ok (w, 8) := by
  refine ⟨?_, rfl, rfl⟩
  unfold cmdRen
  simp only
  rw [if_pos]
  rw [← plainName_any] at hb
  simpa only [Bool.not_eq_false] using hb

/-- The effect on the files: the new name has the contents, the former one is free, and nothing else changes. -/
theorem C58_files_partial (full : List Char → List Char) (a b d n x : List Char) (more : List (List Char)) (f : Files)
    (ha : full a = d ++ n) (hd : d.getLast? = some '/') (hn : PlainName n) (hb : PlainName b)
    (hl : (full a).length < 4096) (hl' : d.length + b.length < 4096) (hx : f (d ++ n) = some x) :
    ∃ f', cmdRen Files.rename full (a :: b :: more) f = .ok (f', 0) ∧ f' (d ++ b) = some x ∧ (n ≠ b → f' (d ++ n) = none) ∧
      ∀ p, p ≠ d ++ n → p ≠ d ++ b → f' p = f p := by
  rw [C58_renames_partial Files.rename full a b d n more f ha hd hn hb hl hl']
  unfold Files.rename
  rw [hx]
  refine ⟨_, rfl, by simp, ?_, ?_⟩
  · intro h
    simp [h]
  · intro p h1 h2
    simp [h1, h2]

/-- A file that is not there cannot be renamed: level 10, nothing changes. -/
theorem C58_missing_partial (full : List Char → List Char) (a b d n : List Char) (more : List (List Char)) (f : Files)
    (ha : full a = d ++ n) (hd : d.getLast? = some '/') (hn : PlainName n) (hb : PlainName b)
    (hl : (full a).length < 4096) (hl' : d.length + b.length < 4096) (hx : f (d ++ n) = none) :
    cmdRen Files.rename full (a :: b :: more) f = .ok (f, 10) := by
  rw [C58_renames_partial Files.rename full a b d n more f ha hd hn hb hl hl']
  unfold Files.rename
  rw [hx]
  rfl

/-! ### Violations -/

/-- Another file that has the new name already is lost, without question. -/
theorem C58_overwrites (full : List Char → List Char) (a b d n x y : List Char) (f : Files)
    (ha : full a = d ++ n) (hd : d.getLast? = some '/') (hn : PlainName n) (hb : PlainName b)
    (hl : (full a).length < 4096) (hl' : d.length + b.length < 4096) (hx : f (d ++ n) = some x) (_ : f (d ++ b) = some y) (_ : n ≠ b) :
    ∃ f', cmdRen Files.rename full [a, b] f = .ok (f', 0) ∧ f' (d ++ b) = some x := by
  obtain ⟨f', h1, h2, -⟩ := C58_files_partial full a b d n x [] f ha hd hn hb hl hl' hx
  exact ⟨f', h1, h2⟩

/-- A file whose name has a backslash keeps what precedes it: `REN x\y z` makes it `x\z`. -/
theorem C58_backslash {W : Type} (rename : W → List Char → List Char → W × Bool) (full : List Char → List Char) (a b d m n : List Char)
    (w : W) (ha : full a = d ++ m ++ '\\' :: n) (hn : PlainName n) (hb : PlainName b)
    (hl : (full a).length < 4096) (hl' : (d ++ m).length + 1 + b.length < 4096) :
    cmdRen rename full [a, b] w =
      .ok ((rename w (full a) (d ++ m ++ '\\' :: b)).1, if (rename w (full a) (d ++ m ++ '\\' :: b)).2 then 0 else 10) := by
  have hcut : renCut (d ++ m ++ '\\' :: n) = d ++ m ++ ['\\'] := by
    unfold renCut renDir
    rw [if_pos (by simp)]
    have : (d ++ m ++ '\\' :: n).reverse = n.reverse ++ '\\' :: (d ++ m).reverse := by simp
    rw [this, List.dropWhile_append_of_pos]
    · simp
    · intro c hc
      rw [List.mem_reverse] at hc
      have e1 : c ≠ '/' := by rintro rfl; exact hn.1 hc
      have e2 : c ≠ '\\' := by rintro rfl; exact hn.2 hc
      simp [e1, e2]
  have e : d ++ m ++ '\\' :: b = d ++ m ++ ['\\'] ++ b := by simp
  unfold cmdRen
  simp only
  rw [plainName_any.2 hb, List.take_of_length_le (by unfold filenameMax; omega), ha, hcut, e, if_neg (by simp), if_neg]
  simp only [List.length_append, List.length_singleton, filenameMax] at hl' ⊢
  omega

/-- A new name that does not fit with the directory in the buffer is undefined behaviour. -/
theorem C58_overflow {W : Type} (rename : W → List Char → List Char → W × Bool) (full : List Char → List Char) (a b d n : List Char)
    (w : W) (ha : full a = d ++ n) (hd : d.getLast? = some '/') (hn : PlainName n) (hb : PlainName b) (hl : (full a).length < 4096)
    (hl' : 4096 ≤ d.length + b.length) : cmdRen rename full [a, b] w = .ub := by
  unfold cmdRen
  simp only
  rw [plainName_any.2 hb, List.take_of_length_le (by unfold filenameMax; omega), ha, renCut_dir d n hd hn.1 hn.2]
  rw [if_neg (by simp), if_pos (by unfold filenameMax; omega)]

/-- Of a path that does not fit in the buffer, only the beginning is used: another file is renamed. -/
theorem C58_cut {W : Type} (rename : W → List Char → List Char → W × Bool) (full : List Char → List Char) (a b d n n' : List Char)
    (w : W) (ha : full a = d ++ n ++ n') (hd : d.getLast? = some '/') (hn : PlainName n) (hb : PlainName b) (hl : (d ++ n).length = 4095)
    (hl' : d.length + b.length < 4096) :
    cmdRen rename full [a, b] w = .ok ((rename w (d ++ n) (d ++ b)).1, if (rename w (d ++ n) (d ++ b)).2 then 0 else 10) := by
  unfold cmdRen
  simp only
  rw [plainName_any.2 hb, ha, List.take_left' (by rw [hl]; rfl), renCut_dir d n hd hn.1 hn.2]
  rw [if_neg (by simp), if_neg (by unfold filenameMax; omega)]

/-- A case: `REN a b` in `/d`. -/
example : ∃ f', cmdRen Files.rename (fun p => ['/', 'd', '/'] ++ p) [['a'], ['b']] (fun p => if p = ['/', 'd', '/', 'a'] then some ['x'] else none) = .ok (f', 0) ∧
    f' ['/', 'd', '/', 'b'] = some ['x'] ∧ f' ['/', 'd', '/', 'a'] = none := by
  obtain ⟨f', h1, h2, h3, -⟩ := C58_files_partial (fun p => ['/', 'd', '/'] ++ p) ['a'] ['b'] ['/', 'd', '/'] ['a'] ['x'] []
    (fun p => if p = ['/', 'd', '/', 'a'] then some ['x'] else none) rfl rfl (by unfold PlainName; decide) (by unfold PlainName; decide) (by decide) (by decide) (by decide)
  exact ⟨f', h1, h2, h3 (by decide)⟩

end PBat
