import Verif.Model.Find
import Verif.Spec.Find
import Verif.Lemmas.Num
import Verif.Lemmas.ReplaceI
import Verif.Lemmas.If
import Verif.Props.C04
import Verif.Props.C33
import Verif.Props.C34
/-
C51: FIND prints exactly the lines that contain the text.
-/
namespace PBat
open Spec

theorem lineOf_rmTrailingNl {t l : List Char} (h : LineOf t l) : rmTrailingNl t = l := by
  unfold rmTrailingNl
  cases h with
  | lf l => simp
  | bare l h =>
    rw [if_neg]
    intro hl
    refine h ⟨t.dropLast, ?_⟩
    have hne : t ≠ [] := by rintro rfl; simp at hl
    have := List.dropLast_concat_getLast hne
    rw [List.getLast?_eq_some_getLast hne] at hl
    rw [Option.some.inj hl] at this
    exact this

theorem infix_cons_iff' {t : List Char} {c : Char} {s : List Char} : t <:+: c :: s ↔ t <+: c :: s ∨ t <:+: s := by
  exact List.infix_cons_iff

theorem strcasestr_iff (c : Char) (f s : List Char) :
    strcasestr c f s = true ↔ (c :: f).map Char.toLower <:+: s.map Char.toLower := by
  induction s with
  | nil => simp [strcasestr]
  | cons d s ih =>
    rw [strcasestr, List.map_cons, List.map_cons, infix_cons_iff', List.cons_prefix_cons, ← prefixI_iff, ← List.map_cons, ← ih]
    split
    · next h => simp [h.1, h.2]
    · next h =>
      constructor
      · exact .inr
      · rintro (⟨h1, h2⟩ | h1)
        · exact absurd ⟨h1.symm, h2⟩ h
        · exact h1

theorem strstr_iff (t : List Char) (ht : t ≠ []) (s : List Char) : (strstr t s).isSome = true ↔ t <:+: s := by
  induction s with
  | nil => simp [strstr, ht]
  | cons d s ih =>
    rw [strstr, infix_cons_iff']
    split
    · next h => simp [List.isPrefixOf_iff_prefix.1 h]
    · next h =>
      rw [Option.isSome_map, ih]
      constructor
      · exact .inr
      · rintro (h1 | h1)
        · exact absurd (List.isPrefixOf_iff_prefix.2 h1) h
        · exact h1

theorem findHit_contains (utf8 : Bool) (m : FindMode) (hre : m.re = false) {t : List Char} (ht : t ≠ []) (l : List Char) :
    findHit utf8 m t l = decide (Contains m.ci t l) := by
  obtain ⟨c, s, rfl⟩ := List.exists_cons_of_ne_nil ht
  rw [findHit]
  rw [hre]
  simp only [Bool.false_eq_true, ↓reduceIte]
  unfold Contains
  cases m.ci with
  | true =>
    simp only [↓reduceIte]
    rw [Bool.eq_iff_iff, strcasestr_iff, decide_eq_true_iff]
  | false =>
    simp only [Bool.false_eq_true, ↓reduceIte]
    rw [Bool.eq_iff_iff, strstr_iff _ ht, decide_eq_true_iff]

/-- The loop, for any test. -/
theorem findLoop_eq (utf8 : Bool) (m : FindMode) (t : List Char) (asked : List Char → Bool)
    (texts ls : List (List Char)) (hls : ls = texts.map rmTrailingNl)
    (ha : ∀ l ∈ ls, (m.reverse != findHit utf8 m t l) = asked l) (line i : Nat) (hn : line + texts.length < 2 ^ 31) :
    findLoop utf8 m t line i texts =
      .ok (((ls.zipIdx (line + 1)).filter (fun p => asked p.1)).flatMap (fun p => findPrint m (p.2 : Nat) p.1),
        ((i + (ls.filter asked).length : Nat) : Int)) := by
  induction texts generalizing ls line i with
  | nil => subst hls; simp [findLoop]
  | cons x texts ih =>
    subst hls
    rw [List.length_cons] at hn
    rw [findLoop, if_neg (by omega)]
    have hx := ha (rmTrailingNl x) (by simp)
    have ha' : ∀ l ∈ texts.map rmTrailingNl, (m.reverse != findHit utf8 m t l) = asked l := fun l hl =>
      ha l (by rw [List.map_cons]; exact List.mem_cons_of_mem _ hl)
    have ih1 := ih _ rfl ha' (line + 1) (i + 1) (by omega)
    have ih2 := ih _ rfl ha' (line + 1) i (by omega)
    rw [hx, List.map_cons, List.zipIdx_cons, List.filter_cons, List.filter_cons]
    rw [show ((line : Int) + 1) = ((line + 1 : Nat) : Int) by simp, show ((i : Int) + 1) = ((i + 1 : Nat) : Int) by simp]
    split
    · next h =>
      rw [ih1]
      simp only [Res.ok_bind, Res.pure_eq, h, ↓reduceIte, List.flatMap_cons, List.length_cons]
      rw [show i + 1 + (List.filter asked (texts.map rmTrailingNl)).length =
        i + ((List.filter asked (texts.map rmTrailingNl)).length + 1) by omega]
    · next h =>
      rw [ih2]

theorem intText_nat (n : Nat) : intText n = (toString n).toList := by
  rw [intText_toString]
  rfl

/-- The search in one file, for any test. -/
theorem fileFind_eq (utf8 : Bool) (m : FindMode) (hc : m.count ≤ 2) (t : List Char) (asked : List Char → Bool)
    {texts ls : List (List Char)} (hls : ls = texts.map rmTrailingNl)
    (ha : ∀ l ∈ ls, (m.reverse != findHit utf8 m t l) = asked l) (hn : texts.length < 2 ^ 31) :
    fileFind utf8 m t (some texts) = .ok (findOutput asked m.count ls, findStatus asked ls) := by
  rw [fileFind]
  have := findLoop_eq utf8 m t asked texts ls hls ha 0 0 (by omega)
  rw [show ((0 : Nat) : Int) = 0 from rfl] at this
  rw [this]
  simp only [Res.ok_bind, Res.pure_eq, Nat.zero_add]
  have hst : (if ((ls.filter asked).length : Int) = 0 then (1 : Int) else 0) = findStatus asked ls := by
    unfold findStatus
    by_cases h : ∃ l ∈ ls, asked l = true
    · rw [if_pos h, if_neg]
      obtain ⟨l, hl, h2⟩ := h
      have : l ∈ ls.filter asked := List.mem_filter.2 ⟨hl, h2⟩
      have := List.length_pos_of_mem this
      omega
    · rw [if_neg h, if_pos]
      rw [List.filter_eq_nil_iff.2 (fun l hl h2 => h ⟨l, hl, h2⟩)]
      rfl
  rw [hst]
  congr 2
  obtain ⟨ci, re, rv, n⟩ := m
  simp only at hc ⊢
  match n, hc with
  | 0, _ =>
    simp only [findPrint, findOutput]
    rw [if_neg (by decide), List.append_nil]
    simp only [Nat.zero_ne_one, ↓reduceIte]
    generalize 1 = k
    clear hls ha hst this
    induction ls generalizing k with
    | nil => rfl
    | cons a ls ih =>
      rw [List.zipIdx_cons, List.filter_cons, List.filter_cons]
      split
      · rw [List.flatMap_cons, ih]; rfl
      · rw [ih]
  | 1, _ =>
    simp only [findPrint, findOutput]
    rw [if_neg (by decide), List.append_nil]
    simp only [↓reduceIte]
    rw [List.flatMap_def]
    generalize (ls.zipIdx 1).filter (fun p => asked p.1) = q
    induction q with
    | nil => rfl
    | cons a q ih =>
      rw [List.map_cons, List.flatten_cons, ih, List.map_cons, intText_nat]
      simp [String.toList_append]
  | 2, _ =>
    simp only [findPrint, findOutput]
    rw [if_pos trivial, intText_nat]
    simp

/-- The lines of a file, one for each text read. -/
def FileLines (texts ls : List (List Char)) : Prop :=
  texts.length = ls.length ∧ ∀ p ∈ texts.zip ls, LineOf p.1 p.2

theorem fileLines_map {texts ls : List (List Char)} (h : FileLines texts ls) : ls = texts.map rmTrailingNl := by
  obtain ⟨h1, h2⟩ := h
  induction texts generalizing ls with
  | nil =>
    cases ls with
    | nil => rfl
    | cons _ _ => simp at h1
  | cons t texts ih =>
    cases ls with
    | nil => simp at h1
    | cons l ls =>
      rw [List.map_cons, lineOf_rmTrailingNl (h2 (t, l) (by simp)),
        ← ih (by simpa using h1) (fun p hp => h2 p (by rw [List.zip_cons_cons]; exact List.mem_cons_of_mem _ hp))]

/-- Searching a file for a non-empty text prints exactly the lines containing it (not containing it with /V), in order, as asked by
/N and /C, and the result is 0 iff there is one.  Missing: the empty text (`C51_empty`), files that cannot be opened
(`C51_unreadable`), directories (`C51_directory`), and files of 2^31 lines or more. -/
theorem C51_lines_partial (utf8 : Bool) (m : FindMode) (hc : m.count ≤ 2) (hre : m.re = false) {t : List Char} (ht : t ≠ [])
    {texts ls : List (List Char)} (hls : FileLines texts ls) (hn : texts.length < 2 ^ 31) :
    fileFind utf8 m t (some texts) =
      .ok (findOutput (fun l => decide (Asked m.ci m.reverse t l)) m.count ls,
        findStatus (fun l => decide (Asked m.ci m.reverse t l)) ls) := by
  refine fileFind_eq utf8 m hc t _ (fileLines_map hls) (fun l _ => ?_) hn
  rw [findHit_contains utf8 m hre ht]
  unfold Asked
  cases m.reverse <;> by_cases h : Contains m.ci t l <;> simp [h]

/-- From the bytes of the file on: the lines are those of the file with its line ends normalised. -/
theorem C51_bytes_partial (utf8 : Bool) (m : FindMode) (hc : m.count ≤ 2) (hre : m.re = false) {t : List Char} (ht : t ≠ [])
    (g : Nat → Char) (s : List Char) (e : Estr) (t0 : List Char) (h : Holds e t0) (hlen : e.len ≤ 2 ^ 28) (hnul : NUL ∉ s)
    (hb : ∀ l ∈ lines s, l.length ≤ 2 ^ 27) (hcr : ∀ i, s[i]? = some '\r' → s[i + 1]? = some '\n')
    (texts ls : List (List Char)) (hr : Reads g e s texts) (hls : FileLines (lines (normNL s)) ls) (hn : ls.length < 2 ^ 31) :
    fileFind utf8 m t (some texts) =
      .ok (findOutput (fun l => decide (Asked m.ci m.reverse t l)) m.count ls,
        findStatus (fun l => decide (Asked m.ci m.reverse t l)) ls) := by
  rw [(C04_lines_partial g s e t0 h hlen hnul hb hcr texts).1 hr]
  exact C51_lines_partial utf8 m hc hre ht hls (by rw [hls.1]; exact hn)

/-- With /E the lines printed are those that match the expression, as far as matching is right (C33): for expressions of ASCII
characters without `?` after a `*`, not ending with `*`, and lines in UTF-8. -/
theorem C51_expression_partial (m : FindMode) (hc : m.count ≤ 2) (hre : m.re = true) {t : List Char} (ht : t ≠ [])
    (hta : ∀ c ∈ t, c.toNat < 0x80) (hq : '?' ∉ t.dropWhile (· != '*')) (hl : t.getLast? ≠ some '*')
    {texts : List (List Char)} {ls : List (List (List Char))} (hg : ∀ l ∈ ls, ∀ g ∈ l, Glyph g)
    (hls : FileLines texts (ls.map List.flatten)) (hn : texts.length < 2 ^ 31) (asked : List Char → Bool)
    (hasked : ∀ l ∈ ls, asked l.flatten = true ↔ if m.reverse then ¬ Wild m.ci t l else Wild m.ci t l) :
    fileFind true m t (some texts) = .ok (findOutput asked m.count (ls.map List.flatten), findStatus asked (ls.map List.flatten)) := by
  refine fileFind_eq true m hc t _ (fileLines_map hls) (fun l h => ?_) hn
  obtain ⟨gs, hgs, rfl⟩ := List.mem_map.1 h
  have h1 := hasked gs hgs
  have h2 := C33_match_partial m.ci t hta hq gs (hg gs hgs)
  rw [if_neg hl] at h2
  have h3 : findHit true m t gs.flatten = wildMatch m.ci true t gs.flatten := by
    obtain ⟨c, s, rfl⟩ := List.exists_cons_of_ne_nil ht
    rw [findHit, hre]
    rfl
  rw [h3, Bool.eq_iff_iff, h1, ← h2]
  cases m.reverse <;> cases wildMatch m.ci true t gs.flatten <;> simp

/-- The options of FIND. -/
inductive FindOption : List Char → FindMode → FindMode → Prop
  | count {p m} : fold p = "/c".toList → FindOption p m { m with count := 2 }
  | number {p m} : fold p = "/n".toList → FindOption p m { m with count := 1 }
  | case {p m} : fold p = "/i".toList → FindOption p m { m with ci := true }
  | expr {p m} : fold p = "/e".toList → FindOption p m { m with re := true }
  | reverse {p m} : fold p = "/v".toList → FindOption p m { m with reverse := true }

/-- Some options, in order. -/
inductive FindOptions : List (List Char) → FindMode → FindMode → Prop
  | nil {m} : FindOptions [] m m
  | cons {p ps m m' m''} : FindOption p m m' → FindOptions ps m' m'' → FindOptions (p :: ps) m m''

/-- Arguments that are no options. -/
def PlainArg (p : List Char) : Prop := p ≠ "/?".toList ∧ fold p ∉ ["/c", "/n", "/i", "/e", "/v"].map String.toList

theorem findParams_option (search : List Char → List FindFile) (str : Option (List Char)) (files : List FindFile)
    {p : List Char} {m m' : FindMode} (h : FindOption p m m') (ps : List (List Char)) :
    findParams search m str files (p :: ps) = findParams search m' str files ps := by
  have hq : p ≠ "/?".toList := by
    rintro rfl
    cases h <;> next h => exact absurd h (by decide)
  rw [findParams.eq_def]
  simp only
  rw [if_neg hq]
  simp only [stricmp_zero]
  cases h with
  | count h => rw [if_pos (h.trans (by decide))]
  | number h => rw [if_neg (by rw [h]; decide), if_pos (h.trans (by decide))]
  | case h => rw [if_neg (by rw [h]; decide), if_neg (by rw [h]; decide), if_pos (h.trans (by decide))]
  | expr h =>
    rw [if_neg (by rw [h]; decide), if_neg (by rw [h]; decide), if_neg (by rw [h]; decide), if_pos (h.trans (by decide))]
  | reverse h =>
    rw [if_neg (by rw [h]; decide), if_neg (by rw [h]; decide), if_neg (by rw [h]; decide), if_neg (by rw [h]; decide),
      if_pos (h.trans (by decide))]

theorem findParams_plain (search : List Char → List FindFile) (m : FindMode) (str : Option (List Char)) (files : List FindFile)
    {p : List Char} (h : PlainArg p) (ps : List (List Char)) :
    findParams search m str files (p :: ps) = match str with
      | none => findParams search m (some p) files ps
      | some _ => if search p = [] then .error 42 else findParams search m str (files ++ search p) ps := by
  obtain ⟨h1, h2⟩ := h
  rw [findParams.eq_def]
  simp only
  rw [if_neg h1]
  simp only [stricmp_zero]
  have h3 : ∀ x ∈ ["/c", "/n", "/i", "/e", "/v"].map String.toList, fold p ≠ x := fun x hx e => h2 (e ▸ hx)
  rw [if_neg (h3 _ (by decide)), if_neg (h3 _ (by decide)), if_neg (h3 _ (by decide)), if_neg (h3 _ (by decide)),
    if_neg (h3 _ (by decide))]
  cases str <;> rfl

theorem findParams_options (search : List Char → List FindFile) (str : Option (List Char)) (files : List FindFile)
    {ps : List (List Char)} {m m' : FindMode} (h : FindOptions ps m m') (rest : List (List Char)) :
    findParams search m str files (ps ++ rest) = findParams search m' str files rest := by
  induction h with
  | nil => rfl
  | cons h1 _ ih => rw [List.cons_append, findParams_option search str files h1, ih]

/-- `FIND options text` searches the standard input, `FIND options text file` the file found. -/
theorem C51_command (utf8 : Bool) (search : List Char → List FindFile) (input : List (List Char)) {opts : List (List Char)}
    {m : FindMode} (ho : FindOptions opts ⟨false, false, false, 0⟩ m) {t p : List Char} (ht : PlainArg t) (hp : PlainArg p) :
    cmdFind utf8 search input (opts ++ [t]) = fileFind utf8 m t (some input) ∧
    (∀ f, search p = [f] → cmdFind utf8 search input (opts ++ [t, p]) = fileFind utf8 m t f.texts) ∧
    (search p = [] → cmdFind utf8 search input (opts ++ [t, p]) = .ok ([], 42)) := by
  refine ⟨?_, fun f hf => ?_, fun hf => ?_⟩
  · rw [cmdFind, findParams_options search none [] ho, findParams_plain search m none [] ht]
    rfl
  · rw [cmdFind, findParams_options search none [] ho, findParams_plain search m none [] ht]
    simp only
    rw [findParams_plain search m (some t) [] hp]
    simp only
    rw [if_neg (by rw [hf]; simp), hf]
    simp only [findParams, List.nil_append, List.filter_cons, C34_find_filter, ↓reduceIte, List.filter_nil]
  · rw [cmdFind, findParams_options search none [] ho, findParams_plain search m none [] ht]
    simp only
    rw [findParams_plain search m (some t) [] hp]
    simp only
    rw [if_pos hf]

/-- Several files: each is announced by its name and searched; the result is 0 only if a line was found in every one. -/
theorem C51_files (utf8 : Bool) (search : List Char → List FindFile) (input : List (List Char)) {opts : List (List Char)}
    {m : FindMode} (ho : FindOptions opts ⟨false, false, false, 0⟩ m) {t p : List Char} (ht : PlainArg t) (hp : PlainArg p)
    (hlen : 2 ≤ (search p).length) (out : FindFile → List (List Char)) (st : FindFile → Int)
    (hst : ∀ f ∈ search p, st f = 0 ∨ st f = 1)
    (hf : ∀ f ∈ search p, fileFind utf8 m t f.texts = .ok (out f, st f)) :
    cmdFind utf8 search input (opts ++ [t, p]) =
      .ok ((search p).flatMap (fun f => ("---------- ".toList ++ f.name) :: out f), if ∀ f ∈ search p, st f = 0 then 0 else 1) := by
  have hloop : ∀ (fs : List FindFile) (s : Int), (s = 0 ∨ s = 1) → (∀ f ∈ fs, st f = 0 ∨ st f = 1) →
      (∀ f ∈ fs, fileFind utf8 m t f.texts = .ok (out f, st f)) →
      findFiles utf8 m t s fs = .ok (fs.flatMap (fun f => ("---------- ".toList ++ f.name) :: out f),
        if s = 0 ∧ ∀ f ∈ fs, st f = 0 then 0 else 1) := by
    intro fs
    induction fs with
    | nil =>
      intro s hs _ _
      rw [findFiles]
      rcases hs with rfl | rfl <;> simp
    | cons f fs ih =>
      intro s hs h1 h2
      rw [findFiles, h2 f (by simp)]
      simp only [Res.ok_bind]
      rw [ih _ (by rcases hs with rfl | rfl <;> simp [h1 f (by simp)]) (fun g hg => h1 g (by simp [hg]))
        (fun g hg => h2 g (by simp [hg]))]
      simp only [Res.ok_bind, Res.pure_eq, List.flatMap_cons, List.cons_append]
      rcases hs with rfl | rfl <;> rcases h1 f (by simp) with h | h <;> simp [h]
  rw [cmdFind, findParams_options search none [] ho, findParams_plain search m none [] ht]
  simp only
  rw [findParams_plain search m (some t) [] hp]
  simp only
  have hne : search p ≠ [] := by intro h; rw [h] at hlen; simp at hlen
  rw [if_neg hne]
  simp only [findParams, List.nil_append]
  have hfil : (search p).filter (fun f => checkFileAttributes 0x800#16 f.stat) = search p :=
    List.filter_eq_self.2 (fun f _ => C34_find_filter f.stat)
  have := hloop (search p) 0 (.inl rfl) hst hf
  simp only [true_and] at this
  rw [← this]
  match hs : search p, hlen with
  | a :: b :: l, _ =>
    rw [hs] at hfil
    simp only [hfil]

/-- The claim is false for the empty text, which every line contains: nothing is found. -/
theorem C51_empty (utf8 : Bool) (m : FindMode) (texts : List (List Char)) (hn : texts.length < 2 ^ 31) (hm : m.count = 0) :
    (m.reverse = false → fileFind utf8 m [] (some texts) = .ok ([], 1)) ∧
    (m.reverse = true → texts ≠ [] → fileFind utf8 m [] (some texts) = .ok (texts.map rmTrailingNl, 0)) := by
  constructor
  · intro hr
    rw [fileFind_eq utf8 m (by omega) [] (fun _ => false) rfl (fun l _ => by rw [hr]; rfl) hn, hm]
    simp [findOutput, findStatus]
  · intro hr hne
    rw [fileFind_eq utf8 m (by omega) [] (fun _ => true) rfl (fun l _ => by rw [hr]; rfl) hn, hm]
    obtain ⟨a, l, rfl⟩ := List.exists_cons_of_ne_nil hne
    simp [findOutput, findStatus]

/-- A file that is found but cannot be opened is undefined behaviour: the null stream is closed. -/
theorem C51_unreadable (utf8 : Bool) (search : List Char → List FindFile) (input : List (List Char)) {t p : List Char}
    (ht : PlainArg t) (hp : PlainArg p) (f : FindFile) (hf : search p = [f]) (hu : f.texts = none) :
    cmdFind utf8 search input [t, p] = .ub := by
  rw [show [t, p] = [] ++ [t, p] from rfl, (C51_command utf8 search input .nil ht hp).2.1 f hf, hu]
  rfl

/-- Directories are not ignored, contrary to the manual: one beside a file holding the text is announced, and makes the search fail.
(A directory can be opened; reading gives no line.) -/
theorem C51_directory (utf8 : Bool) (search : List Char → List FindFile) (input : List (List Char)) {t p : List Char}
    (ht : PlainArg t) (hp : PlainArg p) (f d : FindFile) (hf : search p = [f, d]) (_hd : d.stat.dir = true) (hdt : d.texts = some [])
    (out : List (List Char)) (hfo : fileFind utf8 ⟨false, false, false, 0⟩ t f.texts = .ok (out, 0)) :
    cmdFind utf8 search input [t, p] =
      .ok (("---------- ".toList ++ f.name) :: out ++ ["---------- ".toList ++ d.name], 1) := by
  have hdo : fileFind utf8 ⟨false, false, false, 0⟩ t d.texts = .ok ([], 1) := by rw [hdt]; rfl
  have hpar : findParams search ⟨false, false, false, 0⟩ none [] [t, p] = .ok (⟨false, false, false, 0⟩, some t, [f, d]) := by
    rw [findParams_plain _ _ none [] ht]
    simp only
    rw [findParams_plain _ _ (some t) [] hp, hf]
    simp [findParams]
  rw [cmdFind, hpar]
  simp only [List.filter_cons, C34_find_filter, ↓reduceIte, List.filter_nil, findFiles, hfo, hdo, Res.ok_bind, Res.pure_eq]
  simp

/-- `FIND /I /n Ab`. -/
example : cmdFind true (fun _ => []) ["xaB\n".toList, "b\n".toList, "ab".toList] ["/I".toList, "/n".toList, "Ab".toList] =
    .ok (["[1]xaB".toList, "[3]ab".toList], 0) := by decide +kernel
example : cmdFind true (fun _ => []) ["xaB\n".toList, "b\n".toList, "ab".toList] ["/v".toList, "/c".toList, "b".toList] =
    .ok (["1".toList], 0) := by decide +kernel
example : FileLines ["xaB\n".toList, "b\n".toList, "ab".toList] ["xaB".toList, "b".toList, "ab".toList] :=
  ⟨rfl, fun p hp => by
    rcases List.mem_cons.1 hp with rfl | hp
    · exact .lf "xaB".toList
    rcases List.mem_cons.1 hp with rfl | hp
    · exact .lf "b".toList
    rcases List.mem_cons.1 hp with rfl | hp
    · exact .bare _ (by decide)
    · cases hp⟩
/-- `FIND /E a*c`. -/
example : cmdFind true (fun _ => []) ["abc\n".toList, "abcd\n".toList, "ac\n".toList] ["/e".toList, "a*c".toList] =
    .ok (["abc".toList, "ac".toList], 0) := by decide +kernel

end PBat
