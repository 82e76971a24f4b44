import Verif.Lemmas.Wc
/-
C32: the counts of `WC` do not depend on how reads split the input.

`C32_chunking` and `C32_counts_partial` speak of every content and every way of splitting it.  The number of words is right only when the
content is empty or ends with a separator: `C32_last_word` shows that otherwise it is always one too small.
-/
namespace PBat
open Spec

/-- Two ways of splitting one content give the same counts. -/
theorem C32_chunking (utf8 : Bool) (s : List Char) (r1 r2 : List (Option (List Char))) (h1 : Splits s r1) (h2 : Splits s r2) :
    fileCounts utf8 r1 = fileCounts utf8 r2 := by
  rw [fileCounts_eq, fileCounts_eq, delivered_splits h1, delivered_splits h2]

/-- The counts are those of the whole content.  Missing: the words of a content that does not end with a separator. -/
theorem C32_counts_partial (utf8 : Bool) (s : List Char) (reads : List (Option (List Char))) (h : Splits s reads) (hlen : s.length < 2 ^ 64) :
    (fileCounts utf8 reads).lines.toNat = lineCount s ∧
    (fileCounts utf8 reads).bytes.toNat = s.length ∧
    (fileCounts utf8 reads).chars.toNat = (if utf8 then charCount s else s.length) ∧
    ((∀ c, s.getLast? = some c → WordEnd c) → (fileCounts utf8 reads).words.toNat = wordCount s) := by
  have hl : lineCount s ≤ s.length := List.count_le_length
  have hw := wordCount_le s
  have hc := charCount_le s
  rw [fileCounts_eq, delivered_splits h]
  simp only [BitVec.toNat_ofNat]
  refine ⟨Nat.mod_eq_of_lt (by omega), Nat.mod_eq_of_lt hlen, Nat.mod_eq_of_lt (by split <;> omega), ?_⟩
  intro hlast
  have := wordsEnded_count s
  have hopen : wordOpen false s = false := by
    cases hs : s.getLast? with
    | none => rw [List.getLast?_eq_none_iff.1 hs]; rfl
    | some c => rw [wordOpen_last s c hs, (endsWord_iff c).2 (hlast c hs)]; rfl
  rw [hopen] at this
  simp only [Bool.false_eq_true, if_false, Nat.add_zero] at this
  rw [this]
  exact Nat.mod_eq_of_lt (by omega)

/-- Violation: whatever the content, a last word that nothing follows is not counted. -/
theorem C32_last_word (utf8 : Bool) (s : List Char) (reads : List (Option (List Char))) (h : Splits s reads) (hlen : s.length < 2 ^ 64)
    (c : Char) (hlast : s.getLast? = some c) (hc : ¬ WordEnd c) :
    (fileCounts utf8 reads).words.toNat + 1 = wordCount s := by
  have hw := wordCount_le s
  have := wordsEnded_count s
  have he : endsWord c = false := by
    cases he : endsWord c with
    | false => rfl
    | true => exact absurd ((endsWord_iff c).1 he) hc
  rw [wordOpen_last s c hlast, he] at this
  simp only [Bool.not_false, if_true] at this
  rw [fileCounts_eq, delivered_splits h]
  simp only [BitVec.toNat_ofNat]
  rw [Nat.mod_eq_of_lt (by omega)]
  exact this

/-- Violation: an error while reading is silently taken for the end of the file. -/
theorem C32_read_error (utf8 : Bool) (chunks : List (List Char)) (rest : List (Option (List Char))) (hne : ∀ c ∈ chunks, c ≠ []) :
    fileCounts utf8 (chunks.map some ++ none :: rest) = fileCounts utf8 (chunks.map some) := by
  rw [fileCounts_eq, fileCounts_eq]
  have : delivered (chunks.map some ++ none :: rest) = delivered (chunks.map some) := by
    induction chunks with
    | nil => rfl
    | cons c cs ih =>
      cases c with
      | nil => exact absurd rfl (hne [] List.mem_cons_self)
      | cons x xs =>
        rw [List.map_cons, List.cons_append, delivered, delivered, ih (fun c hc => hne c (List.mem_cons_of_mem _ hc))]
  rw [this]

/-- The files found are readable, with the content and the size given. -/
def Readable (f : WcFile × Nat) (s : List Char) : Prop := f.1.stat.size = s.length ∧ ∃ r, f.1.reads = some r ∧ Splits s r

/-- The totals of lines, bytes and characters are those of all the contents together, for every number of files. -/
theorem C32_total (utf8 : Bool) (mode : WcMode) (fs : List ((WcFile × Nat) × List Char)) (total : Counts)
    (h : ∀ p ∈ fs, Readable p.1 p.2) :
    (wcFiles utf8 mode (fs.map (·.1)) total).1.length = fs.length ∧
    (wcFiles utf8 mode (fs.map (·.1)) total).2.bytes = total.bytes + BitVec.ofNat 64 (fs.map (·.2)).flatten.length ∧
    (mode ≠ ⟨false, false, true, false⟩ →
      (wcFiles utf8 mode (fs.map (·.1)) total).2.lines = total.lines + BitVec.ofNat 64 (lineCount (fs.map (·.2)).flatten) ∧
      (wcFiles utf8 mode (fs.map (·.1)) total).2.chars = total.chars +
        BitVec.ofNat 64 (if utf8 then charCount (fs.map (·.2)).flatten else (fs.map (·.2)).flatten.length)) := by
  induction fs generalizing total with
  | nil => cases utf8 <;> simp [wcFiles, lineCount, charCount]
  | cons f fs ih =>
    have ih := fun total => ih total (fun p hp => h p (List.mem_cons_of_mem _ hp))
    have hf := h f List.mem_cons_self
    obtain ⟨⟨f, size⟩, s⟩ := f
    obtain ⟨hsize, r, hr, hs⟩ := hf
    simp only at hsize hr
    rw [List.map_cons, List.map_cons, wcFiles]
    split
    · next hm =>
      obtain ⟨i1, i2, -⟩ := ih { total with bytes := total.bytes + BitVec.ofNat 64 f.stat.size }
      refine ⟨congrArg (· + 1) i1, ?_, fun h => absurd hm h⟩
      rw [i2]
      simp only [hsize, List.flatten_cons, List.length_append, BitVec.ofNat_add, BitVec.add_assoc]
    · next hm =>
      simp only [hr]
      obtain ⟨i1, i2, i3⟩ := ih (addCounts total (fileCounts utf8 r))
      obtain ⟨i3, i4⟩ := i3 hm
      refine ⟨congrArg (· + 1) i1, ?_, fun _ => ⟨?_, ?_⟩⟩
      · rw [i2]
        simp only [addCounts, fileCounts_eq, delivered_splits hs, List.flatten_cons, List.length_append, BitVec.ofNat_add, BitVec.add_assoc]
      · rw [i3]
        simp only [addCounts, fileCounts_eq, delivered_splits hs, List.flatten_cons, lineCount, List.count_append, BitVec.ofNat_add, BitVec.add_assoc]
      · rw [i4]
        simp only [addCounts, fileCounts_eq, delivered_splits hs, List.flatten_cons]
        cases utf8 <;> simp [charCount, BitVec.ofNat_add, BitVec.add_assoc]

/-- The line documented for a file: the counts asked, in the order lines, words, bytes, characters, and the name. -/
def documentedRow (m : WcMode) (s name : List Char) : List Char :=
  ((if m.lines then [lineCount s] else []) ++ (if m.words then [wordCount s] else []) ++ (if m.bytes then [s.length] else []) ++
    (if m.chars then [charCount s] else [])).flatMap (fun n => natText n ++ [' ']) ++ name

/-- The lines printed are the documented ones, in the order of the files.  Missing: contents whose last word nothing follows
(`C32_last_word`). -/
theorem C32_rows_partial (mode : WcMode) (fs : List ((WcFile × Nat) × List Char)) (total : Counts) (h : ∀ p ∈ fs, Readable p.1 p.2)
    (hlen : ∀ p ∈ fs, p.2.length < 2 ^ 64) (hlast : mode.words = true → ∀ p ∈ fs, ∀ c, p.2.getLast? = some c → WordEnd c) :
    (wcFiles true mode (fs.map (·.1)) total).1 = fs.map (fun p => documentedRow mode p.2 (p.1.1.name.drop p.1.2)) := by
  induction fs generalizing total with
  | nil => rfl
  | cons f fs ih =>
    have ih := fun total => ih total (fun p hp => h p (List.mem_cons_of_mem _ hp)) (fun p hp => hlen p (List.mem_cons_of_mem _ hp))
      (fun hw p hp => hlast hw p (List.mem_cons_of_mem _ hp))
    have hf := h f List.mem_cons_self
    have hl := hlen f List.mem_cons_self
    have hw := fun hw => hlast hw f List.mem_cons_self
    obtain ⟨⟨f, size⟩, s⟩ := f
    obtain ⟨hsize, r, hr, hs⟩ := hf
    simp only at hsize hr hl hw hs
    rw [List.map_cons, List.map_cons, wcFiles]
    split
    · next hm =>
      subst hm
      refine congr (congrArg List.cons ?_) (ih _)
      simp only [hsize, BitVec.toNat_ofNat, Nat.mod_eq_of_lt hl, documentedRow]
      simp
    · simp only [hr]
      refine congr (congrArg List.cons ?_) (ih _)
      obtain ⟨c1, c2, c3, c4⟩ := C32_counts_partial true s r hs hl
      simp only [if_true] at c3
      simp only [printCounts, wcNumber, documentedRow, c1, c2, c3]
      cases hmw : mode.words with
      | false => cases mode.lines <;> cases mode.bytes <;> cases mode.chars <;> simp
      | true =>
        rw [c4 (hw hmw)]
        cases mode.lines <;> cases mode.bytes <;> cases mode.chars <;> simp

theorem wordsEnded_flatten : ∀ ss : List (List Char), (∀ s ∈ ss, ∀ c, s.getLast? = some c → WordEnd c) →
    wordOpen false ss.flatten = false ∧ wordsEnded false ss.flatten = (ss.map (wordsEnded false)).sum
  | [], _ => ⟨rfl, rfl⟩
  | s :: ss, h => by
    obtain ⟨i1, i2⟩ := wordsEnded_flatten ss (fun t ht => h t (List.mem_cons_of_mem _ ht))
    have ho : wordOpen false s = false := by
      cases hs : s.getLast? with
      | none => rw [List.getLast?_eq_none_iff.1 hs]; rfl
      | some c =>
        rw [wordOpen_last s c hs]
        simpa using (endsWord_iff c).2 (h s List.mem_cons_self c hs)
    have hw : ∀ (s : List Char) (b : Bool), wordsEnded b (s ++ ss.flatten) = wordsEnded b s + wordsEnded (wordOpen b s) ss.flatten := by
      intro s
      induction s with
      | nil => intro b; simp [wordsEnded, wordOpen]
      | cons c s ih =>
        intro b
        rw [List.cons_append, wordsEnded, wordsEnded, ih, ih, show wordOpen b (c :: s) = wordOpen (!endsWord c) s from rfl]
        cases endsWord c <;> simp [Nat.add_assoc]
    have hopen : wordOpen false (s ++ ss.flatten) = wordOpen (wordOpen false s) ss.flatten := by simp [wordOpen]
    rw [List.flatten_cons, hopen, hw, ho, i1, i2]
    simp

/-- The total of words. -/
theorem wcFiles_words (mode : WcMode) (hm : mode ≠ ⟨false, false, true, false⟩) : ∀ (fs : List ((WcFile × Nat) × List Char)) (total : Counts),
    (∀ p ∈ fs, Readable p.1 p.2) →
    (wcFiles true mode (fs.map (·.1)) total).2.words = total.words + BitVec.ofNat 64 ((fs.map (·.2)).map (wordsEnded false)).sum
  | [], total, _ => by simp [wcFiles]
  | f :: fs, total, h => by
    obtain ⟨⟨f, size⟩, s⟩ := f
    obtain ⟨-, r, hr, hs⟩ := h _ List.mem_cons_self
    simp only at hr hs
    rw [List.map_cons, wcFiles, if_neg hm]
    simp only [hr]
    rw [wcFiles_words mode hm fs _ (fun p hp => h p (List.mem_cons_of_mem _ hp))]
    simp only [addCounts, fileCounts_eq, delivered_splits hs, List.map_cons, List.sum_cons, BitVec.ofNat_add, BitVec.add_assoc]

/-- The row of the total. -/
theorem wcFiles_total (mode : WcMode) (fs : List ((WcFile × Nat) × List Char)) (h : ∀ p ∈ fs, Readable p.1 p.2)
    (hlen : (fs.map (·.2)).flatten.length < 2 ^ 64) (hlast : mode.words = true → ∀ p ∈ fs, ∀ c, p.2.getLast? = some c → WordEnd c) (name : List Char) :
    printCounts mode (wcFiles true mode (fs.map (·.1)) ⟨0, 0, 0, 0⟩).2 name = documentedRow mode (fs.map (·.2)).flatten name := by
  obtain ⟨-, h2, h3⟩ := C32_total true mode fs ⟨0, 0, 0, 0⟩ h
  have hl : lineCount (fs.map (·.2)).flatten ≤ (fs.map (·.2)).flatten.length := List.count_le_length
  have hw := wordCount_le (fs.map (·.2)).flatten
  have hc := charCount_le (fs.map (·.2)).flatten
  have z : ∀ x : BitVec 64, 0 + x = x := fun x => BitVec.zero_add x
  have h2' : (wcFiles true mode (fs.map (·.1)) ⟨0, 0, 0, 0⟩).2.bytes.toNat = (fs.map (·.2)).flatten.length := by
    rw [h2, z, BitVec.toNat_ofNat, Nat.mod_eq_of_lt hlen]
  by_cases hm : mode = ⟨false, false, true, false⟩
  · subst hm
    simp only [printCounts, wcNumber, documentedRow, h2']
    simp
  · obtain ⟨h3, h4⟩ := h3 hm
    have h3' : (wcFiles true mode (fs.map (·.1)) ⟨0, 0, 0, 0⟩).2.lines.toNat = lineCount (fs.map (·.2)).flatten := by
      rw [h3, z, BitVec.toNat_ofNat, Nat.mod_eq_of_lt (by omega)]
    have h4' : (wcFiles true mode (fs.map (·.1)) ⟨0, 0, 0, 0⟩).2.chars.toNat = charCount (fs.map (·.2)).flatten := by
      rw [h4, z, BitVec.toNat_ofNat, if_pos rfl, Nat.mod_eq_of_lt (by omega)]
    simp only [printCounts, wcNumber, documentedRow, h2', h3', h4']
    cases hmw : mode.words with
    | false => cases mode.lines <;> cases mode.bytes <;> cases mode.chars <;> simp
    | true =>
      have h5 := wcFiles_words mode hm fs ⟨0, 0, 0, 0⟩ h
      obtain ⟨o1, o2⟩ := wordsEnded_flatten (fs.map (·.2)) (by
        intro s hs
        obtain ⟨p, hp, rfl⟩ := List.mem_map.1 hs
        exact hlast hmw p hp)
      have h6 := wordsEnded_count (fs.map (·.2)).flatten
      rw [o1] at h6
      simp only [Bool.false_eq_true, if_false, Nat.add_zero] at h6
      rw [← o2, h6, z] at h5
      have h5' : (wcFiles true mode (fs.map (·.1)) ⟨0, 0, 0, 0⟩).2.words.toNat = wordCount (fs.map (·.2)).flatten := by
        rw [h5, BitVec.toNat_ofNat, Nat.mod_eq_of_lt (by omega)]
      rw [h5']
      cases mode.lines <;> cases mode.bytes <;> cases mode.chars <;> simp

/-- A file found: the file itself, the name shown and the content. -/
structure Spec.Found where
  file : WcFile
  shown : List Char
  content : List Char

/-- The files a name refers to are found, are no directories and can be read; they are shown as the name is written, relative to the current
directory or absolute. -/
def Spec.Finds (search : List Char → List WcFile) (cur n : List Char) (l : List Found) : Prop :=
  l ≠ [] ∧ search (if n.head? = some '/' then n else cur ++ '/' :: n) = l.map (·.file) ∧
  ∀ f ∈ l, f.file.stat.dir = false ∧ f.file.name = (if n.head? = some '/' then [] else cur ++ ['/']) ++ f.shown ∧
    f.file.stat.size = f.content.length ∧ ∃ r, f.file.reads = some r ∧ Splits f.content r

/-- The state after the items. -/
def wcState (mode : WcMode) (items : List WcItem) : WcMode :=
  ⟨mode.lines || decide (WcItem.lines ∈ items), mode.chars || decide (WcItem.chars ∈ items), mode.bytes || decide (WcItem.bytes ∈ items),
    mode.words || decide (WcItem.words ∈ items)⟩

theorem wcParams_items (search : List Char → List WcFile) (cur : List Char) (found : List Char → List Found) :
    ∀ (ps : List (List Char × WcItem)) (mode : WcMode) (files : List (WcFile × Nat)), (∀ p ∈ ps, WcText p.1 p.2) →
    (∀ n ∈ wcNames (ps.map (·.2)), Finds search cur n (found n)) →
    wcParams search cur mode files (ps.map (·.1)) = some (wcState mode (ps.map (·.2)),
      files ++ (wcNames (ps.map (·.2))).flatMap fun n => (found n).map fun f => (f.file, f.file.name.length - f.shown.length))
  | [], mode, files, _, _ => by simp [wcParams, wcState, wcNames]
  | p :: ps, mode, files, hp, hf => by
    have ih := fun m fs => wcParams_items search cur found ps m fs (fun q hq => hp q (List.mem_cons_of_mem _ hq)) (by
      intro n hn
      refine hf n ?_
      unfold wcNames at hn ⊢
      rw [List.map_cons, List.filterMap_cons]
      split
      · exact hn
      · exact List.mem_cons_of_mem _ hn)
    obtain ⟨t, it⟩ := p
    have ht : WcText t it := hp _ List.mem_cons_self
    have file : ∀ n, it = .file n → t = n → (∀ c, t ≠ ['/', c]) → (absolute n = true ↔ n.head? = some '/') →
        wcParams search cur mode files (t :: ps.map (·.1)) = some (wcState mode (it :: ps.map (·.2)),
          files ++ (wcNames (it :: ps.map (·.2))).flatMap fun n => (found n).map fun f => (f.file, f.file.name.length - f.shown.length)) := by
      rintro n rfl rfl hne habs
      have hfi := hf t (by simp [wcNames])
      obtain ⟨h1, h2, h3⟩ := hfi
      rw [wcParams.eq_3 _ _ _ _ _ _ hne]
      have hfull : (if absolute t = true then t else cur ++ '/' :: t) = if t.head? = some '/' then t else cur ++ '/' :: t := by
        by_cases h : t.head? = some '/'
        · rw [if_pos h, if_pos (habs.2 h)]
        · rw [if_neg h, if_neg (fun h' => h (habs.1 h'))]
      simp only [hfull, h2]
      have hflt : ((found t).map (·.file)).filter (fun f => checkFileAttributes 0xC00#16 f.stat) = (found t).map (·.file) := by
        rw [List.filter_eq_self]
        intro f hf
        obtain ⟨g, hg, rfl⟩ := List.mem_map.1 hf
        have := (h3 g hg).1
        rcases hst : g.file.stat with ⟨a, b, c, d, e, z⟩
        rw [hst] at this
        simp only at this
        subst this
        simp [checkFileAttributes, attrTest, hasFlag]
      rw [hflt, if_neg (by simpa using h1), ih]
      have hsz : ∀ f ∈ found t, (if absolute t = true then 0 else cur.length + 1) = f.file.name.length - f.shown.length := by
        intro f hf
        rw [(h3 f hf).2.1]
        by_cases h : t.head? = some '/'
        · rw [if_pos h, if_pos (habs.2 h)]; simp
        · rw [if_neg h, if_neg (fun h' => h (habs.1 h'))]
          simp only [List.length_append, List.length_cons, List.length_nil]
          omega
      have hmap : ((found t).map (·.file)).map (·, if absolute t = true then 0 else cur.length + 1) =
          (found t).map fun f => (f.file, f.file.name.length - f.shown.length) := by
        rw [List.map_map]
        apply List.map_congr_left
        intro f hf
        simp only [Function.comp, hsz f hf]
      rw [hmap]
      simp only [wcState, wcNames, List.mem_cons, reduceCtorEq, false_or, List.filterMap_cons, List.flatMap_cons, List.append_assoc]
    cases ht with
    | lines hc =>
      rw [List.map_cons, wcParams, if_pos hc, ih]
      simp only [wcState, wcNames, List.map_cons, List.mem_cons, reduceCtorEq, false_or, true_or, decide_true, Bool.or_true, Bool.true_or, List.filterMap_cons]
    | bytes hc =>
      rw [List.map_cons, wcParams, if_neg (by rcases hc with rfl | rfl <;> decide), if_pos hc, ih]
      simp only [wcState, wcNames, List.map_cons, List.mem_cons, reduceCtorEq, false_or, true_or, decide_true, Bool.or_true, Bool.true_or, List.filterMap_cons]
    | chars hc =>
      rw [List.map_cons, wcParams, if_neg (by rcases hc with rfl | rfl <;> decide), if_neg (by rcases hc with rfl | rfl <;> decide), if_pos hc, ih]
      simp only [wcState, wcNames, List.map_cons, List.mem_cons, reduceCtorEq, false_or, true_or, decide_true, Bool.or_true, Bool.true_or, List.filterMap_cons]
    | words hc =>
      rw [List.map_cons, wcParams, if_neg (by rcases hc with rfl | rfl <;> decide), if_neg (by rcases hc with rfl | rfl <;> decide),
        if_neg (by rcases hc with rfl | rfl <;> decide), if_pos hc, ih]
      simp only [wcState, wcNames, List.map_cons, List.mem_cons, reduceCtorEq, false_or, true_or, decide_true, Bool.or_true, Bool.true_or, List.filterMap_cons]
    | rel hn =>
      refine file t rfl rfl (by rintro c rfl; simp at hn) ?_
      constructor
      · intro h
        unfold absolute at h
        split at h <;> simp_all
      · intro h; exact absurd h hn
    | @abs a b n ha =>
      refine file _ rfl rfl (by simp) ?_
      simp only [List.head?_cons, iff_true]
      unfold absolute
      split <;> simp_all

/-- The command, for every list of options and names: the documented line of each file found, in order, names as they are written, and if there
are several files the line of the total, whose counts are those of the contents put together.  Without option the bytes are counted.
Missing: contents whose last word nothing follows (`C32_last_word`). -/
theorem C32_command_partial (search : List Char → List WcFile) (cur : List Char) (stdin : List (Option (List Char))) (found : List Char → List Found)
    (ps : List (List Char × WcItem)) (hp : ∀ p ∈ ps, WcText p.1 p.2) (items : List WcItem) (hi : items = ps.map (·.2))
    (hn : wcNames items ≠ []) (hf : ∀ n ∈ wcNames items, Finds search cur n (found n)) (all : List Found) (hall : all = (wcNames items).flatMap found)
    (hlen : (all.map (·.content)).flatten.length < 2 ^ 64)
    (hlast : WcItem.words ∈ items → ∀ f ∈ all, ∀ c, f.content.getLast? = some c → WordEnd c) (mode : WcMode)
    (hmode : mode = ⟨decide (WcItem.lines ∈ items), decide (WcItem.chars ∈ items),
      decide (WcItem.bytes ∈ items ∨ (WcItem.lines ∉ items ∧ WcItem.chars ∉ items ∧ WcItem.words ∉ items)), decide (WcItem.words ∈ items)⟩) :
    cmdWc true search cur stdin (ps.map (·.1)) = all.map (fun f => documentedRow mode f.content f.shown) ++
      (if all.length > 1 then [documentedRow mode (all.map (·.content)).flatten "Total".toList] else []) := by
  unfold cmdWc
  rw [wcParams_items search cur found ps _ _ hp (by rw [← hi]; exact hf), ← hi]
  simp only [List.nil_append]
  have hfiles : ((wcNames items).flatMap fun n => (found n).map fun f => (f.file, f.file.name.length - f.shown.length)) =
      (all.map fun f => ((f.file, f.file.name.length - f.shown.length), f.content)).map (·.1) := by
    rw [hall, List.map_map, List.map_flatMap]
    rfl
  have hne : all ≠ [] := by
    rw [hall]
    obtain ⟨n, ns, hns⟩ := List.exists_cons_of_ne_nil hn
    rw [hns, List.flatMap_cons]
    exact List.append_ne_nil_of_left_ne_nil (hf n (by simp [hns])).1 _
  have hm : (if wcState ⟨false, false, false, false⟩ items = ⟨false, false, false, false⟩ then ⟨false, false, true, false⟩
      else wcState ⟨false, false, false, false⟩ items) = mode := by
    rw [hmode]
    simp only [wcState, Bool.false_or]
    by_cases h1 : WcItem.lines ∈ items <;> by_cases h2 : WcItem.chars ∈ items <;> by_cases h3 : WcItem.bytes ∈ items <;>
      by_cases h4 : WcItem.words ∈ items <;> simp [h1, h2, h3, h4]
  have hmem : ∀ f ∈ all, ∃ n ∈ wcNames items, f ∈ found n := by
    intro f hf'
    rw [hall] at hf'
    exact List.mem_flatMap.1 hf'
  have hread : ∀ p ∈ all.map (fun f => ((f.file, f.file.name.length - f.shown.length), f.content)), Readable p.1 p.2 := by
    intro p hp'
    obtain ⟨f, hf', rfl⟩ := List.mem_map.1 hp'
    obtain ⟨n, hn', hfn⟩ := hmem f hf'
    exact ((hf n hn').2.2 f hfn).2.2
  have hwords : mode.words = true → WcItem.words ∈ items := by
    intro h
    rw [hmode] at h
    simpa using h
  have hl : mode.words = true → ∀ p ∈ all.map (fun f => ((f.file, f.file.name.length - f.shown.length), f.content)),
      ∀ c, p.2.getLast? = some c → WordEnd c := by
    intro h p hp'
    obtain ⟨f, hf', rfl⟩ := List.mem_map.1 hp'
    exact hlast (hwords h) f hf'
  have hlens : ∀ p ∈ all.map (fun f => ((f.file, f.file.name.length - f.shown.length), f.content)), p.2.length < 2 ^ 64 := by
    intro p hp'
    obtain ⟨f, hf', rfl⟩ := List.mem_map.1 hp'
    have : f.content.length ≤ (all.map (·.content)).flatten.length :=
      (List.sublist_flatten_of_mem (List.mem_map_of_mem hf')).length_le
    simp only
    omega
  have hcont : (all.map fun f => ((f.file, f.file.name.length - f.shown.length), f.content)).map (·.2) = all.map (·.content) := by
    rw [List.map_map]; rfl
  rw [hfiles, hm, C32_rows_partial mode _ _ hread hlens hl, wcFiles_total mode _ hread (by rw [hcont]; exact hlen) hl, hcont,
    if_neg (by simpa using hne)]
  simp only [List.nil_append, List.length_map]
  congr 1
  rw [List.map_map]
  apply List.map_congr_left
  intro f hf'
  obtain ⟨n, hn', hfn⟩ := hmem f hf'
  have := ((hf n hn').2.2 f hfn).2.1
  simp only [Function.comp]
  congr 1
  rw [this]
  simp only [List.length_append, Nat.add_sub_cancel]
  rw [List.drop_left]

/-- Violation: without option the number of bytes is documented to be shown, but for the standard input nothing is. -/
theorem C32_stdin_default (utf8 : Bool) (search : List Char → List WcFile) (cur : List Char) (stdin : List (Option (List Char))) :
    cmdWc utf8 search cur stdin [] = [[]] := by
  simp [cmdWc, wcParams, printCounts, wcNumber, wcFiles]

/-- With `/C` it is. -/
theorem C32_stdin_bytes (utf8 : Bool) (search : List Char → List WcFile) (cur s : List Char) (stdin : List (Option (List Char)))
    (h : Splits s stdin) (hlen : s.length < 2 ^ 64) :
    cmdWc utf8 search cur stdin ["/C".toList] = [natText s.length ++ [' ']] := by
  have := (C32_counts_partial utf8 s stdin h hlen).2.1
  simp [cmdWc, wcParams, printCounts, wcNumber, wcFiles, this]

/- Examples: a content split inside a word and inside a character. -/
example : Splits "ab cd\n".toList [some "a".toList, some "b c".toList, some "d\n".toList, some []] :=
  ⟨["a".toList, "b c".toList, "d\n".toList], [some []], rfl, by decide, by decide, Or.inr ⟨[], rfl⟩⟩
example : wordCount "ab cd\n".toList = 2 ∧ wordCount "ab, cd".toList = 2 ∧ lineCount "ab cd\n".toList = 1 := by decide
example : charCount [Char.ofNat 0xC3, Char.ofNat 0xA9, 'a'] = 2 := by decide
example : (fileCounts true [some "ab c".toList, some "d".toList]).words = 1#64 := by decide
example : Readable (⟨"/d/f".toList, ⟨false, false, false, false, false, 2⟩, some [some "a".toList, some "b".toList]⟩, 3) "ab".toList :=
  ⟨rfl, _, rfl, ["a".toList, "b".toList], [], rfl, by decide, rfl, Or.inl rfl⟩
example : documentedRow ⟨true, false, true, true⟩ "ab cd\n".toList "f".toList = "1 2 6 f".toList := by decide +kernel


/-- `WC /L a` in `/d`: the hypotheses of `C32_command_partial` are met. -/
example : cmdWc true (fun n => [⟨n, ⟨false, false, false, false, false, 2⟩, some [some "x\n".toList]⟩]) "/d".toList [] ["/L".toList, "a".toList] =
    ["1 a".toList] :=
  (C32_command_partial (fun n => [⟨n, ⟨false, false, false, false, false, 2⟩, some [some "x\n".toList]⟩]) "/d".toList []
    (fun _ => [⟨⟨"/d/a".toList, ⟨false, false, false, false, false, 2⟩, some [some "x\n".toList]⟩, "a".toList, "x\n".toList⟩])
    [("/L".toList, .lines), ("a".toList, .file "a".toList)] (by
      intro p hp
      simp only [List.mem_cons, List.not_mem_nil, or_false] at hp
      rcases hp with rfl | rfl
      · exact .lines (.inl rfl)
      · exact .rel (by decide)) _ rfl (by decide) (by
      intro n hn
      have : n = "a".toList := by simpa [wcNames] using hn
      subst this
      refine ⟨by simp, by simp, ?_⟩
      intro f hf
      simp only [List.mem_cons, List.not_mem_nil, or_false] at hf
      subst hf
      exact ⟨rfl, by decide, rfl, _, rfl, ["x\n".toList], [], rfl, by decide, rfl, .inl rfl⟩) _ rfl (by decide) (by decide) _ rfl).trans (by decide +kernel)

end PBat
