import Verif.Model.Wc
import Verif.Spec.Wc
/-
Lemmas about `WC`.
-/
namespace PBat
open Spec

theorem endsWord_iff (c : Char) : endsWord c = true ↔ WordEnd c := by
  unfold endsWord WordEnd
  simp only [Bool.or_eq_true, beq_iff_eq]
  grind

/-- The words begun in `s`, given whether a word is going on before it. -/
def wordsFrom : Bool → List Char → Nat
  | _, [] => 0
  | inword, c :: s => if endsWord c then wordsFrom false s else (if inword then 0 else 1) + wordsFrom true s

theorem beginsWord_succ (c : Char) (s : List Char) (i : Nat) :
    BeginsWord (c :: s) (i + 1) ↔ if i = 0 then (∃ d, s[0]? = some d ∧ ¬ WordEnd d) ∧ WordEnd c else BeginsWord s i := by
  unfold BeginsWord
  simp only [List.getElem?_cons_succ, Nat.add_sub_cancel, Nat.succ_ne_zero, false_or]
  cases i with
  | zero => simp
  | succ i => simp

theorem filter_range_succ (n : Nat) (p : Nat → Bool) :
    ((List.range (n + 1)).filter p).length = (if p 0 then 1 else 0) + ((List.range n).filter (fun i => p (i + 1))).length := by
  rw [List.range_succ_eq_map, List.filter_cons, List.filter_map]
  split
  · simp only [List.length_cons, List.length_map]
    rw [Nat.add_comm]
    rfl
  · simp only [List.length_map, Nat.zero_add]
    rfl

theorem wordsFrom_count : ∀ (s : List Char),
    wordCount s = wordsFrom false s ∧ (∀ c, endsWord c = false →
      ((List.range s.length).filter (fun i => decide (BeginsWord (c :: s) (i + 1)))).length = wordsFrom true s)
  | [] => ⟨rfl, fun _ _ => rfl⟩
  | c :: s => by
    obtain ⟨ih1, ih2⟩ := wordsFrom_count s
    -- words beginning after the first character
    have hrest : ((List.range s.length).filter (fun i => decide (BeginsWord (c :: s) (i + 1)))).length = wordsFrom (!endsWord c) s := by
      cases he : endsWord c with
      | false => exact ih2 c he
      | true =>
        rw [Bool.not_true, ← ih1]
        unfold wordCount
        congr 1
        apply List.filter_congr
        intro i hi
        apply decide_eq_decide.2
        rw [beginsWord_succ]
        split
        · next h0 =>
          subst h0
          unfold BeginsWord
          simp [(endsWord_iff c).1 he]
        · rfl
    have hfirst : ∀ (p : Nat → Bool), p 0 = !endsWord c → (∀ i, p (i + 1) = decide (BeginsWord (c :: s) (i + 1))) →
        ((List.range (c :: s).length).filter p).length = wordsFrom false (c :: s) := by
      intro p h0 hs
      rw [List.length_cons, filter_range_succ, h0, wordsFrom]
      simp only [hs, hrest]
      cases endsWord c <;> simp
    refine ⟨hfirst _ ?_ (fun _ => rfl), ?_⟩
    · rw [show (!endsWord c) = decide (endsWord c = false) by cases endsWord c <;> rfl]
      apply decide_eq_decide.2
      unfold BeginsWord
      simp only [List.getElem?_cons_zero, Option.some.injEq, exists_eq_left', ← endsWord_iff, true_or, and_true]
      simp
    · intro d hd
      rw [List.length_cons, filter_range_succ, wordsFrom]
      have hs0 : decide (BeginsWord (d :: c :: s) (0 + 1)) = false := by
        apply decide_eq_false
        rw [beginsWord_succ, if_pos rfl]
        rintro ⟨-, h⟩
        rw [← endsWord_iff, hd] at h
        cases h
      have hs : ∀ i, decide (BeginsWord (d :: c :: s) (i + 1 + 1)) = decide (BeginsWord (c :: s) (i + 1)) := by
        intro i
        apply decide_eq_decide.2
        rw [beginsWord_succ, if_neg (by omega)]
      simp only [hs0, hs, hrest]
      cases endsWord c <;> simp

/-- Whether a word is going on after `s`. -/
def wordOpen (b : Bool) (s : List Char) : Bool := s.foldl (fun _ c => !endsWord c) b

/-- The words ended in `s`. -/
def wordsEnded : Bool → List Char → Nat
  | _, [] => 0
  | b, c :: s => if endsWord c then (if b then 1 else 0) + wordsEnded false s else wordsEnded true s

theorem wordsEnded_from : ∀ (s : List Char) (b : Bool),
    wordsEnded b s + (if wordOpen b s then 1 else 0) = wordsFrom b s + (if b then 1 else 0)
  | [], b => by cases b <;> rfl
  | c :: s, b => by
    have ih := wordsEnded_from s (!endsWord c)
    rw [wordsEnded, wordsFrom, show wordOpen b (c :: s) = wordOpen (!endsWord c) s from rfl]
    cases he : endsWord c <;> rw [he] at ih <;> cases b <;> simp at ih ⊢ <;> omega

/-- What the loop adds to the counts. -/
def countsOf (utf8 : Bool) (b : Bool) (s : List Char) : Counts :=
  ⟨BitVec.ofNat 64 (lineCount s), BitVec.ofNat 64 (wordsEnded b s), 0, BitVec.ofNat 64 (if utf8 then charCount s else s.length)⟩

theorem counts_ext {a b : Counts} (h1 : a.lines = b.lines) (h2 : a.words = b.words) (h3 : a.bytes = b.bytes) (h4 : a.chars = b.chars) :
    a = b := by cases a; cases b; simp_all

theorem wcChar_eq (utf8 b : Bool) (n : Counts) (c : Char) :
    wcChar utf8 (b, n) c = (!endsWord c, addCounts n (countsOf utf8 b [c])) := by
  have hl : lineCount [c] = if c = '\n' then 1 else 0 := by
    by_cases h : c = '\n' <;> simp [lineCount, h]
  have hc : charCount [c] = if c.toNat < 0x80 ∨ 0xC0 ≤ c.toNat then 1 else 0 := by
    unfold charCount
    by_cases h1 : c.toNat < 0x80 <;> by_cases h2 : 0xC0 ≤ c.toNat <;> simp [h1, h2] <;> omega
  have hw : wordsEnded b [c] = if endsWord c then (if b then 1 else 0) else 0 := by
    simp [wordsEnded]
  unfold wcChar countsOf addCounts
  rw [hl, hc, hw]
  generalize endsWord c = e
  refine Prod.ext ?_ (counts_ext ?_ ?_ ?_ ?_)
  all_goals
    clear hl hc hw
    cases e <;> cases b <;> cases utf8 <;> by_cases h : c = '\n' <;>
      by_cases h1 : c.toNat < 0x80 <;> by_cases h2 : 0xC0 ≤ c.toNat <;> simp [h, h1, h2]

theorem countsOf_append (utf8 b : Bool) (n : Counts) (s t : List Char) :
    addCounts (addCounts n (countsOf utf8 b s)) (countsOf utf8 (wordOpen b s) t) = addCounts n (countsOf utf8 b (s ++ t)) := by
  have hw : ∀ (s : List Char) (b : Bool), wordsEnded b (s ++ t) = wordsEnded b s + wordsEnded (wordOpen b s) t := by
    intro s
    induction s with
    | nil => intro b; simp [wordsEnded, wordOpen]
    | cons c s ih =>
      intro b
      rw [List.cons_append, wordsEnded, wordsEnded, ih, ih, show wordOpen b (c :: s) = wordOpen (!endsWord c) s from rfl]
      cases endsWord c <;> simp [Nat.add_assoc]
  apply counts_ext <;> simp only [addCounts, countsOf, hw]
  · simp [lineCount, BitVec.ofNat_add, BitVec.add_assoc]
  · simp [BitVec.ofNat_add, BitVec.add_assoc]
  · simp
  · cases utf8 <;> simp [charCount, BitVec.ofNat_add, BitVec.add_assoc]

theorem foldl_wcChar (utf8 : Bool) : ∀ (s : List Char) (b : Bool) (n : Counts),
    s.foldl (wcChar utf8) (b, n) = (wordOpen b s, addCounts n (countsOf utf8 b s))
  | [], b, n => by
    refine Prod.ext rfl (counts_ext ?_ ?_ ?_ ?_) <;> cases utf8 <;> simp [addCounts, countsOf, lineCount, charCount, wordsEnded]
  | c :: s, b, n => by
    rw [List.foldl_cons, wcChar_eq, foldl_wcChar utf8 s,
      show (!endsWord c) = wordOpen b [c] from rfl, countsOf_append]
    rfl

theorem wordOpen_last (s : List Char) (c : Char) (h : s.getLast? = some c) (b : Bool) : wordOpen b s = !endsWord c := by
  obtain ⟨s', rfl⟩ := List.getLast?_eq_some_iff.1 h
  simp [wordOpen]

/-- The bytes delivered before the end of the file or an error. -/
def delivered : List (Option (List Char)) → List Char
  | some (c :: s) :: rest => (c :: s) ++ delivered rest
  | _ => []

theorem wcLoop_eq (utf8 : Bool) : ∀ (reads : List (Option (List Char))) (b : Bool) (n : Counts),
    wcLoop utf8 (b, n) reads = { addCounts n (countsOf utf8 b (delivered reads)) with
      bytes := n.bytes + BitVec.ofNat 64 (delivered reads).length }
  | [], b, n => by apply counts_ext <;> cases utf8 <;> simp [wcLoop, delivered, addCounts, countsOf, lineCount, charCount, wordsEnded]
  | none :: _, b, n => by apply counts_ext <;> cases utf8 <;> simp [wcLoop, delivered, addCounts, countsOf, lineCount, charCount, wordsEnded]
  | some [] :: _, b, n => by apply counts_ext <;> cases utf8 <;> simp [wcLoop, delivered, addCounts, countsOf, lineCount, charCount, wordsEnded]
  | some (c :: s) :: rest, b, n => by
    rw [wcLoop]
    simp only
    rw [foldl_wcChar, wcLoop_eq utf8 rest, countsOf_append, delivered]
    apply counts_ext
    · rfl
    · rfl
    · simp only [addCounts, countsOf, List.length_append, BitVec.ofNat_add, BitVec.add_assoc]
      rw [show ∀ x : BitVec 64, 0 + x = x from fun x => BitVec.zero_add x]
    · rfl

theorem delivered_splits {s : List Char} {reads : List (Option (List Char))} (h : Splits s reads) : delivered reads = s := by
  obtain ⟨chunks, rest, rfl, hne, rfl, hrest⟩ := h
  induction chunks with
  | nil =>
    rcases hrest with rfl | ⟨r, rfl⟩ <;> rfl
  | cons c cs ih =>
    cases c with
    | nil => exact absurd rfl (hne [] List.mem_cons_self)
    | cons x xs =>
      rw [List.map_cons, List.cons_append, delivered, ih (fun c hc => hne c (List.mem_cons_of_mem _ hc))]
      rfl

theorem fileCounts_eq (utf8 : Bool) (reads : List (Option (List Char))) :
    fileCounts utf8 reads = ⟨BitVec.ofNat 64 (lineCount (delivered reads)), BitVec.ofNat 64 (wordsEnded false (delivered reads)),
      BitVec.ofNat 64 (delivered reads).length, BitVec.ofNat 64 (if utf8 then charCount (delivered reads) else (delivered reads).length)⟩ := by
  unfold fileCounts
  rw [wcLoop_eq]
  simp [addCounts, countsOf]

theorem wordCount_le (s : List Char) : wordCount s ≤ s.length := by
  unfold wordCount
  exact Nat.le_trans (List.length_filter_le _ _) (by simp)

theorem charCount_le (s : List Char) : charCount s ≤ s.length := List.length_filter_le _ _

theorem wordsEnded_count (s : List Char) : wordsEnded false s + (if wordOpen false s then 1 else 0) = wordCount s := by
  rw [wordsEnded_from, (wordsFrom_count s).1]
  rfl

end PBat
