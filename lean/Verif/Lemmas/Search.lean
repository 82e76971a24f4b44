import Verif.Spec.Search
/-
Lemmas on the search of files.
-/
namespace PBat
open Spec

theorem isWild_iff (c : Char) : isWild c = true ↔ c = '*' ∨ c = '?' := by simp [isWild]

theorem joker_iff (l : List Char) : WildIn l ↔ ∃ c ∈ l, isWild c = true := by
  simp only [WildIn, isWild_iff]
  constructor
  · rintro (h | h)
    · exact ⟨_, h, .inl rfl⟩
    · exact ⟨_, h, .inr rfl⟩
  · rintro ⟨c, h, rfl | rfl⟩
    · exact .inl h
    · exact .inr h

theorem joinPath_eq (b : Option (List Char)) (e : List Char) : joinPath b e = inDir b e := by cases b <;> rfl

theorem isPseudo_eq (e : List Char) : isPseudo e = decide (Dots e) := by
  unfold isPseudo Dots
  by_cases h : e = ['.'] <;> by_cases h2 : e = ['.', '.'] <;> simp [h, h2]

/-! ### Levels -/

theorem levels_ne_nil (s : List Char) : levels s ≠ [] := by
  cases s with
  | nil => simp [levels]
  | cons c r =>
    simp only [levels]
    split
    · simp
    · split <;> simp

theorem levels_nosep {l : List Char} (h : '/' ∉ l) : levels l = [l] := by
  induction l with
  | nil => rfl
  | cons c r ih =>
    simp only [List.mem_cons, not_or] at h
    rw [levels, if_neg (Ne.symm h.1), ih h.2]

theorem levels_sep {l : List Char} (h : '/' ∉ l) (r : List Char) : levels (l ++ '/' :: r) = l :: levels r := by
  induction l with
  | nil => simp [levels]
  | cons c l ih =>
    simp only [List.mem_cons, not_or] at h
    rw [List.cons_append, levels, if_neg (Ne.symm h.1), ih h.2]

theorem sep_first (s : List Char) : '/' ∉ s ∨ ∃ l r, s = l ++ '/' :: r ∧ '/' ∉ l := by
  induction s with
  | nil => exact .inl (by simp)
  | cons c s ih =>
    by_cases hc : c = '/'
    · exact .inr ⟨[], s, by simp [hc], by simp⟩
    · rcases ih with h | ⟨l, r, rfl, h⟩
      · exact .inl (by simp [Ne.symm hc, h])
      · exact .inr ⟨c :: l, r, rfl, by simp [Ne.symm hc, h]⟩

theorem sep_last (s : List Char) : '/' ∉ s ∨ ∃ t a, s = t ++ '/' :: a ∧ '/' ∉ a := by
  induction s with
  | nil => exact .inl (by simp)
  | cons c s ih =>
    rcases ih with h | ⟨l, r, rfl, h⟩
    · by_cases hc : c = '/'
      · exact .inr ⟨[], s, by simp [hc], h⟩
      · exact .inl (by simp [Ne.symm hc, h])
    · exact .inr ⟨c :: l, r, rfl, h⟩

theorem wild_first (s : List Char) : (∀ c ∈ s, isWild c = false) ∨ ∃ u c x, s = u ++ c :: x ∧ isWild c = true ∧ ∀ d ∈ u, isWild d = false := by
  induction s with
  | nil => exact .inl (by simp)
  | cons c s ih =>
    cases hc : isWild c with
    | true => exact .inr ⟨[], c, s, rfl, hc, by simp⟩
    | false =>
      rcases ih with h | ⟨u, d, x, rfl, h1, h2⟩
      · refine .inl ?_
        intro d hd
        rcases List.mem_cons.1 hd with rfl | hd
        · exact hc
        · exact h d hd
      · refine .inr ⟨c :: u, d, x, rfl, h1, ?_⟩
        intro e he
        rcases List.mem_cons.1 he with rfl | he
        · exact hc
        · exact h2 e he

/-! ### The next level -/

theorem go_cons (seen : List Char) (j : Bool) (prev : Option (List Char × List Char)) (c : Char) (r : List Char) :
    nextLevelGo seen j prev (c :: r) =
      if isWild c = true then
        match prev with
        | some q => (some q, false)
        | none => nextLevelGo (seen ++ [c]) true none r
      else if c = '/' then
        if j = true then (some (seen, r), true) else nextLevelGo (seen ++ [c]) j (some (seen, r)) r
      else nextLevelGo (seen ++ [c]) j prev r := by
  cases prev <;> rfl

theorem go_plain (seen : List Char) (j : Bool) (prev) {a : List Char} (r : List Char) (h1 : ∀ d ∈ a, isWild d = false) (h2 : '/' ∉ a) :
    nextLevelGo seen j prev (a ++ r) = nextLevelGo (seen ++ a) j prev r := by
  induction a generalizing seen with
  | nil => simp
  | cons c a ih =>
    simp only [List.mem_cons, not_or] at h2
    rw [List.cons_append, go_cons, if_neg (by rw [h1 c (by simp)]; simp), if_neg (Ne.symm h2.1),
      ih _ (fun d hd => h1 d (by simp [hd])) h2.2]
    simp

theorem go_joker (seen : List Char) {a : List Char} (h : '/' ∉ a) :
    nextLevelGo seen true none a = (none, true) ∧ ∀ r, nextLevelGo seen true none (a ++ '/' :: r) = (some (seen ++ a, r), true) := by
  induction a generalizing seen with
  | nil => exact ⟨rfl, fun r => by simp [nextLevelGo, isWild]⟩
  | cons c a ih =>
    simp only [List.mem_cons, not_or] at h
    refine ⟨?_, fun r => ?_⟩
    · rw [go_cons]
      split
      · exact (ih _ h.2).1
      · rw [if_neg (Ne.symm h.1)]
        exact (ih _ h.2).1
    · rw [List.cons_append, go_cons]
      split
      · rw [(ih _ h.2).2 r]; simp
      · rw [if_neg (Ne.symm h.1), (ih _ h.2).2 r]; simp

theorem go_text (seen : List Char) (prev) {t : List Char} (h : ∀ d ∈ t, isWild d = false) :
    nextLevelGo seen false prev t = (none, false) ∧
    ∀ (a : List Char) (c : Char) (x : List Char), (∀ d ∈ a, isWild d = false) → '/' ∉ a → isWild c = true →
      nextLevelGo seen false prev (t ++ '/' :: (a ++ c :: x)) = (some (seen ++ t, a ++ c :: x), false) := by
  induction t generalizing seen prev with
  | nil =>
    refine ⟨rfl, fun a c x h1 h2 h3 => ?_⟩
    rw [List.nil_append, go_cons, if_neg (by decide), if_pos rfl, if_neg (by decide), go_plain _ _ _ _ h1 h2, go_cons, if_pos h3]
    simp
  | cons d t ih =>
    have hd : isWild d = false := h d (by simp)
    have ht : ∀ e ∈ t, isWild e = false := fun e he => h e (by simp [he])
    refine ⟨?_, fun a c x h1 h2 h3 => ?_⟩
    · rw [go_cons, if_neg (by rw [hd]; simp)]
      split
      · exact (ih _ _ ht).1
      · exact (ih _ _ ht).1
    · rw [List.cons_append, go_cons, if_neg (by rw [hd]; simp)]
      split
      · rw [if_neg (by decide), (ih _ _ ht).2 a c x h1 h2 h3]; simp
      · rw [(ih _ _ ht).2 a c x h1 h2 h3]; simp

/-- How a pattern is cut: it has no joker; or its first level has one; or the levels before the first one with a joker are taken together. -/
theorem nextLevel_cases (p : List Char) :
    ((∀ c ∈ p, isWild c = false) ∧ nextLevel p = (none, false)) ∨
    ('/' ∉ p ∧ WildIn p ∧ nextLevel p = (none, true)) ∨
    (∃ l r, p = l ++ '/' :: r ∧ '/' ∉ l ∧ WildIn l ∧ nextLevel p = (some (l, r), true)) ∨
    (∃ t r, p = t ++ '/' :: r ∧ (∀ c ∈ t, isWild c = false) ∧ nextLevel p = (some (t, r), false)) := by
  unfold nextLevel
  rcases wild_first p with h | ⟨u, c, x, rfl, h1, h2⟩
  · exact .inl ⟨h, (go_text _ _ h).1⟩
  · rcases sep_last u with h | ⟨t, a, rfl, h⟩
    · have hc : c ≠ '/' := by rintro rfl; revert h1; decide
      have e : nextLevelGo [] false none (u ++ c :: x) = nextLevelGo (u ++ [c]) true none x := by
        rw [go_plain _ _ _ _ h2 h, go_cons, if_pos h1]; rfl
      rw [e]
      rcases sep_first x with hx | ⟨l, r, rfl, hl⟩
      · refine .inr (.inl ⟨by simp [h, hx, Ne.symm hc], (joker_iff _).2 ⟨c, by simp, h1⟩, (go_joker _ hx).1⟩)
      · refine .inr (.inr (.inl ⟨u ++ c :: l, r, by simp, by simp [h, hl, Ne.symm hc], (joker_iff _).2 ⟨c, by simp, h1⟩, ?_⟩))
        rw [(go_joker _ hl).2 r]
        simp
    · refine .inr (.inr (.inr ⟨t, a ++ c :: x, by simp, fun d hd => h2 d (by simp [hd]), ?_⟩))
      have := (go_text [] none (t := t) (fun d hd => h2 d (by simp [hd]))).2 a c x (fun d hd => h2 d (by simp [hd])) h h1
      rw [List.append_assoc, List.cons_append, this]
      simp

/-! ### Levels without jokers -/

theorem inDir_name {d : Option (List Char)} {e : List Char} (h : e ≠ []) (h2 : e.getLast? ≠ some '/') :
    inDir d e ≠ [] ∧ (inDir d e).getLast? ≠ some '/' := by
  obtain ⟨x, y, rfl⟩ : ∃ x y, e = x ++ [y] := by
    rcases List.eq_nil_or_concat e with h' | ⟨x, y, h'⟩
    · exact absurd h' h
    · exact ⟨x, y, by simpa using h'⟩
  cases d with
  | none => exact ⟨h, h2⟩
  | some d =>
    simp only [List.getLast?_append, List.getLast?_singleton, Option.some_or] at h2
    simp only [inDir]
    refine ⟨?_, ?_⟩
    · split <;> simp
    · split
      · rw [← List.append_assoc]; simpa using h2
      · rw [← List.cons_append, ← List.append_assoc, List.getLast?_append]; simpa using h2

theorem inDir_inDir {d : Option (List Char)} {e : List Char} (h : e ≠ []) (h2 : e.getLast? ≠ some '/') (r : List Char) :
    inDir (some (inDir d e)) r = inDir d e ++ '/' :: r ∧ inDir d e ++ '/' :: r = inDir d (e ++ '/' :: r) := by
  refine ⟨?_, ?_⟩
  · rw [inDir, if_neg (inDir_name h h2).2]
  · unfold inDir
    cases d with
    | none => rfl
    | some d => simp only; split <;> simp

theorem nosep_last {e : List Char} (h : '/' ∉ e) : e.getLast? ≠ some '/' := by
  intro h2
  exact h (List.mem_of_getLast? h2)

/-- No two separators follow each other. -/
def OneSep (p : List Char) : Prop := ¬ ['/', '/'] <:+: p

instance (p) : Decidable (OneSep p) := by unfold OneSep; infer_instance

theorem OneSep.right {t r : List Char} (h : OneSep (t ++ '/' :: r)) : OneSep r ∧ r.head? ≠ some '/' := by
  refine ⟨fun hc => h (hc.trans ⟨t ++ ['/'], [], by simp⟩), ?_⟩
  intro hr
  cases r with
  | nil => cases hr
  | cons c r => cases hr; exact h ⟨t, r, by simp⟩

theorem OneSep.left {t r : List Char} (h : OneSep (t ++ '/' :: r)) : OneSep t ∧ t.getLast? ≠ some '/' := by
  refine ⟨fun hc => h (hc.trans ⟨[], '/' :: r, by simp⟩), ?_⟩
  intro hr
  obtain ⟨x, rfl⟩ := List.getLast?_eq_some_iff.1 hr
  exact h ⟨x, r, by simp⟩

section
variable {fs : FileSys} (hfs : FileSysLaws fs) (m : List Char → List Char → Bool) (hide : Bool)
include hfs

/-- A text without jokers stands for the file of that name. -/
theorem selected_text (t : List Char) (hw : ∀ c ∈ t, isWild c = false) (h1 : OneSep t) (h2 : t.head? ≠ some '/') (d : Option (List Char)) :
    selected fs m hide (here fs m hide) d (levels t) =
      (if fs.isReg (inDir d t) || fs.isDir (inDir d t) then [inDir d t] else []) := by
  induction hn : t.length using Nat.strongRecOn generalizing t d with
  | ind n ih =>
  have nj : ∀ l, (∀ c ∈ l, c ∈ t) → ¬ WildIn l := fun l hl hj => by
    obtain ⟨c, h3, h4⟩ := (joker_iff l).1 hj
    rw [hw c (hl c h3)] at h4; cases h4
  rcases sep_first t with h | ⟨l, r, rfl, h⟩
  · rw [levels_nosep h, selected, here, if_neg (nj t fun _ h => h)]
  · have hl : l ≠ [] := by rintro rfl; simp at h2
    have hl2 := nosep_last h
    obtain ⟨l', ls, hr⟩ : ∃ l' ls, levels r = l' :: ls := by
      cases hr : levels r with
      | nil => exact absurd hr (levels_ne_nil r)
      | cons a b => exact ⟨a, b, rfl⟩
    rw [levels_sep h, hr, selected, if_neg (nj l fun c hc => by simp [hc]), ← hr,
      ih r.length (by rw [← hn]; simp; omega) r (fun c hc => hw c (by simp [hc])) h1.right.1 h1.right.2 _ rfl,
      (inDir_inDir hl hl2 r).1, ← (inDir_inDir hl hl2 r).2]
    by_cases hd : fs.isDir (inDir d l) = true
    · rw [if_pos hd]
    · rw [if_neg hd, if_neg]
      intro he
      exact hd (hfs.parent _ _ (inDir_name hl hl2).1 (by simpa using he))

theorem selected_prefix (leaf) (t r : List Char) (hw : ∀ c ∈ t, isWild c = false) (h1 : OneSep (t ++ '/' :: r)) (h2 : t.head? ≠ some '/')
    (h0 : t ≠ []) (d : Option (List Char)) :
    selected fs m hide leaf d (levels (t ++ '/' :: r)) =
      (if fs.isDir (inDir d t) then selected fs m hide leaf (some (inDir d t)) (levels r) else []) := by
  induction hn : t.length using Nat.strongRecOn generalizing t d with
  | ind n ih =>
  have nj : ∀ l, (∀ c ∈ l, c ∈ t) → ¬ WildIn l := fun l hl hj => by
    obtain ⟨c, h3, h4⟩ := (joker_iff l).1 hj
    rw [hw c (hl c h3)] at h4; cases h4
  rcases sep_first t with h | ⟨l, r', rfl, h⟩
  · obtain ⟨l', ls, hr⟩ : ∃ l' ls, levels r = l' :: ls := by
      cases hr : levels r with
      | nil => exact absurd hr (levels_ne_nil r)
      | cons a b => exact ⟨a, b, rfl⟩
    rw [levels_sep h, hr, selected, if_neg (nj t fun _ h => h)]
  · have hl : l ≠ [] := by rintro rfl; simp at h2
    have hl2 := nosep_last h
    have hone : OneSep (l ++ '/' :: (r' ++ '/' :: r)) := by simpa using h1
    have hr0 : r' ≠ [] := by
      rintro rfl
      exact h1 ⟨l, r, by simp⟩
    obtain ⟨l', ls, hr⟩ : ∃ l' ls, levels (r' ++ '/' :: r) = l' :: ls := by
      cases hr : levels (r' ++ '/' :: r) with
      | nil => exact absurd hr (levels_ne_nil _)
      | cons a b => exact ⟨a, b, rfl⟩
    have hh : r'.head? ≠ some '/' := by
      intro hc
      apply hone.right.2
      cases r' with
      | nil => cases hc
      | cons a b => exact hc
    rw [List.append_assoc, List.cons_append, levels_sep h, hr, selected, if_neg (nj l fun c hc => by simp [hc]), ← hr,
      ih r'.length (by rw [← hn]; simp; omega) r' (fun c hc => hw c (by simp [hc])) hone.right.1 hh hr0 _ rfl,
      (inDir_inDir hl hl2 r').1, ← (inDir_inDir hl hl2 r').2]
    by_cases hd : fs.isDir (inDir d l) = true
    · rw [if_pos hd]
    · rw [if_neg hd, if_neg]
      intro he
      exact hd (hfs.parent _ _ (inDir_name hl hl2).1 (.inr he))

end

end PBat
