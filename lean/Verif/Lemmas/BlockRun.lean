import Verif.Model.BlockRun
import Verif.Spec.BlockRun
import Verif.Lemmas.Whole
import Verif.Lemmas.Args
import Verif.Lemmas.If
/-
Lemmas for C112.
-/
namespace PBat
open Spec

/-! ### The end of a line at the end of the text -/

theorem Closed_hybridTo_nil {p : Char → Bool} {s : List Char} (h : Closed p s) : hybridTo p s = [] := by
  have h1 : searchOutQuotes p s = none := by
    cases hs : searchOutQuotes p s with
    | none => rfl
    | some i =>
      have := searchOutQuotes_spec p s
      rw [hs] at this
      exact absurd this.1 (h.none i)
  have h2 : searchTok (· == '\n') s = none := by
    cases hs : searchTok (· == '\n') s with
    | none => rfl
    | some i =>
      have := searchTok_first (· == '\n') s
      rw [hs] at this
      exact absurd this.1 (h.line i)
  unfold hybridTo searchHybrid
  rw [h1, h2]
  rfl

theorem clauseEnd_nil {par : Bool} {s : List Char} (h : hybridTo (clauseStop par) s = []) : clauseEnd par s = .ok (some []) := by
  rw [clauseEnd.eq_1]
  split
  · rfl
  · next h' => rw [h] at h'; cases h'

theorem clauseEnd_tail {par : Bool} {s : List Char} {r : List Char} (h : hybridTo (clauseStop par) s = '(' :: r)
    (hb : blockEnd ('(' :: r) = .ok (some [')'])) : clauseEnd par s = .ok (some []) := by
  rw [clauseEnd.eq_1]
  split
  · next h' => simp [h] at h'
  · next c' r'' h' =>
    rw [h] at h'
    cases h'
    simp [hb]

theorem end_clause {t : List Char} {strict : Bool} (h : Clause strict t) : clauseEnd false t = .ok (some []) := by
  refine Clause.rec (motive_1 := fun _ _ => True) (motive_2 := fun _ _ _ => True) (motive_3 := fun t _ => clauseEnd false t = .ok (some []))
    (fun _ _ => trivial) (fun _ _ _ _ _ => trivial) (fun _ _ _ => trivial) (fun _ _ _ _ => trivial) (fun _ _ _ _ => trivial)
    ?_ ?_ h
  · intro t ht
    exact clauseEnd_nil (Closed_hybridTo_nil (ht.mono clauseStop_struct))
  · intro t b k ht hb _ _ ihk
    have h1 := (ht.mono clauseStop_struct).hybridTo (by decide) (by decide) (c := '(') (.inl (by decide)) (b ++ ')' :: k)
    have h2 := blockEnd_body hb k
    by_cases hk : k = []
    · subst hk
      exact clauseEnd_tail h1 h2
    · rw [clauseEnd_block h1 h2 hk (by simp; try omega)]
      exact ihk

theorem end_line {strict g : Bool} {l : List Char} (h : Line strict g l) : lineEnd false l = .ok (some []) := by
  cases h with
  | @group w b hw hb =>
    rw [lineEnd_margin hw, lineEnd_group (blockEnd_body hb [])]
    rfl
  | @plain w t hw ht hk hcl =>
    rw [lineEnd_margin hw]
    cases t with
    | nil => rw [lineEnd.eq_1]; rfl
    | cons d t =>
      have hd := ht d rfl
      have hk' : ¬ BlockWord (d :: t) := fun h => hk (BlockWord_append h _)
      rw [lineEnd_plain hd.1 hd.2 hk', Closed_hybridTo_nil]
      refine hcl.mono (fun c h => ?_)
      have := lineStop_struct c h
      cases strict
      · exact this.2
      · exact this.1
  | @clause w t hw hk ht =>
    rw [lineEnd_margin hw]
    rcases t with _ | ⟨d, r⟩
    · obtain ⟨k, b, r', h1, -⟩ := hk
      simp at h1
    · have hh := blockWord_head hk
      rw [lineEnd_clause hh.1 hh.2 hk]
      exact end_clause ht

/-! ### The loop makes progress -/

theorem rowEnd_progress {s t : List Char} {c : Char} {r : List Char} (ht : lineEnd false (skipBlanks s) = .ok (some t))
    (hu : skipOp (skipOp t) = c :: r) (hc : ¬ (c = '\n' ∨ c = ')')) : (c :: r).length < s.length := by
  obtain ⟨w, hw, -⟩ := skipBlanks_suffix s
  have hls : (skipBlanks s).length ≤ s.length := by
    have := congrArg List.length hw
    simp at this
    omega
  obtain ⟨o, ho, hp⟩ := lineEnd_total false (skipBlanks s)
  rw [ht] at ho
  cases ho
  have hsuf := hp _ rfl
  have h1 := hsuf.length_le
  have h2 := skipOp_length t
  have h3 := skipOp_length (skipOp t)
  rw [hu] at h3
  rcases Nat.lt_or_ge t.length (skipBlanks s).length with hlt | hge
  · omega
  · have heq : t = skipBlanks s := hsuf.eq_of_length (by omega)
    cases t with
    | nil => simp [skipOp] at hu
    | cons d x =>
      by_cases hd : d = '&' ∨ d = '|'
      · have : skipOp (d :: x) = x := by simp [skipOp, hd]
        rw [this] at h3
        have h5 := congrArg List.length heq
        simp only [List.length_cons] at h3 h5 ⊢
        omega
      · have ha : afterOp (d :: x) = d :: x := by
          simp only [afterOp]
          rw [if_neg (by rintro (h | h) <;> simp [h] at hd)]
        have : lineEnd false (afterOp (d :: x)) = .ok (some (d :: x)) := by rw [ha, ← ht, ← heq]
        rcases afterOp_progress this with h7 | h7
        · have e : skipOp (d :: x) = d :: x := by simp [skipOp, hd]
          rw [e, e] at hu
          cases hu
          exact absurd (.inl h7) hc
        · omega

theorem rowEnd_eq (s : List Char) : rowEnd s =
    match lineEnd false (skipBlanks s) with
    | .ok none => .ub
    | .ok (some t) =>
      match skipOp (skipOp t) with
      | [] => .ok []
      | c :: r => if c = '\n' ∨ c = ')' then .ok (c :: r) else rowEnd (c :: r)
    | .ub => .ub
    | .hang => .hang := by
  rw [rowEnd.eq_def]
  cases ht : lineEnd false (skipBlanks s) with
  | ub => rfl
  | hang => rfl
  | ok o =>
    cases o with
    | none => rfl
    | some t =>
      simp only
      cases hu : skipOp (skipOp t) with
      | nil => rfl
      | cons c r =>
        simp only
        by_cases hc : c = '\n' ∨ c = ')'
        · rw [if_pos hc, if_pos hc]
        · rw [if_neg hc, if_neg hc, if_pos (rowEnd_progress ht hu hc)]

theorem rowEnd_congr {s t : List Char} (h : skipBlanks s = skipBlanks t) : rowEnd s = rowEnd t := by
  rw [rowEnd_eq s, rowEnd_eq t, h]

theorem rowEnd_blanks {w : List Char} (hw : ∀ c ∈ w, Blank c) (s : List Char) : rowEnd (w ++ s) = rowEnd s :=
  rowEnd_congr (skipBlanks_append hw)

theorem rowEnd_nil : rowEnd [] = .ok [] := by
  rw [rowEnd_eq]
  have : lineEnd false (skipBlanks []) = .ok (some []) := by
    rw [show skipBlanks [] = [] from rfl, lineEnd.eq_1]
    rfl
  rw [this]
  rfl

/-- The end found is the end of the text, or a line feed or a parenthesis of the text; the loop ends. -/
theorem rowEnd_total (s : List Char) : rowEnd s = .ub ∨ ∃ t, rowEnd s = .ok t ∧ t <:+ s := by
  generalize hn : s.length = n
  induction n using Nat.strongRecOn generalizing s with
  | _ n ih =>
    obtain ⟨w, hw, -⟩ := skipBlanks_suffix s
    obtain ⟨o, ho, hp⟩ := lineEnd_total false (skipBlanks s)
    rw [rowEnd_eq, ho]
    cases o with
    | none => exact .inl rfl
    | some t =>
      have hsuf : t <:+ s := (hp _ rfl).trans ⟨w, hw.symm⟩
      have hop : ∀ x : List Char, skipOp x <:+ x := by
        intro x
        cases x with
        | nil => exact List.suffix_refl _
        | cons c r =>
          simp only [skipOp]
          split
          · exact List.suffix_cons c r
          · exact List.suffix_refl _
      have hu : skipOp (skipOp t) <:+ s := ((hop _).trans (hop _)).trans hsuf
      simp only
      cases hk : skipOp (skipOp t) with
      | nil => exact .inr ⟨_, rfl, List.nil_suffix⟩
      | cons c r =>
        rw [hk] at hu
        simp only
        by_cases hc : c = '\n' ∨ c = ')'
        · rw [if_pos hc]
          exact .inr ⟨_, rfl, hu⟩
        · rw [if_neg hc]
          rcases ih _ (by have := rowEnd_progress ho hk hc; omega) (c :: r) rfl with h | ⟨x, h1, h2⟩
          · exact .inl h
          · exact .inr ⟨x, h1, h2.trans hu⟩

theorem blockLines_total (s : List Char) : blockLines s = .ub ∨ ∃ ls, blockLines s = .ok ls := by
  generalize hn : s.length = n
  induction n using Nat.strongRecOn generalizing s with
  | _ n ih =>
    cases s with
    | nil => exact .inr ⟨[], by rw [blockLines.eq_def]⟩
    | cons c r =>
      rw [blockLines.eq_def]
      rcases rowEnd_total (c :: r) with h | ⟨t, h, hs⟩
      · simp [h]
      · have hl : (t.drop 1).length < (c :: r).length := by
          have := hs.length_le
          simp only [List.length_drop, List.length_cons] at this ⊢
          omega
        simp only [h]
        rw [if_pos hl]
        rcases ih _ (by omega) (t.drop 1) rfl with h | ⟨ls, h⟩
        · rw [h]; exact .inl rfl
        · rw [h]
          simp only
          split
          · exact .inr ⟨_, rfl⟩
          · exact .inr ⟨_, rfl⟩

/-! ### Lines -/

theorem line_head' {strict g : Bool} {l : List Char} (h : Line strict g l) {c : Char} (hc : l.head? = some c) :
    c ≠ '\n' ∧ c ≠ ')' := by
  have hmar : ∀ {w t : List Char}, (∀ c ∈ w, Margin c) → (w ++ t).head? = some c → Margin c ∨ t.head? = some c := by
    intro w t hw h
    cases w with
    | nil => exact .inr h
    | cons d w => simp at h; subst h; exact .inl (hw _ (by simp))
  have hm : Margin c → c ≠ '\n' ∧ c ≠ ')' := by
    intro h
    rcases h with ⟨h, hn⟩ | rfl
    · exact ⟨hn, by rintro rfl; revert h; unfold Blank; decide⟩
    · decide
  cases h with
  | group hw _ =>
    rcases hmar hw hc with h | h
    · exact hm h
    · simp at h; subst h; decide
  | @plain w t hw _ _ hcl =>
    rcases hmar hw hc with h | h
    · exact hm h
    · cases t with
      | nil => cases h
      | cons d t =>
        simp at h
        subst h
        constructor
        · rintro rfl
          exact hcl.line 0 ⟨⟨'\n', rfl, by decide⟩, by simp [Free, caretsBefore]⟩
        · rintro rfl
          refine hcl.none 0 ⟨⟨⟨')', rfl, ?_⟩, by simp [Free, caretsBefore]⟩, by simp [quotesBefore], ?_⟩
          · cases strict <;> decide
          · rintro ⟨h, -⟩
            simp at h
  | @clause w t hw hk _ =>
    rcases hmar hw hc with h | h
    · exact hm h
    · obtain ⟨k, b, r, rfl, -, h3⟩ := hk
      cases k with
      | nil => rcases h3 with h3 | h3 | h3 <;> simp at h3
      | cons x k =>
        simp at h
        subst h
        constructor <;> rintro rfl <;> rcases h3 with h3 | h3 | h3 <;> simp at h3 <;> revert h3 <;> decide

theorem row_head {strict tight : Bool} {r : List Char} (h : Row strict tight r) {c : Char} (hc : r.head? = some c) :
    c ≠ '\n' ∧ c ≠ ')' := by
  cases h with
  | one hl => exact line_head' hl hc
  | @op g l d b hl hd _ _ =>
    cases l with
    | nil =>
      simp at hc
      subst hc
      rcases hd with rfl | rfl <;> decide
    | cons x l => exact line_head' hl (by simpa using hc)
  | @blank l d b hl hd hn _ _ =>
    cases l with
    | nil =>
      simp at hc
      subst hc
      exact ⟨hn, by rintro rfl; revert hd; unfold Blank; decide⟩
    | cons x l => exact line_head' hl (by simpa using hc)

theorem line_shape {strict g : Bool} {l : List Char} (h : Line strict g l) :
    ∃ w t, l = w ++ t ∧ (∀ c ∈ w, Margin c) ∧ ∀ c, t.head? = some c → ¬ Blank c := by
  cases h with
  | @group w b hw _ =>
    refine ⟨w, _, rfl, hw, ?_⟩
    intro c hc
    simp at hc
    subst hc
    unfold Blank
    decide
  | @plain w t hw ht _ hcl =>
    refine ⟨w, t, rfl, hw, ?_⟩
    intro c hc hb
    have h1 := (ht c hc).1
    cases t with
    | nil => cases hc
    | cons d t =>
      simp at hc
      subst hc
      by_cases hn : d = '\n'
      · subst hn
        exact hcl.line 0 ⟨⟨'\n', rfl, by decide⟩, by simp [Free, caretsBefore]⟩
      · exact h1 (.inl ⟨hb, hn⟩)
  | @clause w t hw hk _ =>
    refine ⟨w, t, rfl, hw, ?_⟩
    intro c hc hb
    cases t with
    | nil => cases hc
    | cons d t =>
      simp at hc
      subst hc
      by_cases hn : d = '\n'
      · subst hn
        obtain ⟨k, b, r, h1, -, h3⟩ := hk
        cases k with
        | nil => rcases h3 with h3 | h3 | h3 <;> simp at h3
        | cons x k =>
          simp at h1
          rw [← h1.1] at h3
          rcases h3 with h3 | h3 | h3 <;> simp at h3 <;> revert h3 <;> decide
      · exact (blockWord_head hk).1 (.inl ⟨hb, hn⟩)

/-- A command scanned from behind its blanks. -/
theorem lineEnd_skip {strict g : Bool} {l : List Char} (h : Line strict g l) {rest : List Char}
    (hn : Nonblank l ∨ ∀ c, rest.head? = some c → ¬ Blank c) :
    lineEnd false (skipBlanks (l ++ rest)) = lineEnd false (l ++ rest) := by
  obtain ⟨w, t, rfl, hw, ht⟩ := line_shape h
  clear h
  induction w with
  | nil =>
    cases t with
    | nil =>
      rcases hn with ⟨x, hx, -⟩ | hn
      · cases hx
      · cases rest with
        | nil => rfl
        | cons d r => rw [List.append_nil, List.nil_append, skipBlanks_stop (hn d rfl)]
    | cons d t =>
      have := ht d rfl
      rw [List.nil_append, List.cons_append, skipBlanks_stop this]
  | cons c w ih =>
    by_cases hc : Blank c
    · have h1 : skipBlanks (c :: w ++ t ++ rest) = skipBlanks (w ++ t ++ rest) := skipBlanks_append (w := [c]) (by simpa using hc)
      have h2 : lineEnd false (c :: w ++ t ++ rest) = lineEnd false (w ++ t ++ rest) :=
        lineEnd_margin (w := [c]) (by simpa using hw c (by simp)) _
      rw [h1, h2]
      refine ih ?_ fun x hx => hw x (by simp [hx])
      rcases hn with ⟨x, hx, hxb⟩ | hn
      · left
        rcases List.mem_cons.1 hx with rfl | hx
        · exact absurd hc hxb
        · exact ⟨x, hx, hxb⟩
      · exact .inr hn
    · rw [List.cons_append, List.cons_append, skipBlanks_stop hc]

theorem line_nil {strict g : Bool} {l : List Char} (h : Line strict g l) (hn : ¬ Nonblank l) : g = false := by
  cases h with
  | @group w b _ _ => exact absurd ⟨'(', by simp, by unfold Blank; decide⟩ hn
  | plain => rfl
  | clause => rfl

theorem op_not_blank {c : Char} (h : c = '&' ∨ c = '|') : ¬ Blank c := by
  rcases h with rfl | rfl <;> (unfold Blank; decide)

theorem blank_not_op {c : Char} (h : Blank c) : ¬ (c = '&' ∨ c = '|') := fun h' => op_not_blank h' h

/-- The end of a line of a block: the end of the text, or its line feed if it is tight. -/
theorem row_end {strict tight : Bool} {r : List Char} (h : Row strict tight r) {rest : List Char}
    (hrest : rest = [] ∨ (tight = true ∧ Nonblank r ∧ ∃ x, rest = '\n' :: x)) : rowEnd (r ++ rest) = .ok rest := by
  generalize hn : r.length = n
  induction n using Nat.strongRecOn generalizing r with
  | _ n ih =>
    have stop : skipOp rest = rest := by
      rcases hrest with rfl | ⟨-, -, x, rfl⟩ <;> simp [skipOp]
    have tail : ∀ b : List Char, b.length < n → Row strict tight b → (tight = true → b = [] ∨ Nonblank b) →
        (match b ++ rest with
        | [] => Res.ok []
        | c :: r => if c = '\n' ∨ c = ')' then .ok (c :: r) else rowEnd (c :: r)) = .ok rest := by
      intro b hb hr hc
      cases b with
      | nil => rcases hrest with rfl | ⟨-, -, x, rfl⟩ <;> simp
      | cons d b =>
        have hd := row_head hr (c := d) rfl
        simp only [List.cons_append]
        rw [if_neg (by simp [hd])]
        refine ih _ hb hr ?_ rfl
        rcases hrest with h | ⟨h1, -, h2⟩
        · exact .inl h
        · exact .inr ⟨h1, (hc h1).resolve_left (by simp), h2⟩
    have tail2 : ∀ b : List Char, b.length < n → Row strict tight b → (tight = true → b = [] ∨ Nonblank b) →
        (match skipOp (b ++ rest) with
        | [] => Res.ok []
        | c :: r => if c = '\n' ∨ c = ')' then .ok (c :: r) else rowEnd (c :: r)) = .ok rest := by
      intro b hb hr hc
      cases hb' : b with
      | nil =>
        subst hb'
        have := tail [] hb hr hc
        rw [List.nil_append] at this ⊢
        rw [stop]
        exact this
      | cons d b' =>
        by_cases hd : d = '&' ∨ d = '|'
        · have e : skipOp (d :: b' ++ rest) = b' ++ rest := by simp [skipOp, hd]
          rw [e]
          have hlt : b'.length < n := by
            subst hb'
            simp at hb
            omega
          revert hb'
          cases hr with
          | one hl =>
            rintro rfl
            exact absurd (Or.symm hd) (line_head hl rfl)
          | @op g l c b hl hc' hb'' hr' =>
            intro he
            cases l with
            | nil =>
              simp at he
              rw [← he.2]
              exact tail b (by rw [he.2]; exact hlt) hr' hb''
            | cons x l =>
              simp at he
              rw [← he.1] at hd
              exact absurd (Or.symm hd) (line_head hl rfl)
          | @blank l c b hl hc' _ _ hr' =>
            intro he
            cases l with
            | nil => exact absurd (line_nil hl (by rintro ⟨x, hx, -⟩; cases hx)) (by simp)
            | cons x l =>
              simp at he
              rw [← he.1] at hd
              exact absurd (Or.symm hd) (line_head hl rfl)
        · have e : skipOp (d :: b' ++ rest) = d :: b' ++ rest := by simp [skipOp, hd]
          rw [e, ← hb']
          exact tail b hb hr hc
    cases h with
    | @one g l hl =>
      by_cases hbl : Nonblank r
      · have h1 : lineEnd false (r ++ rest) = .ok (some rest) := by
          rcases hrest with rfl | ⟨-, -, x, rfl⟩
          · rw [List.append_nil]; exact end_line hl
          · exact top_line hl '\n' (by simp) x
        rw [rowEnd_eq, lineEnd_skip hl (.inl hbl), h1]
        simp only [stop]
        rcases hrest with rfl | ⟨-, -, x, rfl⟩ <;> simp
      · rcases hrest with rfl | ⟨-, h, -⟩
        · rw [List.append_nil]
          refine (rowEnd_congr (t := []) ?_).trans rowEnd_nil
          rw [skipBlanks_all]
          · rfl
          · intro c hc
            exact Decidable.byContradiction fun h => hbl ⟨c, hc, h⟩
        · exact absurd h hbl
    | @op g l c b hl hc hb hr =>
      have h1 := top_line hl c (by rcases hc with rfl | rfl <;> simp) (b ++ rest)
      rw [List.append_assoc, List.cons_append, rowEnd_eq,
        lineEnd_skip hl (.inr (by intro d hd; simp at hd; subst hd; exact op_not_blank hc)), h1]
      have e : skipOp (c :: (b ++ rest)) = b ++ rest := by simp [skipOp, hc]
      simp only [e]
      exact tail2 b (by rw [← hn]; simp; omega) hr hb
    | @blank l c b hl hc hcn hb hr =>
      have h1 := top_line hl c (by simp) (b ++ rest)
      have hbl : Nonblank l := by
        apply Decidable.byContradiction
        intro h
        exact absurd (line_nil hl h) (by simp)
      rw [List.append_assoc, List.cons_append, rowEnd_eq, lineEnd_skip hl (.inl hbl), h1]
      have e : skipOp (c :: (b ++ rest)) = c :: (b ++ rest) := by simp [skipOp, blank_not_op hc]
      simp only [e]
      rw [if_neg (by rintro (h | h); exact hcn h; subst h; revert hc; unfold Blank; decide)]
      have h2 : rowEnd (c :: (b ++ rest)) = rowEnd (b ++ rest) := rowEnd_blanks (w := [c]) (by simpa using hc) _
      rw [h2]
      refine ih _ (by rw [← hn]; simp; omega) hr ?_ rfl
      rcases hrest with h | ⟨h1, -, h2⟩
      · exact .inl h
      · exact .inr ⟨h1, hb h1, h2⟩

/-! ### All lines -/

theorem skipAllBlanks_ne {s : List Char} {c : Char} (hc : c ∈ s) (hb : ¬ Blank c) (ha : c ≠ '@') : skipAllBlanks s ≠ [] := by
  induction s with
  | nil => cases hc
  | cons d s ih =>
    simp only [skipAllBlanks]
    split
    · next h =>
      rcases List.mem_cons.1 hc with rfl | hc
      · simp only [Bool.or_eq_true, beq_iff_eq] at h
        rcases h with h | h
        · exact absurd ((isDelim_iff _).1 h) hb
        · exact absurd h ha
      · exact ih hc
    · simp

theorem skipAllBlanks_head (s : List Char) : (skipAllBlanks s).head? ≠ some '\n' := by
  induction s with
  | nil => simp [skipAllBlanks]
  | cons d s ih =>
    simp only [skipAllBlanks]
    split
    · exact ih
    · next h =>
      intro h'
      simp at h'
      subst h'
      exact h (by decide)

theorem skipAllBlanks_all {s : List Char} (h : ∀ c ∈ s, Blank c) : skipAllBlanks s = [] := by
  induction s with
  | nil => rfl
  | cons d s ih =>
    have := (isDelim_iff d).2 (h d (by simp))
    simp only [skipAllBlanks, this, Bool.true_or, if_true]
    exact ih fun c hc => h c (by simp [hc])

theorem blockLines_blank {s : List Char} (h : ∀ c ∈ s, Blank c) : blockLines s = .ok [] := by
  cases s with
  | nil => rw [blockLines.eq_def]
  | cons c r =>
    have h1 : rowEnd (c :: r) = .ok [] := by
      have := rowEnd_blanks h []
      rw [List.append_nil] at this
      rw [this, rowEnd_nil]
    rw [blockLines.eq_def]
    simp only [h1]
    rw [if_pos (by simp)]
    have : blockLines (List.drop 1 []) = .ok [] := by rw [blockLines.eq_def]; rfl
    rw [this]
    simp only
    rw [if_pos (.inl (skipAllBlanks_all h))]

theorem blockLines_step {s t : List Char} {ls : List (List Char)} (hs : skipAllBlanks s ≠ []) (h : rowEnd (s ++ t) = .ok t)
    (hl : blockLines (t.drop 1) = .ok ls) (hw : skipAllBlanks (s ++ t) ≠ []) : blockLines (s ++ t) = .ok (s :: ls) := by
  cases hst : s with
  | nil => subst hst; exact absurd rfl hs
  | cons c r =>
    subst hst
    rw [List.cons_append] at h hw ⊢
    rw [blockLines.eq_def]
    simp only [h]
    rw [if_pos (by simp; omega), hl]
    simp only
    rw [if_neg (by rintro (h | h); exact hw h; exact skipAllBlanks_head _ h)]
    congr 2
    rw [← List.cons_append]
    have : (c :: r ++ t).length - t.length = (c :: r).length := by simp; omega
    rw [this, List.take_left]

theorem unindent_append {w : List Char} (h : ∀ c ∈ w, Blank c) (s : List Char) : unindent (w ++ s) = unindent s := by
  induction w with
  | nil => rfl
  | cons c w ih =>
    have := h c (by simp)
    unfold unindent at ih ⊢
    rw [List.cons_append, List.dropWhile_cons, if_pos (by simpa using this)]
    exact ih fun x hx => h x (by simp [hx])

theorem blockLines_rows {strict : Bool} {rs : List (List Char)} {t : List Char} (h : Rows strict true rs t)
    (hat : ∀ r ∈ rs, Nonblank r → ∃ c ∈ r, ¬ Blank c ∧ c ≠ '@') : ∀ w : List Char, (∀ c ∈ w, Blank c) →
    ∃ ls, blockLines (w ++ t) = .ok ls ∧ ls.map unindent = (rs.filter fun r => decide (Nonblank r)).map unindent := by
  induction h with
  | @last r hr =>
    intro w hw
    by_cases hb : Nonblank r
    · obtain ⟨c, hc, h1, h2⟩ := hat r (by simp) hb
      have h3 : skipAllBlanks (w ++ r) ≠ [] := skipAllBlanks_ne (by simp [hc]) h1 h2
      have h4 : rowEnd (w ++ r) = .ok [] := by
        have := row_end hr (rest := []) (.inl rfl)
        rw [List.append_nil] at this
        rw [rowEnd_blanks hw, this]
      have := blockLines_step (s := w ++ r) (t := []) (ls := []) h3 (by rw [List.append_nil]; exact h4)
        (by rw [blockLines.eq_def]; rfl) (by rw [List.append_nil]; exact h3)
      rw [List.append_nil] at this
      refine ⟨_, this, ?_⟩
      simp [hb, unindent_append hw]
    · have : ∀ c ∈ w ++ r, Blank c := by
        intro c hc
        rcases List.mem_append.1 hc with hc | hc
        · exact hw c hc
        · exact Decidable.byContradiction fun h => hb ⟨c, hc, h⟩
      refine ⟨[], blockLines_blank this, ?_⟩
      simp [hb]
  | @cons r rs t hr _ ih =>
    intro w hw
    have ih := ih fun x hx => hat x (by simp [hx])
    by_cases hb : Nonblank r
    · obtain ⟨c, hc, h1, h2⟩ := hat r (by simp) hb
      have h3 : skipAllBlanks (w ++ r) ≠ [] := skipAllBlanks_ne (by simp [hc]) h1 h2
      obtain ⟨ls, h5, h6⟩ := ih [] (by simp)
      have h4 : rowEnd (w ++ r ++ '\n' :: t) = .ok ('\n' :: t) := by
        rw [List.append_assoc, rowEnd_blanks hw]
        exact row_end hr (.inr ⟨rfl, hb, t, rfl⟩)
      have := blockLines_step (s := w ++ r) (t := '\n' :: t) (ls := ls) h3 h4 h5 (skipAllBlanks_ne (c := c) (by simp [hc]) h1 h2)
      rw [List.append_assoc] at this
      refine ⟨_, this, ?_⟩
      simp [hb, unindent_append hw, h6]
    · have hw' : ∀ c ∈ w ++ r ++ ['\n'], Blank c := by
        intro c hc
        simp only [List.mem_append, List.mem_singleton] at hc
        rcases hc with (hc | hc) | rfl
        · exact hw c hc
        · exact Decidable.byContradiction fun h => hb ⟨c, hc, h⟩
        · unfold Blank; decide
      obtain ⟨ls, h5, h6⟩ := ih _ hw'
      refine ⟨ls, ?_, ?_⟩
      · rw [← h5]
        simp
      · simp [hb, h6]

theorem row_body {strict tight : Bool} {r : List Char} (h : Row strict tight r) : Body strict r := by
  induction h with
  | one hl => exact .last hl
  | op hl hc _ _ ih => exact .cons hl (by rcases hc with rfl | rfl <;> simp) ih
  | blank hl hc _ _ _ ih => exact .cons hl (by simp [hc]) ih

theorem body_append {strict : Bool} {b c : List Char} (h : Body strict b) (h' : Body strict c) : Body strict (b ++ '\n' :: c) := by
  have key : ∀ n (b : List Char), b.length = n → Body strict b → Body strict (b ++ '\n' :: c) := by
    intro n
    induction n using Nat.strongRecOn with
    | _ n ih =>
      intro b hn hb
      cases hb with
      | last hl => exact .cons hl (by simp) h'
      | @cons g l d x hl hd hx =>
        rw [List.append_assoc, List.cons_append]
        exact .cons hl hd (ih _ (by rw [← hn]; simp; omega) x rfl hx)
  exact key _ b rfl h

theorem rows_body {strict tight : Bool} {rs : List (List Char)} {t : List Char} (h : Rows strict tight rs t) : Body strict t := by
  induction h with
  | last hr => exact row_body hr
  | cons hr _ ih => exact body_append (row_body hr) ih

theorem nextBlock_inside {strict : Bool} {w b : List Char} (hw : ∀ c ∈ w, Blank c) (hb : Body strict b) (v : List Char) :
    nextBlock (w ++ '(' :: (b ++ ')' :: v)) = .ok (b, ')' :: v) := by
  have hm : ¬ Blank '(' := by unfold Blank; decide
  unfold nextBlock
  rw [skipBlanks_append hw, skipBlanks_stop hm]
  simp only
  rw [blockEnd_body hb]
  show Res.ok _ = _
  congr 2
  simp

end PBat
