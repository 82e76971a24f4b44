import Verif.Model.Exec
import Verif.Spec.Exec
import Verif.Lemmas.Call
/-
Lemmas about running programs and scripts.
-/
namespace PBat
open Spec

theorem ex_still (c : Ctx) {a : List Char} (h : Still a) : c.ex a = .ok a := by
  have he : escape (fun x => x == '^' || x == '%' || x == '!') a = a := by
    apply escape_none
    intro x hx
    obtain ⟨h1, h2, h3⟩ := h x hx
    simp [h1, h2, h3]
  have := delayedExpand_escape c.delayed c.loops c.mods c.getv (q := fun x => x == '^' || x == '%' || x == '!')
    (by decide) (by decide) (by decide) a
  rw [he] at this
  exact this

/-- Each text expanded. -/
def expandAll (ex : List Char → Res (List Char)) : List (List Char) → Res (List (List Char))
  | [] => .ok []
  | a :: as => do
    let t ← ex a
    let ts ← expandAll ex as
    pure (t :: ts)

theorem paramList_kept (c : Ctx) {t : List Char} {as : List (List Char)} (h : Kept t as) :
    paramList c.ex t = expandAll c.ex as := by
  induction as generalizing t with
  | nil =>
    rcases kept_next c h with ⟨-, hn⟩ | ⟨a, as', t', e, -⟩
    · rw [paramList.eq_1, hn]; rfl
    · exact absurd e (by simp)
  | cons a as ih =>
    rcases kept_next c h with ⟨e, -⟩ | ⟨a', as', t', e, hn, hk, hl⟩
    · exact absurd e (by simp)
    · cases e
      rw [paramList.eq_1, hn]
      simp only [if_pos hl, ih hk, expandAll]

theorem expandAll_still (c : Ctx) {as : List (List Char)} (h : ∀ a ∈ as, Still a) : expandAll c.ex as = .ok as := by
  induction as with
  | nil => rfl
  | cons a as ih =>
    rw [expandAll, ex_still c (h a (by simp)), ih fun x hx => h x (by simp [hx])]
    rfl

theorem blank_isDelim {c : Char} (h : Blank c) : isDelim c = true := by
  rcases h with rfl | rfl | rfl | rfl | rfl <;> decide

theorem isDelim_blank {c : Char} (h : isDelim c = true) : Blank c := by
  have := (isDelim_iff c).1 h
  exact this

theorem skipAll_append {w s : List Char} (hw : ∀ c ∈ w, Blank c ∨ c = '@') (hs : ∀ c, s.head? = some c → ¬ Blank c ∧ c ≠ '@') :
    skipAllBlanks (w ++ s) = s := by
  induction w with
  | nil =>
    cases s with
    | nil => rfl
    | cons c s =>
      obtain ⟨h1, h2⟩ := hs c rfl
      have : isDelim c = false := by
        cases hd : isDelim c
        · rfl
        · exact absurd (isDelim_blank hd) h1
      simp [skipAllBlanks, this, h2]
  | cons c w ih =>
    have hc : (isDelim c || c == '@') = true := by
      rcases hw c (by simp) with h | h
      · simp [blank_isDelim h]
      · simp [h]
    rw [List.cons_append, skipAllBlanks, if_pos hc]
    exact ih fun x hx => hw x (by simp [hx])

theorem written_begins {q : Char → Bool} {x a : List Char} (h : Written q x a) : ∃ c r, x = c :: r ∧ ¬ Blank c := by
  cases h with
  | quoted => exact ⟨_, _, rfl, by decide⟩
  | word h1 h2 =>
    cases x with
    | nil => exact absurd rfl h1
    | cons c r => exact ⟨c, r, rfl, h2 c (by simp)⟩

/-- The text of the command itself. -/
theorem commandLine_text {q : Char → Bool} {line name tail : List Char} {as : List (List Char)} (h : CommandLine q line name tail as) :
    ∃ x, skipAllBlanks line = x ++ tail ∧ Written q x name ∧ Stops tail ∧ ParamLine q tail as ∧ ∃ lead, line = lead ++ (x ++ tail) := by
  cases h with
  | @intro lead x _ _ _ h1 h2 h3 h4 h5 =>
    refine ⟨x, ?_, h2, h4, h5, lead, by simp⟩
    rw [List.append_assoc]
    apply skipAll_append h1
    obtain ⟨c, r, rfl, hc⟩ := written_begins h2
    intro d hd
    cases hd
    exact ⟨hc, by simpa using h3⟩

theorem batchStar_eq {q : Char → Bool} (hq : q '"' = true) (hc : q '^' = true) (hp : q '%' = true) (he : q '!' = true) (c : Ctx)
    {x name tail : List Char} (hx : Written q x name) (ht : Stops tail) : batchStar c.ex (x ++ tail) = .ok (skipBlanks tail) := by
  have := readsAs_written hq hc hp he hx c [] tail (by simp) ht
  rw [List.nil_append] at this
  unfold batchStar
  rw [this]
  rfl

theorem batchArgs_holds (ex : List Char → Res (List Char)) (file line star : List Char) (name : List Char) (as : List (List Char))
    (hs : batchStar ex line = .ok star) (hpass : ∀ a ∈ as.drop 9, Passable a) :
    ∃ b, batchArgs ex file line (name :: as) = .ok b ∧ HoldsArgs b (file :: as) ∧ b '*' = some star := by
  have hl0 : localName '0' = true := by decide
  have hls : localName '*' = true := by decide
  have set0 : ∀ (b : LocalBlock) (v : Option (List Char)) (x : Char),
      setLocalVar b '0' v x = if x = '0' then v else b x := by simp [setLocalVar, hl0]
  have setS : ∀ (b : LocalBlock) (v : Option (List Char)) (x : Char),
      setLocalVar b '*' v x = if x = '*' then v else b x := by simp [setLocalVar, hls]
  have h0 : ∀ n, n < 10 → (argName n = '0' ↔ n = 0) := by decide
  have hns : ∀ n, n < 10 → argName n ≠ '*' := by decide
  unfold batchArgs
  obtain ⟨s1, s2, s3, s4, s5⟩ := setArgs_spec (fun _ => none) 1 (by omega) as
  simp only [List.drop_one, List.tail_cons]
  generalize hsa : setArgs (fun _ => none) 1 as = sa at *
  obtain ⟨b1, i1, r1⟩ := sa
  simp only at s1 s2 s3 s4 s5
  obtain ⟨t', ht', hk⟩ := commandLine_kept (as.drop 9) hpass
  simp only
  rw [s2]
  simp only [show 10 - 1 = 9 from rfl, ht', hs, Res.ok_bind]
  obtain ⟨g1, g2, g3⟩ := emptyArgs_spec (setLocalVar b1 '+' (some t')) i1
  refine ⟨_, rfl, ⟨?_, t', ?_, hk⟩, ?_⟩
  · intro n hn
    show setLocalVar _ _ _ (argName n) = _
    rw [set0]
    by_cases hn0 : n = 0
    · rw [if_pos ((h0 n hn).2 hn0), hn0]; rfl
    · rw [if_neg (fun e => hn0 ((h0 n hn).1 e)), setS, if_neg (hns n hn)]
      obtain ⟨m, rfl⟩ : ∃ m, n = m + 1 := ⟨n - 1, by omega⟩
      rw [List.getD_cons_succ]
      by_cases hlt : m + 1 < i1
      · rw [g2 _ hn hlt, setPlus, if_neg (argName_ne_plus hn), s4 _ hn (by omega) (by omega)]
        simp
      · rw [g1 _ hn (by omega), List.getD_eq_getElem?_getD, List.getElem?_eq_none (by omega)]; rfl
  · rw [set0, if_neg (by decide), setS, if_neg (by decide), g3 _ otherVar_plus, setPlus, if_pos rfl]
  · rw [set0, if_neg (by decide), setS, if_pos rfl]

theorem skipBlanks_less (t : List Char) : LessBlanks t (skipBlanks t) := by
  obtain ⟨w, hw, hb⟩ := skipBlanks_suffix t
  refine ⟨w, hw, hb, ?_⟩
  clear hw hb
  induction t with
  | nil => intro c hc; simp [skipBlanks] at hc
  | cons d t ih =>
    intro c hc
    rw [skipBlanks] at hc
    split at hc
    · exact ih c hc
    · next h => cases hc; intro hb; exact h (blank_isDelim hb)

theorem skipAll_lead (s : List Char) : ∃ w, s = w ++ skipAllBlanks s ∧ ∀ c ∈ w, Blank c ∨ c = '@' := by
  induction s with
  | nil => exact ⟨[], rfl, by simp⟩
  | cons c s ih =>
    obtain ⟨w, h1, h2⟩ := ih
    rw [skipAllBlanks]
    split
    · rename_i hc
      refine ⟨c :: w, by rw [List.cons_append, ← h1], ?_⟩
      intro d hd
      rcases List.mem_cons.1 hd with rfl | hd
      · rcases Bool.or_eq_true_iff.1 hc with hc | hc
        · exact .inl (isDelim_blank hc)
        · exact .inr (by simpa using hc)
      · exact h2 d hd
    · exact ⟨[], rfl, by simp⟩

theorem shownName_text {q : Char → Bool} {line name tail : List Char} {as : List (List Char)} (h : CommandLine q line name tail as) :
    ∃ lead r, line = lead ++ (shownName (skipAllBlanks line) ++ r) ∧ (∀ d ∈ lead, Blank d ∨ d = '@') ∧
      (∀ d ∈ shownName (skipAllBlanks line), d ≠ ' ' ∧ d ≠ '\t' ∧ d ≠ '\n') ∧ (∀ d, r.head? = some d → d = ' ' ∨ d = '\t' ∨ d = '\n') ∧
      shownName (skipAllBlanks line) ≠ [] := by
  obtain ⟨x, h1, h2, -, -, -⟩ := commandLine_text h
  obtain ⟨lead, g1, g2⟩ := skipAll_lead line
  refine ⟨lead, (skipAllBlanks line).dropWhile fun c => !(c == ' ' || c == '\t' || c == '\n'), ?_, g2, ?_, ?_, ?_⟩
  · unfold shownName
    rw [List.takeWhile_append_dropWhile]
    exact g1
  · intro d hd
    have := List.all_eq_true.1 List.all_takeWhile d hd
    simpa [and_assoc] using this
  · intro d hd
    generalize skipAllBlanks line = s at hd
    induction s with
    | nil => simp at hd
    | cons c s ih =>
      rw [List.dropWhile_cons] at hd
      split at hd
      · exact ih hd
      · rename_i hc
        simp only [List.head?_cons, Option.some.injEq] at hd
        subst hd
        simp only [Bool.not_eq_true, Bool.not_eq_false', Bool.or_eq_true, beq_iff_eq] at hc
        rcases hc with (hc | hc) | hc
        · exact .inl hc
        · exact .inr (.inl hc)
        · exact .inr (.inr hc)
  · obtain ⟨c, r, rfl, hc⟩ := written_begins h2
    rw [h1, shownName, List.cons_append, List.takeWhile_cons_of_pos]
    · simp
    · simp only [Bool.not_eq_true', Bool.or_eq_false_iff, beq_eq_false_iff_ne]
      refine ⟨⟨?_, ?_⟩, ?_⟩ <;> rintro rfl <;> exact hc (by decide)

end PBat
