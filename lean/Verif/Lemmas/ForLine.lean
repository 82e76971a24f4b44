import Verif.Spec.ForLine
import Verif.Lemmas.Block
import Verif.Lemmas.Shift
import Verif.Lemmas.Params
import Verif.Lemmas.Setlocal
/-
Helper lemmas for the line of a FOR command.
-/
namespace PBat
open Spec

theorem closed_end {p : Char → Bool} {s : List Char} (h : Closed p s) : hybridTo p s = [] := by
  have h1 : searchTok (· == '\n') s = none := by
    apply IsFirst_unique (searchTok_first _ _)
    exact h.line
  have h2 : searchOutQuotes p s = none := by
    apply IsFirst_unique (searchOutQuotes_spec _ _)
    exact h.none
  unfold hybridTo searchHybrid
  rw [h1, h2]
  rfl

theorem lineStop_false_sub (c : Char) (h : lineStop false c = true) : Struct c = true := by
  unfold lineStop at h; unfold Struct Stop; revert h
  cases c == '&' <;> cases c == '|' <;> simp

theorem clauseStop_false_sub (c : Char) (h : clauseStop false c = true) : Struct c = true := by
  unfold clauseStop lineStop at h; unfold Struct Stop; revert h
  cases c == '(' <;> cases c == '&' <;> cases c == '|' <;> simp

theorem clauseEnd_none {s : List Char} (h : hybridTo (clauseStop false) s = []) : clauseEnd false s = .ok (some []) := by
  rw [clauseEnd.eq_1]
  split
  · rfl
  · next h' => rw [h] at h'; simp at h'

theorem clauseEnd_last {s r : List Char} (h : hybridTo (clauseStop false) s = '(' :: r)
    (hb : blockEnd ('(' :: r) = .ok (some [')'])) : clauseEnd false s = .ok (some []) := by
  rw [clauseEnd.eq_1]
  split
  · rfl
  · next c' r'' h' =>
    rw [h] at h'
    cases h'
    rw [if_pos rfl, hb]
    simp

/-- The text of IF, FOR and DEF goes to the end of the line. -/
theorem clauseEnd_clause {strict : Bool} {t : List Char} (h : Clause strict t) : clauseEnd false t = .ok (some []) := by
  refine Clause.rec (motive_1 := fun _ _ => True) (motive_2 := fun _ _ _ => True)
    (motive_3 := fun t _ => clauseEnd false t = .ok (some [])) ?_ ?_ ?_ ?_ ?_ ?_ ?_ h
  · intros; trivial
  · intros; trivial
  · intros; trivial
  · intros; trivial
  · intros; trivial
  · intro t ht
    exact clauseEnd_none (closed_end (ht.mono clauseStop_false_sub))
  · intro t b k ht hb _ _ ih
    have h3 := (ht.mono clauseStop_false_sub).hybridTo (by decide) (by decide) (c := '(') (.inl (by decide)) (b ++ ')' :: k)
    have h4 := blockEnd_body hb k
    cases k with
    | nil => exact clauseEnd_last h3 h4
    | cons x k => rw [clauseEnd_block h3 h4 (by simp) (by simp; omega), ih]

/-- A command goes to the end of the line. -/
theorem lineEnd_line {g : Bool} {l : List Char} (h : Line true g l) : lineEnd false l = .ok (some []) := by
  cases h with
  | @group w b hw hb =>
    rw [lineEnd_margin hw, lineEnd_group (blockEnd_body hb [])]
    rfl
  | @plain w t hw ht hk hcl =>
    rw [lineEnd_margin hw]
    cases t with
    | nil => rw [lineEnd.eq_1]; simp [skipLineBlanks]
    | cons x t =>
      have := ht x rfl
      rw [lineEnd_plain this.1 this.2 (fun h => hk (BlockWord_append h _))]
      rw [if_pos rfl] at hcl
      rw [closed_end (hcl.mono lineStop_false_sub)]
  | @clause w t hw hk hc =>
    rw [lineEnd_margin hw]
    cases t with
    | nil => obtain ⟨k, b, r, h, -⟩ := hk; simp at h
    | cons x t =>
      have := blockWord_head hk
      rw [lineEnd_clause this.1 this.2 hk]
      exact clauseEnd_clause hc

/-! ### Blocks -/

theorem nextBlock_body {strict : Bool} {b : List Char} (hb : Body strict b) (rest : List Char) :
    nextBlock ('(' :: (b ++ ')' :: rest)) = .ok (b, ')' :: rest) := by
  unfold nextBlock
  rw [skipBlanks_stop (by decide)]
  simp only [blockEnd_body hb, Res.ok_bind]
  simp

theorem forCode_text {t code : List Char} (h : CodeText t code) : forCode t = .ok (some code) := by
  cases h with
  | @block w b v hw hb hv =>
    unfold forCode
    rw [skipBlanks_append hw, skipBlanks_stop (by decide)]
    simp only [List.head?_cons, if_true, nextBlock_body hb, Res.ok_bind, Res.pure_eq, List.drop_succ_cons, List.drop_zero]
    have : skipBlanks v = [] := by
      have := skipBlanks_append (s := []) hv
      rw [List.append_nil] at this
      rw [this]; rfl
    rw [if_pos this]
  | @line w g _ hw hl hh =>
    generalize code = l at *
    unfold forCode
    have hs : skipBlanks (w ++ l) = l := by
      rw [skipBlanks_append hw]
      cases l with
      | nil => rfl
      | cons x l => exact skipBlanks_stop (hh x (by rfl)).1
    have hp : ¬ l.head? = some '(' := fun h => (hh _ h).2 rfl
    simp only [hs, if_neg hp]
    unfold blockLine
    rw [lineEnd_line hl]
    simp only [Res.ok_bind, if_neg hp]
    simp [skipBlanks]

theorem skipTabs_block {w : List Char} (hw : ∀ x ∈ w, x = ' ' ∨ x = '\t') (s : List Char) :
    skipTabs (w ++ '(' :: s) = '(' :: s := by
  induction w with
  | nil => simp [skipTabs]
  | cons c w ih =>
    rw [List.cons_append, skipTabs, if_pos (hw c (by simp)), ih (fun x hx => hw x (by simp [hx]))]

/-! ### Parameters -/

/-- Names of loop variables that can be written. -/
def LoopName (c : Char) : Prop := localName c = true ∧ ¬ Blank c ∧ c ∉ ['"', '^', '!', '%']

theorem ex_var (c : Ctx) {v : Char} (hv : LoopName v) (hl : c.loops v = none) : c.ex ['%', v] = .ok ['%', v] := by
  obtain ⟨h1, -, h3⟩ := hv
  simp only [List.mem_cons, List.not_mem_nil, or_false, not_or] at h3
  have hsp : expandSpecial (getLocalVar c.loops c.mods) ['%', v] = ['%', v] := by
    have hs : searchTok (· == '%') ['%', v] = some 0 := by
      have := searchTok_word (p := (· == '%')) (a := []) (c := '%') [v] (by simp) (by simp) (by simp)
      simpa using this
    have hn : searchTok (· == '%') [v] = none :=
      searchTok_absent (by intro c hc; simp at hc; subst hc; simpa using h3.2.2.2) 
    have ha : getLocalVar c.loops c.mods [v] = none := by
      unfold getLocalVar
      by_cases ht : v = '~'
      · subst ht
        simp [directVar, backtrack]
      · simp [ht, hl]
    rw [expandSpecial.eq_1]
    split
    · rfl
    · next i hi =>
      rw [hs] at hi
      cases hi
      simp only [List.drop_succ_cons, List.drop_zero, ha, List.take_succ_cons, List.take_zero]
      rw [expandSpecial.eq_1]
      split
      · rfl
      · next i hi => rw [hn] at hi; cases hi
  have hu : unEscape ['%', v] = ['%', v] := by
    rw [unEscape_eq]
    simp [unescape, h3.2.1]
  unfold Ctx.ex delayedExpand
  simp only [hsp, hu]
  split
  · rw [expandVar.eq_1]
    split
    · rw [hu]
    · next i hi =>
      have : searchTok (· == '!') ['%', v] = none :=
        searchTok_absent (by intro c hc; simp at hc; rcases hc with rfl | rfl; decide; simpa using h3.2.2.1)
      rw [this] at hi; cases hi
  · rfl

end PBat
