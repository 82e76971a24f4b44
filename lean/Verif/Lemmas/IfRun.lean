import Verif.Model.IfRun
import Verif.Spec.IfRun
import Verif.Props.C112
/-
Lemmas on the commands of IF.
-/
namespace PBat
open Spec

theorem skipBlanks_none {s : List Char} (h : ∀ c, s.head? = some c → ¬ Blank c) : skipBlanks s = s := by
  cases s with
  | nil => rfl
  | cons c s => exact skipBlanks_stop (h c rfl)

theorem ifBehind_blanks {v : List Char} (hv : ∀ c ∈ v, Blank c) (x : List Char) : ifBehind (')' :: (v ++ x)) = skipBlanks x := by
  simp [ifBehind, skipBlanks_append hv]

theorem branch_body {strict : Bool} {s : List Char} {rs : List (List Char)} (h : Branch strict s rs) :
    ∃ c e, ifBody (skipBlanks s) = .ok (some (c, e)) ∧ ifBehind e = [] ∧ Rows strict true rs c := by
  cases h with
  | @block w b v _ hw hb hv =>
    refine ⟨b, ')' :: v, ?_, ?_, hb⟩
    · have hm : ¬ Blank '(' := by unfold Blank; decide
      rw [skipBlanks_append hw, skipBlanks_stop hm]
      have := nextBlock_inside (w := []) (by simp) (rows_body hb) v
      rw [List.nil_append] at this
      simp [ifBody, this]
    · have := ifBehind_blanks hv []
      rwa [List.append_nil] at this
  | @command w g l hw hl hh =>
    refine ⟨l, [], ?_, rfl, .last (.one hl)⟩
    rw [skipBlanks_append hw, skipBlanks_none fun c hc => (hh c hc).1]
    have hp : l.head? ≠ some '(' := fun e => (hh _ e).2 rfl
    unfold ifBody
    rw [if_neg hp]
    unfold blockLine
    rw [end_line hl]
    show Res.ok _ = _
    simp [hp]

theorem lower_length {e k : List Char} (h : e.map Char.toLower = k) : e.length = k.length := by
  rw [← h, List.length_map]

theorem elseWord_iff (s : List Char) :
    elseWord s = true ↔ ∃ e t, s = e ++ t ∧ e.map Char.toLower = "else".toList ∧ (t = [] ∨ ∃ c r, t = c :: r ∧ Blank c) := by
  unfold elseWord
  rw [Bool.or_eq_true, wordIs_iff, beq_iff_eq]
  constructor
  · rintro (⟨k, b, r, rfl, hb, hk⟩ | h)
    · exact ⟨k, b :: r, rfl, hk, .inr ⟨b, r, rfl, hb⟩⟩
    · exact ⟨s, [], by simp, h, .inl rfl⟩
  · rintro ⟨e, t, rfl, he, rfl | ⟨c, r, rfl, hc⟩⟩
    · exact .inr (by rw [List.append_nil]; exact he)
    · exact .inl ⟨e, c, r, rfl, hc, he⟩

theorem else_head {e : List Char} (h : e.map Char.toLower = "else".toList) (t : List Char) : ∀ c, (e ++ t).head? = some c → ¬ Blank c := by
  cases e with
  | nil => simp at h
  | cons x e =>
    rintro c hc hb
    cases hc
    have hx : x.toLower = 'e' := (List.cons.inj (show x.toLower :: e.map Char.toLower = ['e', 'l', 's', 'e'] from h)).1
    rcases hb with rfl | rfl | rfl | rfl | rfl <;> revert hx <;> decide

theorem wrap_lines {strict : Bool} {rs : List (List Char)} {c : List Char} (h : Rows strict true rs c) (hat : NoAts rs) :
    ∃ ls, cmdBlock (wrapBlock c) = .ok (some ls) ∧ ls.map unindent = branchLines rs := by
  obtain ⟨ls, h1, h2⟩ := C112_block_partial (w := []) (v := []) h hat (by simp) (by simp)
  exact ⟨ls, h1, h2⟩

end PBat
