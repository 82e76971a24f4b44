import Verif.Lemmas.Replace
/-
C02 — text replacement replaces exactly the leftmost non-overlapping occurrences.
-/
namespace PBat
open Spec

/-- `pBat_EsReplace` with a non-empty pattern: the result is the leftmost, non-overlapping, once-only
replacement (a text determined uniquely, see `C02_result_unique`), and the string stays sound.
Missing from the full claim: the empty pattern, see `C02_empty_pattern_hangs`. -/
theorem C02_replace_partial (g : Nat → Char) (e : Estr) (s pat rep : List Char) (h : Holds e s)
    (hp : pat ≠ []) (hr : NUL ∉ rep) :
    ∃ out, Replaced pat rep s out ∧
      (out.length + 1 ≤ 2 ^ 30 → ∃ e', esReplace g e pat rep = .ok e' ∧ Holds e' out) := by
  refine ⟨_, replaceText_replaced pat rep hp s, fun hl => ?_⟩
  obtain ⟨e', h1, h2, -⟩ := esReplace_spec g e s pat rep h hp hr hl
  exact ⟨e', h1, h2⟩

/-- The specification leaves no freedom. -/
theorem C02_result_unique {pat rep s a b : List Char} (hp : pat ≠ []) (h1 : Replaced pat rep s a)
    (h2 : Replaced pat rep s b) : a = b := Replaced_det hp h1 h2

/-- An empty pattern makes the replacement loop forever, for every text. -/
theorem C02_empty_pattern_hangs (g : Nat → Char) (e : Estr) (s rep : List Char) (h : Holds e s) :
    esReplace g e [] rep = .hang := by
  simp [esReplace, h.cstr, replacePieces]

/-- One-character patterns: every occurrence is replaced, everything else kept in place. -/
theorem C02_replace_char (c : Char) (rep s out : List Char) (h : Replaced [c] rep s out) :
    out = s.flatMap (fun d => if d = c then rep else [d]) := by
  have : out = replaceText [c] rep s := Replaced_det (by simp) h (replaceText_replaced _ _ (by simp) s)
  rw [this]
  clear h this
  induction s with
  | nil => simp [replaceText_nil]
  | cons d ds ih =>
    rw [replaceText_cons _ _ (by simp)]
    by_cases hd : d = c
    · simp [hd, List.isPrefixOf, ih]
    · rw [if_neg (by simp [List.isPrefixOf, Ne.symm hd]), ih]; simp [hd]

example : Replaced ['a', 'a'] ['b'] ['a', 'a', 'a'] ['b', 'a'] := by
  refine Replaced.cut (pre := []) (post := ['a']) (out := ['a']) (by simp) (Replaced.none ?_)
  intro i
  cases i with
  | zero => simp [OccursAt, List.cons_prefix_cons]
  | succ i => simp [OccursAt]

end PBat
