import Verif.Lemmas.Str
/-
C06 — the searches find exactly the first (last) unescaped occurrence.
-/
namespace PBat
open Spec

/-- `pBat_SearchChar` / `pBat_SearchToken`: the least position holding a searched character preceded by
an even number of carets; for every text and every set of characters. -/
theorem C06_search_first (p : Char → Bool) (s : List Char) :
    IsFirst (Hit p s) (searchTok p s) := searchTok_first p s

/-- `pBat_SearchLastChar` / `pBat_SearchLastToken`: the greatest such position, when the caret is not
itself searched. -/
theorem C06_search_last_partial (p : Char → Bool) (hp : p '^' = false) (s : List Char) :
    IsLast (Hit p s) (searchLastTok p s) := searchLastTok_last p hp s

/-- Searching the *last* unescaped caret is not supported: in `^^` the second caret is returned although
it is escaped by the first. -/
theorem C06_search_last_caret_wrong :
    ∃ s, ¬ IsLast (Hit (· == '^') s) (searchLastTok (· == '^') s) := by
  refine ⟨['^', '^'], ?_⟩
  have : searchLastTok (· == '^') ['^', '^'] = some 1 := by
    simp [searchLastTok, searchLastLoop, strpbrk, scanBack]
  rw [this]
  rintro ⟨⟨-, h⟩, -⟩
  exact absurd h (by decide)

/-- `pBat_GetNextNonEscaped`: going to the next character passes exactly one character of the text without escapes; for every text. -/
theorem C06_next (s : List Char) : Spec.unescape (nextNonEscaped s) = (Spec.unescape s).tail := by
  match s with
  | [] => rfl
  | [c] =>
    by_cases h : c = '^'
    · subst h; rfl
    · simp [nextNonEscaped, Spec.unescape, h]
  | c :: d :: r =>
    by_cases h : c = '^'
    · subst h; simp [nextNonEscaped, Spec.unescape]
    · simp [nextNonEscaped, Spec.unescape, h]

example : nextNonEscaped "^&b^^".toList = "b^^".toList ∧ nextNonEscaped "b^^".toList = "^^".toList := by decide

example : Hit (· == '&') "a^&b&c".toList 4 ∧ ¬ Hit (· == '&') "a^&b&c".toList 2 := by
  refine ⟨⟨⟨'&', by decide, by decide⟩, by decide⟩, ?_⟩
  rintro ⟨-, h⟩; exact absurd h (by decide)
end PBat
