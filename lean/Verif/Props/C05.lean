import Verif.Lemmas.Str
/-
C05 — escaping a text with `^` and unescaping it gives the text back.
-/
namespace PBat
open Spec

/-- `pBat_UnEscape` computes the documented unescaping, for every text. -/
theorem C05_unescape_meaning (s : List Char) : unEscape s = Spec.unescape s := unEscape_eq s

/-- Round trip for every text and every escaped set containing the caret. -/
theorem C05_unescape_escape (q : Char → Bool) (hq : q '^' = true) (s : List Char) :
    unEscape (Spec.escape q s) = s := by
  rw [unEscape_eq, unescape_escape q hq]

/-- Unescaping never lengthens. -/
theorem C05_unescape_length (s : List Char) : (unEscape s).length ≤ s.length := by
  rw [unEscape_eq]; exact unescape_length s

/-- Caret-free text is untouched. -/
theorem C05_unescape_plain (s : List Char) (h : '^' ∉ s) : unEscape s = s := by
  rw [unEscape_eq]
  have := unescape_append s [] (by intro c hc; simp; rintro rfl; exact h hc)
  simpa [Spec.unescape] using this

example : unEscape "a^&b^^c".toList = "a&b^c".toList := by rw [C05_unescape_meaning]; decide
end PBat
