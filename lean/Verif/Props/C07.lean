import Verif.Lemmas.Quotes
/-
C07 — the quote-aware search never stops inside a quoted section.
-/
namespace PBat
open Spec

/-- `pBat_SearchChar_OutQuotes` / `pBat_SearchToken_OutQuotes`: the least unescaped delimiter outside
double quotes, `none` exactly when there is none; for every text and every delimiter set. -/
theorem C07_out_quotes (p : Char → Bool) (s : List Char) :
    IsFirst (fun i => Hit p s i ∧ OutQuotes s i) (searchOutQuotes p s) := searchOutQuotes_spec p s

/-- `pBat_SearchToken_Hybrid`: the least position which is an unescaped `delims` character anywhere, or
an unescaped `qdelims` character outside quotes. -/
theorem C07_hybrid (p q : Char → Bool) (s : List Char) :
    IsFirst (fun i => Hit p s i ∨ (Hit q s i ∧ OutQuotes s i)) (searchHybrid p q s) := by
  have h1 := searchTok_first p s
  have h2 := searchOutQuotes_spec q s
  unfold searchHybrid
  split
  · next e1 e2 =>
    rw [e1] at h1; rw [e2] at h2
    rintro i (h | h)
    · exact h1 i h
    · exact h2 i h
  · next qres e1 e2 =>
    rw [e1] at h1; rw [e2] at h2
    refine ⟨Or.inr h2.1, ?_⟩
    rintro j hj (h | h)
    · exact h1 j h
    · exact h2.2 j hj h
  · next res e1 e2 =>
    rw [e1] at h1; rw [e2] at h2
    refine ⟨Or.inl h1.1, ?_⟩
    rintro j hj (h | h)
    · exact h1.2 j hj h
    · exact h2 j h
  · next res qres e1 e2 =>
    rw [e1] at h1; rw [e2] at h2
    split
    · refine ⟨Or.inr h2.1, ?_⟩
      rintro j hj (h | h)
      · exact h1.2 j (by omega) h
      · exact h2.2 j hj h
    · refine ⟨Or.inl h1.1, ?_⟩
      rintro j hj (h | h)
      · exact h1.2 j hj h
      · exact h2.2 j (by omega) h

/-- `"a&b"&c`: the first `&` is quoted, the second is not. -/
example : OutQuotes "\"a&b\"&c".toList 5 ∧ ¬ OutQuotes "\"a&b\"&c".toList 2 := by decide
end PBat
