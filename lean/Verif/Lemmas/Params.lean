import Verif.Props.C14
/-
More about the extraction of parameters.
-/
namespace PBat
open Spec

/-- The rest is shorter than the line. -/
theorem nextParam_rest_lt {ex : List Char → Res (List Char)} {line t rest : List Char} (h : nextParam stdDelims ex line = .ok (some (t, rest))) :
    rest.length < line.length := by
  induction hn : line.length using Nat.strongRecOn generalizing line with
  | ind n ih =>
    subst hn
    rcases C14_next stdDelims (by decide) (by decide) ex line with ⟨-, h'⟩ | ⟨w, raw, rest', text, h1, h2, h3, h4, h5, h6⟩
    · rw [h'] at h; cases h
    · have hlt : rest'.length < line.length := by
        have hraw : raw ≠ [] := by
          rintro rfl
          obtain ⟨c, hc, hb⟩ := h3
          obtain ⟨-, hend⟩ := h4
          rw [List.nil_append] at hc hend
          cases rest' with
          | nil => simp at hc
          | cons d r =>
            simp only [List.head?_cons, Option.some.injEq] at hc
            subst hc
            rw [if_neg (by simp)] at hend
            obtain ⟨⟨⟨⟨x, hx, hp⟩, -⟩, -⟩, -⟩ := hend
            simp only [List.length_nil, List.getElem?_cons_zero, Option.some.injEq] at hx
            subst hx
            simp only [Bool.and_eq_true, bne_iff_ne, ne_eq] at hp
            rcases (stdDelims_iff d).1 hp.1 with h | h
            · exact hb h
            · exact hp.2 h
        have := List.length_pos_iff.2 hraw
        rw [h1]; simp only [List.length_append]; omega
      by_cases ht : text = ['^']
      · rw [if_pos ht] at h6
        have := ih rest'.length hlt (h6 ▸ h) rfl
        omega
      · rw [if_neg ht] at h6
        rw [h6] at h
        obtain ⟨u, -, h⟩ := res_bind_eq_ok.1 h
        simp only [Res.pure_eq, Res.ok.injEq, Option.some.injEq, Prod.mk.injEq] at h
        rw [← h.2]
        exact hlt

theorem skipBlanks_idem (s : List Char) : skipBlanks (skipBlanks s) = skipBlanks s := by
  induction s with
  | nil => rfl
  | cons c s ih =>
    rw [skipBlanks]
    split
    · exact ih
    · next h => rw [skipBlanks, if_neg h]

/-- Leading blanks do not matter. -/
theorem nextParam_skip (ex : List Char → Res (List Char)) (line : List Char) :
    nextParam stdDelims ex (skipBlanks line) = nextParam stdDelims ex line := by
  by_cases hs : skipBlanks line = []
  · rw [nextParam_nil _ _ line hs, nextParam_nil _ _ _ (by rw [skipBlanks_idem, hs])]
  · obtain ⟨raw, rest, text, h1, h2, h3, h4⟩ := paramText_spec (p := stdDelims) (by decide) (by decide) (skipBlanks line) hs
    rw [nextParam_eq stdDelims ex line text hs h3 rest h4,
      nextParam_eq stdDelims ex (skipBlanks line) text (by rw [skipBlanks_idem]; exact hs) (by rw [skipBlanks_idem]; exact h3) rest
        (by rw [skipBlanks_idem]; exact h4)]
    by_cases ht : text = ['^']
    · have hraw : raw ≠ [] := by
        rintro rfl
        rw [ht] at h2
        cases h2
      have := List.length_pos_iff.2 hraw
      have hle : rest.length < (skipBlanks line).length := by rw [h1.1, List.length_append]; omega
      obtain ⟨w, hw, -⟩ := skipBlanks_suffix line
      have hle2 : rest.length < line.length := by rw [hw, List.length_append]; omega
      rw [if_pos ht, if_pos ht, if_pos hle, if_pos hle2]
    · rw [if_neg ht, if_neg ht]

end PBat
