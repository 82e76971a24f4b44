import Verif.Lemmas.Args
/-
C14: command parameters.
-/
namespace PBat
open Spec

/-- What extracting one parameter does, for every line, every set of delimiters containing the quote and not the
caret, and every expansion `ex` of its text: leading blanks are skipped, the parameter extends to the
first unescaped delimiter outside quotes, its quotes are removed, and it is expanded; a parameter reading as a single
caret is skipped. -/
theorem C14_next (p : Char → Bool) (hp : p '"' = true) (hpc : p '^' = false) (ex : List Char → Res (List Char))
    (line : List Char) :
    (∀ c ∈ line, Blank c) ∧ nextParam p ex line = .ok none ∨
    ∃ w raw rest text, line = w ++ (raw ++ rest) ∧ (∀ c ∈ w, Blank c) ∧
      (∃ c, (raw ++ rest).head? = some c ∧ ¬ Blank c) ∧
      ParamEnd p (raw ++ rest) raw rest ∧ ParamText (rest = []) raw text ∧
      nextParam p ex line =
        if text = ['^'] then nextParam p ex rest else ex text >>= fun t => pure (some (t, rest)) := by
  obtain ⟨w, hw, hb⟩ := skipBlanks_suffix line
  by_cases hs : skipBlanks line = []
  · left
    refine ⟨?_, nextParam_nil p ex line hs⟩
    rw [hs, List.append_nil] at hw
    rw [hw]; exact hb
  · right
    obtain ⟨raw, rest, text, h1, h2, h3, h4⟩ := paramText_spec hp hpc (skipBlanks line) hs
    refine ⟨w, raw, rest, text, by rw [← h1.1]; exact hw, hb, ?_, by rw [← h1.1]; exact h1, h2, ?_⟩
    · rw [← h1.1]
      cases hh : skipBlanks line with
      | nil => exact absurd hh hs
      | cons c r => exact ⟨c, rfl, skipBlanks_head line c (by rw [hh]; rfl)⟩
    · rw [nextParam_eq p ex line text hs h3 rest h4]
      by_cases ht : text = ['^']
      · rw [if_pos ht, if_pos ht, if_pos]
        have hraw : raw ≠ [] := by
          rintro rfl
          rw [ht] at h2
          cases h2
        have := List.length_pos_iff.2 hraw
        rw [hw, List.length_append, h1.1, List.length_append]
        omega
      · rw [if_neg ht, if_neg ht]

/-- Any list of any texts (quotes, carets, blanks, percent and exclamation marks included), each written in
quotes with `^`, `"`, `%` and `!` escaped or as a bare word, is given back exactly, whatever the loop variables,
the environment and the expansion mode. -/
theorem C14_roundtrip (delayed : Bool) (loops : LocalBlock) (mods : List Char → Char → List Char → List Char)
    (getv : List Char → Res (Option (List Char))) (q : Char → Bool) (hq : q '"' = true) (hc : q '^' = true)
    (hp : q '%' = true) (he : q '!' = true) (line : List Char) (as : List (List Char)) (h : ParamLine q line as) :
    allParams stdDelims (delayedExpand delayed loops mods getv) line = .ok as :=
  allParams_line hq hc _ h fun a _ => delayedExpand_escape delayed loops mods getv hc hp he a

/-- The claim as stated, arguments written in quotes without escaping, for arguments that contain no quote, no caret
and nothing to expand.  Missing: the caret (`C14_caret_lost`, `C14_caret_joins`) and text to expand. -/
theorem C14_quoted_partial (ex : List Char → Res (List Char)) (as : List (List Char))
    (hq : ∀ a ∈ as, '"' ∉ a) (hc : ∀ a ∈ as, '^' ∉ a) (hex : ∀ a ∈ as, ex a = .ok a) :
    allParams stdDelims ex (as.flatMap fun a => '"' :: (a ++ ['"', ' '])) = .ok as := by
  have hesc : ∀ a ∈ as, escape (fun c => c == '"' || c == '^') a = a := by
    intro a ha
    apply escape_none
    intro c hcm
    simp only [Bool.or_eq_false_iff, beq_eq_false_iff_ne]
    exact ⟨by rintro rfl; exact hq a ha hcm, by rintro rfl; exact hc a ha hcm⟩
  refine allParams_line (q := fun c => c == '"' || c == '^') (by decide) (by decide) ex ?_ fun a ha => by
    rw [hesc a ha]; exact hex a ha
  clear hq hc hex
  induction as with
  | nil => exact .none (by simp)
  | cons a as ih =>
    have h1 := ih fun x hx => hesc x (by simp [hx])
    have h2 := ParamLine.cons (w := []) (b := ' ') (by simp) (Written.quoted (q := fun c => c == '"' || c == '^') (a := a))
      (by decide) h1
    rw [hesc a (by simp)] at h2
    simpa using h2

/-- The same extraction gives one more result: there are no further parameters. -/
theorem C14_no_more (ex : List Char → Res (List Char)) (w : List Char) (h : ∀ c ∈ w, Blank c) :
    nextParam stdDelims ex w = .ok none := by
  apply nextParam_nil
  have := skipBlanks_append (s := []) h
  rw [List.append_nil] at this
  rw [this]; rfl

/-- Extraction always makes progress: the loop over all parameters ends for every line. -/
theorem C14_terminates (ex : List Char → Res (List Char)) (hex : ∀ t, ∃ u, ex t = .ok u) (line : List Char) :
    ∃ as, allParams stdDelims ex line = .ok as := by
  have step : ∀ line, nextParam stdDelims ex line = .ok none ∨
      ∃ t rest, nextParam stdDelims ex line = .ok (some (t, rest)) ∧ rest.length < line.length := by
    intro line
    induction hn : line.length using Nat.strongRecOn generalizing line with
    | ind n ih =>
      subst hn
      rcases C14_next stdDelims (by decide) (by decide) ex line with ⟨-, h⟩ | ⟨w, raw, rest, text, h1, h2, h3, h4, h5, h6⟩
      · exact .inl h
      · have hlt : rest.length < line.length := by
          have hraw : raw ≠ [] := by
            rintro rfl
            obtain ⟨c, hc, hb⟩ := h3
            obtain ⟨-, hend⟩ := h4
            rw [List.nil_append] at hc hend
            cases rest with
            | nil => simp at hc
            | cons d r =>
              simp only [List.head?_cons, Option.some.injEq] at hc
              subst hc
              rw [if_neg (by simp)] at hend
              obtain ⟨⟨⟨⟨x, hx, hp⟩, -⟩, -⟩, -⟩ := hend
              simp only [List.length_nil, List.getElem?_cons_zero, Option.some.injEq] at hx
              subst hx
              simp only [Bool.and_eq_true, bne_iff_ne, ne_eq] at hp
              rcases (stdDelims_iff d).1 hp.1 with h | h
              · exact hb h
              · exact hp.2 h
          have := List.length_pos_iff.2 hraw
          rw [h1]; simp only [List.length_append]; omega
        by_cases ht : text = ['^']
        · rw [if_pos ht] at h6
          rcases ih rest.length hlt rest rfl with h | ⟨t, r, h, hl⟩
          · left; rw [h6, h]
          · right; exact ⟨t, r, by rw [h6, h], by omega⟩
        · rw [if_neg ht] at h6
          obtain ⟨u, hu⟩ := hex text
          right
          exact ⟨u, rest, by rw [h6, hu]; rfl, hlt⟩
  induction hn : line.length using Nat.strongRecOn generalizing line with
  | ind n ih =>
    subst hn
    rcases step line with h | ⟨t, rest, h, hlt⟩
    · exact ⟨[], by rw [allParams.eq_1, h]⟩
    · obtain ⟨as, ha⟩ := ih rest.length hlt rest rfl
      exact ⟨t :: as, by rw [allParams.eq_1, h]; simp only; rw [if_pos hlt, ha]; rfl⟩

/-! ### Violations -/

/-- A caret at the end of a quoted argument escapes the closing quote: two arguments become one. -/
theorem C14_caret_joins :
    allParams stdDelims (delayedExpand false (fun _ => none) (fun _ _ v => v) fun _ => .ok none)
      "\"a^\" \"b\"".toList = .ok ["a\" \"b".toList] := by decide +kernel

/-- A last parameter made of a caret is lost. -/
theorem C14_caret_lost :
    allParams stdDelims (delayedExpand false (fun _ => none) (fun _ _ v => v) fun _ => .ok none)
      "a ^".toList = .ok ["a".toList] := by decide +kernel

/-- Arguments of programs are expanded twice, so an escaped caret disappears. -/
theorem C14_program_arguments_expanded_twice :
    allParams stdDelims (delayedExpand false (fun _ => none) (fun _ _ v => v) fun _ => .ok none)
        "prog \"a^^b\"".toList = .ok ["prog".toList, "a^b".toList] ∧
      paramList (delayedExpand false (fun _ => none) (fun _ _ v => v) fun _ => .ok none)
        "prog \"a^^b\"".toList = .ok ["prog".toList, "ab".toList] := by
  constructor <;> decide +kernel

/-! ### Examples -/

/-- A line of the round trip. -/
example : ParamLine (fun c => c == '"' || c == '^' || c == '%' || c == '!')
    " copy \"a^\" ^^b\" ,\"\"".toList ["copy".toList, "a\" ^b".toList, []] := by
  have h3 := ParamLine.last (w := [',']) (by decide)
    (Written.quoted (q := fun c => c == '"' || c == '^' || c == '%' || c == '!') (a := []))
  have h2 := ParamLine.cons (w := []) (b := ' ') (by decide)
    (Written.quoted (q := fun c => c == '"' || c == '^' || c == '%' || c == '!') (a := "a\" ^b".toList)) (by decide) h3
  exact ParamLine.cons (w := [' ']) (b := ' ') (by decide)
    (Written.word (q := fun c => c == '"' || c == '^' || c == '%' || c == '!') (a := "copy".toList) (by decide) (by decide)
      (by decide) (by decide)) (by decide) h2

end PBat
