import Verif.Lemmas.Block
/-
C40: the end of a parenthesised block.
-/
namespace PBat
open Spec

/-- Scanning any text for the end of a block ends, without undefined behaviour; if an end is found the text begins with
an opening parenthesis and the end found is a closing parenthesis further on. -/
theorem C40_result (s : List Char) :
    ∃ o, blockEnd s = .ok o ∧ ∀ t, o = some t → ∃ b rest, s = '(' :: (b ++ ')' :: rest) ∧ t = ')' :: rest := by
  obtain ⟨o, ho, hp⟩ := blockEnd_total s
  refine ⟨o, ho, ?_⟩
  rintro t rfl
  obtain ⟨⟨pre, hpre⟩, hlt, hh⟩ := hp t rfl
  cases t with
  | nil => simp at hh
  | cons d rest =>
    simp only [List.head?_cons, Option.some.injEq] at hh
    subst hh
    cases s with
    | nil => simp at hlt
    | cons c s =>
      rw [blockEnd.eq_2] at ho
      split at ho
      · next hc =>
        subst hc
        cases pre with
        | nil =>
          simp at hpre
        | cons x pre =>
          simp only [List.cons_append, List.cons.injEq] at hpre
          exact ⟨pre, rest, by rw [hpre.2], rfl⟩
      · cases ho

/-- For every block of the documented grammar, of any nesting depth, the end found is the one given by the grammar,
whatever follows the block. -/
theorem C40_grammar_partial {strict : Bool} {b : List Char} (h : Body strict b) (rest : List Char) :
    blockEnd ('(' :: (b ++ ')' :: rest)) = .ok (some (')' :: rest)) := blockEnd_body h rest

/-- If parentheses occur in such a block as block delimiters, in quotes or escaped only, that end is the parenthesis
balancing the opening one: the one found by counting parentheses outside quotes and escapes. -/
theorem C40_balanced_partial {b : List Char} (h : Body true b) (rest : List Char) :
    blockEnd ('(' :: (b ++ ')' :: rest)) = .ok (closing 0 false (b ++ ')' :: rest)) := by
  rw [blockEnd_body h rest, closing_body h, closing_ne (by decide)]
  simp

/-- The grammar covers nested blocks, keywords, quotes and escapes. -/
example : Body true "if \"(\"==x (echo ^) & (a)\nb) else (c)".toList := by
  refine .last (.clause (w := []) (by simp) (by decide) (.block (t := "if \"(\"==x ".toList)
    (b := "echo ^) & (a)\nb".toList) (c := " else (c)".toList) (by decide) ?_
    (.block (t := " else ".toList) (b := ['c']) (c := []) (by decide) ?_ (.text (by decide)))))
  · refine .cons (l := "echo ^) ".toList) (c := '&') (b := " (a)\nb".toList)
      (.plain (w := []) (by simp) (by decide) (by decide) (by decide)) (.inl rfl) ?_
    refine .cons (l := " (a)".toList) (c := '\n') (b := "b".toList)
      (.group (w := [' ']) (b := ['a']) (by decide) (.last (.plain (w := []) (by simp) (by decide) (by decide) (by decide))))
      (.inr (.inr (.inl rfl))) ?_
    exact .last (.plain (w := []) (by simp) (by decide) (by decide) (by decide))
  · exact .last (.plain (w := []) (by simp) (by decide) (by decide) (by decide))

/-- The general claim fails: after a nested block one character is skipped unread, so a quote or an escape there is
lost and the block ends early. -/
theorem C40_quote_after_block_lost :
    blockEnd "((a)\"b)\" c)".toList = .ok (some ")\" c)".toList) ∧
      closing 0 false "(a)\"b)\" c)".toList = some ")".toList := by decide +kernel

/-- The same with an escaped parenthesis. -/
theorem C40_escape_after_block_lost :
    blockEnd "((a)^) c)".toList = .ok (some ") c)".toList) ∧
      closing 0 false "(a)^) c)".toList = some ")".toList := by decide +kernel

/-- Parentheses in the text of a plain command are not counted. -/
theorem C40_plain_parentheses_not_counted :
    blockEnd "(echo (a) b)".toList = .ok (some ") b)".toList) ∧
      closing 0 false "echo (a) b)".toList = some ")".toList := by decide +kernel

end PBat
