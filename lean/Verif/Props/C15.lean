import Verif.Lemmas.ParseBlocks
/-
C15: splitting a line into commands and operators.
-/
namespace PBat
open Spec

instance (t : List Char) : Decidable (Plain t) :=
  decidable_of_iff ((∀ i, i < t.length → Hit Struct t i ∧ OutQuotes t i →
      t[i]? = some '&' ∧ 0 < i ∧ t[i - 1]? = some '>' ∧ (t[i + 1]? = some '1' ∨ t[i + 1]? = some '2')) ∧
      (∀ i, i < t.length → ¬ Hit (· == '\n') t i) ∧ quotesBefore t t.length % 2 = 0 ∧ Free t t.length)
    ⟨fun ⟨h1, h2, h3, h4⟩ => ⟨fun i hi => h1 i (Hit_lt hi.1) hi, fun i hi => h2 i (Hit_lt hi) hi, h3, h4⟩,
      fun h => ⟨fun i _ => h.amp i, fun i _ => h.line i, h.even, h.free⟩⟩

/-- Splitting ends on every line, without undefined behaviour: it yields commands or is refused. -/
theorem C15_total (s : List Char) : ∃ o, parseOps s = .ok o := by
  obtain ⟨o, ho, -⟩ := opsLoop_spec _ s (Nat.le_refl _) .none [] (blockBegin s) (by
    intro b hb; exact blockBegin_suffix _ b hb)
  exact ⟨o, ho⟩

/-- Splitting loses nothing: the commands and operators found, written one after the other, are the line. -/
theorem C15_lossless (s : List Char) (items : List (NodeType × List Char)) (h : parseOps s = .ok (some items)) :
    ∃ first more, items = toItems .none (first, more) ∧ written first more = s := by
  obtain ⟨o, ho, h2⟩ := opsLoop_spec _ s (Nat.le_refl _) .none [] (blockBegin s) (by
    intro b hb; exact blockBegin_suffix _ b hb)
  unfold parseOps at h
  rw [ho] at h
  cases h
  exact h2 items rfl

example : parseOps "(a & b) && echo \"x|y\" 2>&1 || c^&d | e".toList = .ok (some
    [(.none, "(a & b) ".toList), (.yes, " echo \"x|y\" 2>&1 ".toList), (.not, " c^&d ".toList), (.pipe, " e".toList)]) := by
  decide +kernel

/-- Without blocks the line is cut where a reader going from left to right sees an operator: outside quotes, not
escaped, and not in `>&`. -/
theorem C15_no_blocks (s : List Char) (h : '(' ∉ s) (hgt : ¬ ['^', '>', '&'] <:+: s) :
    parseOps s = .ok (some (toItems .none (splitLine false false s))) := by
  unfold parseOps
  rw [blockBegin_none h, opsLoop_splitLine _ s (Nat.le_refl _) .none [] (by simp) hgt]
  simp [inFront]

example : splitLine false false "a^&b \"c&d\" 2>&1 && e".toList =
    ("a^&b \"c&d\" 2>&1 ".toList, [(.and, " e".toList)]) := by decide +kernel

/-- Lines of commands with blocks are cut into exactly those commands; operators in quotes, escapes and blocks do not
cut.  Partial: commands follow the grammar `Command`, the general claim fails (see below). -/
theorem C15_grammar_partial {first : List Char} {more : List (Op × List Char)} (h : WellFormed first more) :
    parseOps (written first more) = .ok (some (toItems .none (first, more))) := parseOps_wellFormed h

/-- The grammar has blocks with operators inside, IF with ELSE, redirections and quotes. -/
example : WellFormed "if a==a (b & c) else (d || e) ".toList
    [(.and, " (f | g) 2>&1".toList), (.seq, "echo \"(&\" ^& >&2".toList)] := by
  refine ⟨?_, by unfold Precedes; decide, by decide, ?_, by unfold Precedes; decide, by decide, ?_⟩
  · refine .clause (w := []) (t := "if a==a ".toList) (b := "b & c".toList) (c := " else (d || e) ".toList)
      (by simp) (by decide) (by decide) ?_ ?_
    · exact .cons (l := "b ".toList) (c := '&') (b := " c".toList)
        (.plain (w := []) (by simp) (by decide) (by decide) (by decide)) (.inl rfl)
        (.last (.plain (w := [' ']) (t := ['c']) (by decide) (by decide) (by decide) (by decide)))
    · refine .block (t := " else ".toList) (b := "d || e".toList) (c := [' ']) (by decide) ?_ (.text (by decide))
      refine .cons (l := "d ".toList) (c := '|') (b := "| e".toList)
        (.plain (w := []) (by simp) (by decide) (by decide) (by decide)) (.inr (.inl rfl)) ?_
      exact .cons (l := []) (c := '|') (b := " e".toList)
        (.plain (w := []) (t := []) (by simp) (by decide) (by decide) (by decide)) (.inr (.inl rfl))
        (.last (.plain (w := [' ']) (t := ['e']) (by decide) (by decide) (by decide) (by decide)))
  · refine .group (w := [' ']) (b := "f | g".toList) (c := " 2>&1".toList) (by decide) ?_ (.text (by decide))
    exact .cons (l := "f ".toList) (c := '|') (b := " g".toList)
      (.plain (w := []) (by simp) (by decide) (by decide) (by decide)) (.inr (.inl rfl))
      (.last (.plain (w := [' ']) (t := ['g']) (by decide) (by decide) (by decide) (by decide)))
  · exact .plain (by decide)

/-- The general claim fails: after an escaped `>` the operator `&` does not cut. -/
theorem C15_escaped_gt_hides_operator :
    parseOps "echo ^>& echo b".toList = .ok (some [(.none, "echo ^>& echo b".toList)]) ∧
      splitLine false false "echo ^>& echo b".toList = ("echo ^>".toList, [(.seq, " echo b".toList)]) := by
  decide +kernel

/-- After a block, an opening parenthesis in the text of a plain command is taken for a block: the line is refused ... -/
theorem C15_paren_after_block_refused :
    parseOps "(a) & echo :( & echo b".toList = .ok none ∧
      parseOps "echo :( & echo b".toList = .ok (some [(.none, "echo :( ".toList), (.none, " echo b".toList)]) := by
  decide +kernel

/-- ... or not cut; ... -/
theorem C15_paren_after_block_hides_operator :
    parseOps "(a) & echo x(1 & echo y)".toList = .ok (some [(.none, "(a) ".toList), (.none, " echo x(1 & echo y)".toList)]) ∧
      parseOps "echo x(1 & echo y)".toList = .ok (some [(.none, "echo x(1 ".toList), (.none, " echo y)".toList)]) := by
  decide +kernel

/-- ... and after a closing parenthesis in the text of a plain command, blocks are cut inside. -/
theorem C15_block_cut :
    parseOps "(a) & echo :) & (b & c)".toList = .ok (some
      [(.none, "(a) ".toList), (.none, " echo :) ".toList), (.none, " (b ".toList), (.none, " c)".toList)]) := by
  decide +kernel

end PBat
