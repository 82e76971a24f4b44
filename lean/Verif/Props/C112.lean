import Verif.Lemmas.BlockRun
/-
C112: the lines of a block.
-/
namespace PBat
open Spec

/-- For every text of a block given by the grammar, whatever is nested in it: the lines that are run are its lines, all of them, in order and
each once, without the blank ones; only blanks and blank lines before a line may be run with it.
Partial: no line but the last ends with blanks after an operator or a nested block (see `C112_nested_blank`, `C112_operator_blank`), and no
line consists of `@`. -/
theorem C112_lines_partial {strict : Bool} {rs : List (List Char)} {t : List Char} (h : Rows strict true rs t)
    (hat : ∀ r ∈ rs, Nonblank r → ∃ c ∈ r, ¬ Blank c ∧ c ≠ '@') :
    ∃ ls, blockLines t = .ok ls ∧ ls.map unindent = (rs.filter fun r => decide (Nonblank r)).map unindent :=
  blockLines_rows h hat [] (by simp)

/-- The same for the command made of a block, with blanks around it. -/
theorem C112_block_partial {strict : Bool} {rs : List (List Char)} {t w v : List Char} (h : Rows strict true rs t)
    (hat : ∀ r ∈ rs, Nonblank r → ∃ c ∈ r, ¬ Blank c ∧ c ≠ '@') (hw : ∀ c ∈ w, Blank c) (hv : ∀ c ∈ v, Blank c) :
    ∃ ls, cmdBlock (w ++ '(' :: (t ++ ')' :: v)) = .ok (some ls) ∧
      ls.map unindent = (rs.filter fun r => decide (Nonblank r)).map unindent := by
  obtain ⟨ls, h1, h2⟩ := C112_lines_partial h hat
  refine ⟨ls, ?_, h2⟩
  unfold cmdBlock
  rw [nextBlock_inside hw (rows_body h)]
  simp [skipBlanks_all hv, h1]

/-- Anything but blanks after the block is an error, and none of its lines is run. -/
theorem C112_behind {strict : Bool} {t w v : List Char} (h : Body strict t) (hw : ∀ c ∈ w, Blank c) (hv : Nonblank v) :
    cmdBlock (w ++ '(' :: (t ++ ')' :: v)) = .ok none := by
  obtain ⟨x, hx, hb⟩ := hv
  unfold cmdBlock
  rw [nextBlock_inside hw h]
  simp [skipBlanks_ne_nil hx hb]

/-- Looking for the lines of a block ends, whatever its text is. -/
theorem C112_ends (s : List Char) : blockLines s ≠ .hang ∧ cmdBlock s ≠ .hang := by
  have hl : ∀ s, blockLines s ≠ .hang := by
    intro s h
    rcases blockLines_total s with h' | ⟨ls, h'⟩ <;> rw [h] at h' <;> cases h'
  refine ⟨hl s, ?_⟩
  have hnb : ∃ x, nextBlock s = .ok x := by
    unfold nextBlock
    obtain ⟨o, ho, -⟩ := blockEnd_total (skipBlanks s)
    simp only
    rw [ho]
    cases o with
    | none => exact ⟨_, rfl⟩
    | some e => exact ⟨_, rfl⟩
  obtain ⟨⟨b, e⟩, hx⟩ := hnb
  unfold cmdBlock
  rw [hx]
  simp only
  split
  · simp
  · split
    · simp
    · have := hl b
      cases hb : blockLines b with
      | ok ls => simp
      | ub => simp
      | hang => exact absurd hb this

/-- The claim fails: a nested block with a blank behind it takes the next line with it, and the line made of the two is refused.  Neither
the nested block nor the next line is run. -/
theorem C112_nested_blank {strict : Bool} {b w r : List Char} {c : Char} (hb : Body strict b) (hc : Blank c) (hcn : c ≠ '\n')
    (hw : ∀ c ∈ w, Blank c) (hr : Row strict false r) (hn : Nonblank r) :
    blockLines ('(' :: (b ++ ')' :: c :: (w ++ r))) = .ok ['(' :: (b ++ ')' :: c :: (w ++ r))] ∧
      cmdBlock ('(' :: (b ++ ')' :: c :: (w ++ r))) = .ok none := by
  constructor
  · have hl : Line strict true ('(' :: (b ++ [')'])) := .group (w := []) (by simp) hb
    have hnl : Nonblank ('(' :: (b ++ [')'])) := ⟨'(', by simp, by unfold Blank; decide⟩
    have h1 := top_line hl c (by simp) (w ++ r)
    have e : '(' :: (b ++ ')' :: c :: (w ++ r)) = '(' :: (b ++ [')']) ++ c :: (w ++ r) := by simp
    have h2 : rowEnd ('(' :: (b ++ ')' :: c :: (w ++ r))) = .ok [] := by
      rw [e, rowEnd_eq, lineEnd_skip hl (.inl hnl), h1]
      have hop := blank_not_op hc
      simp only [skipOp, hop, if_false]
      rw [if_neg (by rintro (h | h); exact hcn h; subst h; revert hc; unfold Blank; decide)]
      have h3 : rowEnd (c :: (w ++ r)) = rowEnd r := by
        rw [← List.cons_append]
        exact rowEnd_blanks (by simpa using ⟨hc, hw⟩) r
      have := row_end hr (rest := []) (.inl rfl)
      rw [List.append_nil] at this
      rw [h3, this]
    have hk : skipAllBlanks ('(' :: (b ++ ')' :: c :: (w ++ r))) ≠ [] :=
      skipAllBlanks_ne (c := '(') (by simp) (by unfold Blank; decide) (by decide)
    have := blockLines_step (s := '(' :: (b ++ ')' :: c :: (w ++ r))) (t := []) (ls := []) hk (by rw [List.append_nil]; exact h2)
      (by rw [blockLines.eq_def]; rfl) (by rw [List.append_nil]; exact hk)
    rw [List.append_nil] at this
    exact this
  · obtain ⟨x, hx, hxb⟩ := hn
    have := C112_behind (w := []) (v := c :: (w ++ r)) hb (by simp) ⟨x, by simp [hx], hxb⟩
    exact this

/-- The claim fails: a line that ends with an operator and a blank takes the next line with it, which then depends on the operator: after
`a && `, the next line is run only if `a` succeeds; after `a | `, it reads what `a` writes. -/
theorem C112_operator_blank {strict g : Bool} {l w r : List Char} {c : Char} (hl : Line strict g l) (hc : c = '&' ∨ c = '|')
    (hw : ∀ c ∈ w, Blank c) (hw0 : w.head? ≠ some '\n') (hw1 : w ≠ []) (hr : Row strict false r) :
    blockLines (l ++ c :: c :: (w ++ r)) = .ok [l ++ c :: c :: (w ++ r)] ∧ blockLines (l ++ c :: (w ++ r)) = .ok [l ++ c :: (w ++ r)] := by
  obtain ⟨d, w', rfl⟩ := List.exists_cons_of_ne_nil hw1
  have hd := hw d (by simp)
  have hdn : d ≠ '\n' := by intro h; exact hw0 (by simp [h])
  have hop := blank_not_op hd
  have h3 : rowEnd (d :: (w' ++ r)) = .ok [] := by
    rw [← List.cons_append, rowEnd_blanks hw r]
    have := row_end hr (rest := []) (.inl rfl)
    rwa [List.append_nil] at this
  have hst : ¬ (d = '\n' ∨ d = ')') := by rintro (h | h); exact hdn h; subst h; revert hd; unfold Blank; decide
  have key : ∀ rest : List Char, rest = c :: d :: (w' ++ r) ∨ rest = d :: (w' ++ r) → blockLines (l ++ c :: rest) = .ok [l ++ c :: rest] := by
    intro rest hrest
    have h1 := top_line hl c (by rcases hc with rfl | rfl <;> simp) rest
    have h2 : rowEnd (l ++ c :: rest) = .ok [] := by
      rw [rowEnd_eq, lineEnd_skip hl (.inr (by intro x hx; simp at hx; subst hx; exact op_not_blank hc)), h1]
      rcases hrest with rfl | rfl
      · simp only [skipOp, hc, if_true]
        rw [if_neg hst]
        exact h3
      · simp only [skipOp, hc, if_true, hop, if_false]
        rw [if_neg hst]
        exact h3
    have hk : skipAllBlanks (l ++ c :: rest) ≠ [] :=
      skipAllBlanks_ne (c := c) (by simp) (op_not_blank hc) (by rcases hc with rfl | rfl <;> decide)
    have := blockLines_step (s := l ++ c :: rest) (t := []) (ls := []) hk (by rw [List.append_nil]; exact h2)
      (by rw [blockLines.eq_def]; rfl) (by rw [List.append_nil]; exact hk)
    rwa [List.append_nil] at this
  exact ⟨key _ (.inl rfl), key _ (.inr rfl)⟩

/-- Text directly behind a nested block, with quotes: the end of the block is found, and then running it ends in a failed assertion. -/
theorem C112_quote_crash : cmdBlock "((x)\"a\" & if z ( b\" )".toList = .ub ∧
    blockEnd "((x)\"a\" & if z ( b\" )".toList = .ok (some [')']) := by decide +kernel

/-! ### Blocks -/

example : cmdBlock "(\n  echo a & echo b\n\n  (echo c\n  echo d) | more\n  if x==x (\n  echo e ) else (\n echo f )\n  echo g && )".toList =
    .ok (some ["\n  echo a & echo b".toList, "\n  (echo c\n  echo d) | more".toList,
      "  if x==x (\n  echo e ) else (\n echo f )".toList, "  echo g && ".toList]) := by decide +kernel

example : Rows true true [[], " (c\nd) & e".toList, "  ".toList, "f ".toList] "\n (c\nd) & e\n  \nf ".toList := by
  have none : Row true true [] := .one (.plain (w := []) (t := []) (by simp) (by decide) (by decide) (by decide))
  have body : Body true "c\nd".toList := .cons (l := ['c']) (c := '\n') (b := ['d'])
    (.plain (w := []) (by simp) (by decide) (by decide) (by decide)) (by simp)
    (.last (.plain (w := []) (t := ['d']) (by decide) (by decide) (by decide) (by decide)))
  have two : Row true true " (c\nd) & e".toList := .blank (l := " (c\nd)".toList) (c := ' ') (b := "& e".toList)
    (.group (w := [' ']) (b := "c\nd".toList) (by decide) body) (by decide) (by decide) (by decide)
    (.op (l := []) (c := '&') (b := " e".toList) (.plain (w := []) (t := []) (by simp) (by decide) (by decide) (by decide)) (by simp)
      (by decide) (.one (.plain (w := [' ']) (t := ['e']) (by decide) (by decide) (by decide) (by decide))))
  have gap : Row true true "  ".toList := .one (.plain (w := "  ".toList) (t := []) (by decide) (by decide) (by decide) (by decide))
  have four : Row true false "f ".toList := .one (.plain (w := []) (t := "f ".toList) (by simp) (by decide) (by decide) (by decide))
  exact .cons (r := []) none (.cons two (.cons gap (.last four)))

example : ∀ r ∈ [[], " (c\nd) & e".toList, "  ".toList, "f ".toList], Nonblank r → ∃ c ∈ r, ¬ Blank c ∧ c ≠ '@' := by decide

example : blockLines "(a) \n b".toList = .ok ["(a) \n b".toList] ∧ blockLines "(a)\n b".toList = .ok ["(a)".toList, " b".toList] ∧
    blockLines "a && \n b".toList = .ok ["a && \n b".toList] ∧ blockLines "a &&\n b".toList = .ok ["a &&".toList, " b".toList] := by
  decide +kernel

end PBat
