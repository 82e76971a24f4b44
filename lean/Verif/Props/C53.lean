import Verif.Lemmas.Redir
import Verif.Props.C14
import Verif.Props.C15
/-
C53: redirections.
-/
namespace PBat
open Spec

/-! ### The analysis always ends -/

theorem nextParam_ok {p : Char → Bool} (hp : p '"' = true) (hpc : p '^' = false) (ex : List Char → Res (List Char))
    (hex : ∀ t, ∃ u, ex t = .ok u) (line : List Char) :
    ∃ o : Option (List Char × List Char), nextParam p ex line = .ok o ∧ ∀ t rest, o = some (t, rest) → rest.length ≤ line.length := by
  induction hn : line.length using Nat.strongRecOn generalizing line with
  | ind n ih =>
    subst hn
    rcases C14_next p hp hpc ex line with ⟨-, h⟩ | ⟨w, raw, rest, text, h1, h2, h3, h4, h5, h6⟩
    · exact ⟨none, h, by simp⟩
    · have hle : rest.length ≤ line.length := by rw [h1]; simp only [List.length_append]; omega
      by_cases ht : text = ['^']
      · rw [if_pos ht] at h6
        have hraw : raw ≠ [] := by
          rintro rfl
          rw [ht] at h5
          cases h5
        have hlt : rest.length < line.length := by
          have := List.length_pos_iff.2 hraw
          rw [h1]; simp only [List.length_append]; omega
        obtain ⟨o, ho, hl⟩ := ih rest.length hlt rest rfl
        exact ⟨o, by rw [h6, ho], fun t r h => Nat.le_trans (hl t r h) hle⟩
      · rw [if_neg ht] at h6
        obtain ⟨u, hu⟩ := hex text
        refine ⟨some (u, rest), by rw [h6, hu]; rfl, ?_⟩
        rintro t r h
        cases h
        exact hle

theorem nextParam_ne_ub {p : Char → Bool} (hp : p '"' = true) (hpc : p '^' = false) {ex : List Char → Res (List Char)}
    (hex : ∀ t, ∃ u, ex t = .ok u) {line : List Char} : nextParam p ex line ≠ .ub := by
  obtain ⟨o, h, -⟩ := nextParam_ok hp hpc ex hex line
  rw [h]; simp

theorem nextParam_ne_hang {p : Char → Bool} (hp : p '"' = true) (hpc : p '^' = false) {ex : List Char → Res (List Char)}
    (hex : ∀ t, ∃ u, ex t = .ok u) {line : List Char} : nextParam p ex line ≠ .hang := by
  obtain ⟨o, h, -⟩ := nextParam_ok hp hpc ex hex line
  rw [h]; simp

theorem nextParam_le {p : Char → Bool} (hp : p '"' = true) (hpc : p '^' = false) {ex : List Char → Res (List Char)}
    (hex : ∀ t, ∃ u, ex t = .ok u) {line t rest : List Char} (h : nextParam p ex line = .ok (some (t, rest))) : rest.length ≤ line.length := by
  obtain ⟨o, h', hl⟩ := nextParam_ok hp hpc ex hex line
  rw [h] at h'
  cases h'
  exact hl t rest rfl

theorem blockEnd_rank {block : Option (List Char)} {e : List Char} (h : blockEnd (block.getD []) = .ok (some e)) :
    blockRank (innerBegin (e.drop 1)) < blockRank block ∧ e.length < blockRank block := by
  obtain ⟨o, ho, hp⟩ := blockEnd_total (block.getD [])
  rw [h] at ho
  cases ho
  obtain ⟨-, hl, -⟩ := hp e rfl
  cases block with
  | none => simp at hl
  | some b =>
    simp only [Option.getD_some] at hl
    refine ⟨?_, by simp only [blockRank]; omega⟩
    cases hi : innerBegin (e.drop 1) with
    | none => simp [blockRank]
    | some b' =>
      have := innerBegin_length hi
      simp [blockRank] at this ⊢
      omega

theorem parseOut_total (ex : List Char → Res (List Char)) (hex : ∀ t, ∃ u, ex t = .ok u) (full : List Char → List Char) (r : Streams)
    (final ch search : List Char) (block : Option (List Char)) : ∃ o, parseOut ex full r final ch search block = .ok o := by
  have hq : redirDelims '"' = true := by decide
  have hc : redirDelims '^' = false := by decide
  fun_induction parseOut ex full r final ch search block
  all_goals first
    | exact ⟨_, rfl⟩
    | assumption
    | exact absurd ‹nextParam redirDelims ex _ = Res.ub› (nextParam_ne_ub hq hc hex)
    | exact absurd ‹nextParam redirDelims ex _ = Res.hang› (nextParam_ne_hang hq hc hex)
    | (exfalso
       obtain ⟨o, ho, -⟩ := blockEnd_total (Option.getD (by assumption) [])
       first
        | exact absurd (ho.symm.trans ‹blockEnd _ = Res.ub›) (by simp)
        | exact absurd (ho.symm.trans ‹blockEnd _ = Res.hang›) (by simp))
    | exact absurd (blockEnd_rank ‹blockEnd _ = Res.ok (some _)›) (by assumption)
    | (have := nextParam_le hq hc hex ‹nextParam redirDelims ex _ = Res.ok (some _)›
       exfalso
       simp +zetaDelta only [List.length_cons, dite_eq_ite] at *
       repeat' split at this
       all_goals (try simp only [List.length_drop] at this); omega)

/-- For every line and expansion of parameters that succeeds, the analysis of the redirections ends without undefined behaviour, with the
redirections and the command or the refusal of the line. -/
theorem C53_total (ex : List Char → Res (List Char)) (hex : ∀ t, ∃ u, ex t = .ok u) (full : List Char → List Char) (s : List Char) :
    ∃ o, parseOutput ex full s = .ok o := parseOut_total ex hex full _ _ _ _ _

/-! ### Commands with redirections -/

/-- What is redirected: the first of each kind of redirections of the command. -/
def redirOf (full : List Char → List Char) (items : List RedirItem) : Streams where
  merge := match (mergesOf items).head? with
    | none => .none
    | some true => .errToOut
    | some false => .outToErr
  outTrunc := match (outsOf false items).head? with
    | none => false
    | some (app, _) => !app
  errTrunc := match (outsOf true items).head? with
    | none => false
    | some (app, _) => !app
  input := (insOf items).head?.map full
  output := (outsOf false items).head?.map fun p => full p.2
  error := (outsOf true items).head?.map fun p => full p.2

/-- The characters escaped in names. -/
def nameSpecial (c : Char) : Bool :=
  c == '"' || c == '^' || c == '%' || c == '!' || c == '&' || c == '|' || c == '>' || c == '<' || c == ')'

theorem nameSpecial_set : NameSet nameSpecial := ⟨by decide, by decide, by decide, by decide, by decide, by decide, by decide⟩

/-- For every command made of text, blocks and redirections, anywhere in it, to files whose names are any texts written in quotes or as bare
words: if nothing is redirected twice, exactly the redirections written are recorded and removed from the command, and the rest of it is kept as
it is, redirections inside blocks, quotes and escapes included; otherwise it is refused.  Partial: if the command has blocks, the redirections are
written after the first one; `C53_before_block` is what happens otherwise. -/
theorem C53_command_partial (delayed : Bool) (loops : LocalBlock) (mods : List Char → Char → List Char → List Char)
    (getv : List Char → Res (Option (List Char))) (full : List Char → List Char) (s : List Char) (items : List RedirItem)
    (h : RedirCommand nameSpecial s items) :
    parseOutput (delayedExpand delayed loops mods getv) full s =
      .ok (if Once items then some (redirOf full items, textOf items) else none) := by
  rw [parseOutput_command nameSpecial_set _
    (delayedExpand_escape delayed loops mods getv (by decide) (by decide) (by decide)) full h, applyItems_eq]
  congr 1
  simp only [Streams.empty, Option.isSome_none, Bool.false_eq_true, if_false, Nat.add_zero, ne_eq, not_true_eq_false]
  show Option.map _ (if Once items then _ else _) = _
  split
  · simp only [Option.map_some, Option.some.injEq, Prod.mk.injEq, and_true]
    unfold foldRedir redirOf
    cases (mergesOf items).head? <;> cases (insOf items).head? <;> cases (outsOf false items).head? <;> cases (outsOf true items).head? <;> rfl
  · rfl

theorem NoNumber_last {t : List Char} (h1 : t.getLast? ≠ some '1') (h2 : t.getLast? ≠ some '2') : NoNumber t := by
  rintro u c rfl -
  simp only [List.getLast?_append, List.getLast?_singleton, Option.some_or, ne_eq, Option.some.injEq] at h1 h2
  exact ⟨h1, h2⟩

/-- The hypotheses are met: `>>`, `2>&1` and `<` with text, a sign in quotes and a quoted name with a sign ... -/
example : RedirCommand nameSpecial "echo \">x\" 1 >> \"a b^>\" 2>&1<in c".toList
    [.text "echo \">x\" 1 ".toList, .out false true "a b>".toList, .text " ".toList, .errToOut, .text [], .inp "in".toList, .text " c".toList] := by
  refine .plain ?_ (.inl (by decide))
  refine .file (t := "echo \">x\" 1 ".toList) (s := ">>".toList) (w := [' ']) (x := "\"a b^>\"".toList) (a := "a b>".toList)
    (rest := " 2>&1<in c".toList) (by decide) (.out (app := true)) (fun _ => NoNumber_last (by decide) (by decide)) (by decide) (Written.quoted (q := nameSpecial) (a := "a b>".toList))
    (by rintro c h; cases h; exact .inl (.inl rfl)) ?_
  refine .errToOut (t := [' ']) (rest := "<in c".toList) (by decide) ?_
  exact .file (t := []) (s := ['<']) (w := []) (x := "in".toList) (rest := " c".toList) (by decide) .inp (by simp) (by simp)
    (.word (by decide) (by decide) (by decide) (by decide)) (by rintro c h; cases h; exact .inl (.inl rfl)) (.last (NoSign.none (t := " c".toList) (by decide)))

/-- ... and a block with a redirection inside and one after it. -/
example : RedirCommand nameSpecial "if a==b (c >x) 2>>e".toList [.text "if a==b (c >x)".toList, .text " ".toList, .out true true "e".toList, .text []] := by
  refine .clause (w := []) (t := "if a==b ".toList) (b := "c >x".toList) (c := " 2>>e".toList) (by simp) (by decide) (by decide) (by decide)
    (.last (.plain (w := []) (by simp) (by decide) (by decide) (by decide))) (.line ?_ ?_)
  · exact .file (t := [' ']) (s := "2>>".toList) (w := []) (x := ['e']) (rest := []) (by decide) (.out2 (app := true)) (by simp) (by simp)
      (.word (by decide) (by decide) (by decide) (by decide)) (by simp) (.last (NoSign.none (t := []) (by decide)))
  · exact noParen_closed (t := " 2>>e".toList) (by decide)

/-- A line of commands separated by operators: each of them has its own redirections, and the line is refused if one of them is. -/
theorem C53_line_partial (delayed : Bool) (loops : LocalBlock) (mods : List Char → Char → List Char → List Char)
    (getv : List Char → Res (Option (List Char))) (full : List Char → List Char) (first : List Char) (more : List (Op × List Char))
    (h : WellFormed first more) (items : List Char → List RedirItem)
    (hi : ∀ s, s = first ∨ s ∈ more.map (·.2) → RedirCommand nameSpecial s (items s)) :
    parseLine (delayedExpand delayed loops mods getv) full (written first more) =
      .ok (if Once (items first) ∧ ∀ p ∈ more, Once (items p.2) then
          some ((.none, redirOf full (items first), textOf (items first)) ::
            more.map fun p => (nodeOf p.1, redirOf full (items p.2), textOf (items p.2)))
        else none) := by
  have key : ∀ l : List (NodeType × List Char), (∀ p ∈ l, RedirCommand nameSpecial p.2 (items p.2)) →
      outputs (delayedExpand delayed loops mods getv) full l =
        .ok (if ∀ p ∈ l, Once (items p.2) then some (l.map fun p => (p.1, redirOf full (items p.2), textOf (items p.2))) else none) := by
    intro l
    induction l with
    | nil => intro _; simp [outputs]
    | cons p l ih =>
      intro hl
      have hp := C53_command_partial delayed loops mods getv full p.2 (items p.2) (hl p (by simp))
      rw [outputs, hp, Res.ok_bind, ih fun x hx => hl x (by simp [hx])]
      by_cases h1 : Once (items p.2)
      · rw [if_pos h1]
        simp only [Res.ok_bind]
        by_cases h2 : ∀ p ∈ l, Once (items p.2)
        · rw [if_pos h2, if_pos (by rw [List.forall_mem_cons]; exact ⟨h1, h2⟩)]
          rfl
        · rw [if_neg h2, if_neg (by rw [List.forall_mem_cons]; exact fun hc => h2 hc.2)]
      · rw [if_neg h1, if_neg (c := ∀ p' ∈ p :: l, Once (items p'.2)) (fun hc => h1 (hc p List.mem_cons_self))]
  unfold parseLine
  rw [C15_grammar_partial h, Res.ok_bind]
  simp only
  rw [key _ ?_]
  · congr 1
    simp only [toItems, List.forall_mem_cons, List.forall_mem_map, List.map_cons, List.map_map]
    rfl
  · intro p hp
    apply hi
    simp only [toItems, List.mem_cons, List.mem_map] at hp
    rcases hp with rfl | ⟨x, hx, rfl⟩
    · exact .inl rfl
    · exact .inr (List.mem_map.2 ⟨x, hx, rfl⟩)

/-- Both hypotheses are met. -/
example : WellFormed "a >f ".toList [(.and, " b".toList)] ∧
    RedirCommand nameSpecial "a >f ".toList [.text "a ".toList, .out false false "f".toList, .text [' ']] ∧
    RedirCommand nameSpecial " b".toList [.text " b".toList] := by
  refine ⟨⟨?_, by unfold Precedes; decide, by decide, ?_⟩, ?_, ?_⟩
  · exact .plain (t := "a >f ".toList) (by decide)
  · exact .plain (t := " b".toList) (by decide)
  · refine .plain ?_ (.inl (by decide))
    exact .file (t := "a ".toList) (s := ['>']) (w := []) (x := ['f']) (rest := [' ']) (by decide) (.out (app := false))
      (fun _ => NoNumber_last (by decide) (by decide)) (by simp) (.word (by decide) (by decide) (by decide) (by decide))
      (by rintro c h; cases h; exact .inl (.inl rfl)) (.last (NoSign.none (t := [' ']) (by decide)))
  · exact .plain (.last (NoSign.none (t := " b".toList) (by decide))) (.inl (by decide))

/-! ### Nothing is added to a command -/

theorem nextParam_rest (ex : List Char → Res (List Char)) {line t rest : List Char} (h : nextParam redirDelims ex line = .ok (some (t, rest))) :
    rest <:+ line := by
  refine nextParam_suffix ex line (fun line => ?_) t rest h
  rcases C14_next redirDelims (by decide) (by decide) ex line with ⟨-, h⟩ | ⟨w, raw, rest, text, h1, h2, h3, h4, h5, h6⟩
  · exact .inl h
  · refine .inr ⟨w, raw, rest, text, h1, ?_, h6⟩
    rintro rfl rfl
    cases h5

theorem parseOut_sublist (ex : List Char → Res (List Char)) (full : List Char → List Char) (r : Streams) (final ch search : List Char)
    (block : Option (List Char)) (hb : block = none) (hs : search <:+ ch) (r' : Streams) (t : List Char)
    (h : parseOut ex full r final ch search block = .ok (some (r', t))) : ∃ x, t = final ++ x ∧ x.Sublist ch := by
  fun_induction parseOut ex full r final ch search block
  all_goals first
    | (cases h; exact ⟨_, rfl, .refl _⟩)
    | (cases h; done)
    | (subst hb; exact absurd ‹pastBlock _ _ = true› (by simp [pastBlock]))
    | (rename_i ih
       obtain ⟨x, rfl, hx⟩ := ih hb (List.suffix_refl _) h
       have hst := (redirToken_suffix ‹redirToken _ = some _›).trans hs
       first
         | exact ⟨_, by rw [List.append_assoc, List.append_assoc]; rfl, sublist_digit hst hx⟩
         | exact ⟨_, List.append_assoc _ _ _, sublist_step hst ((List.drop_suffix _ _).trans (List.suffix_cons _ _)) hx⟩
         | (have hr := nextParam_rest ex ‹nextParam redirDelims ex _ = .ok (some _)›
            refine ⟨_, List.append_assoc _ _ _, sublist_step hst (hr.trans ?_) hx⟩
            first
              | exact List.suffix_cons _ _
              | (simp +zetaDelta only [dite_eq_ite]
                 (repeat' split) <;> first
                   | exact ((List.drop_suffix _ _).trans (List.drop_suffix _ _)).trans (List.suffix_cons _ _)
                   | exact (List.drop_suffix _ _).trans (List.suffix_cons _ _)
                   | exact List.suffix_cons _ _)))

/-- For every line without blocks, well formed or not, the command left is the line with some characters taken out: nothing is added,
changed or moved. -/
theorem C53_only_removes (ex : List Char → Res (List Char)) (full : List Char → List Char) (s : List Char) (hb : NoBlocks s) (r : Streams)
    (t : List Char) (h : parseOutput ex full s = .ok (some (r, t))) : t.Sublist s := by
  unfold parseOutput at h
  obtain ⟨x, rfl, hx⟩ := parseOut_sublist ex full .empty [] s s _ (blockBegin_noBlocks hb) (List.suffix_refl s) r t h
  exact hx

example : NoBlocks ['a', ' ', '(', 'b', ')', ' ', '>', 'f', 'c'] ∧ parseOutput .ok id ['a', ' ', '(', 'b', ')', ' ', '>', 'f', 'c'] =
    .ok (some (⟨.none, true, false, none, some ['f', 'c'], none⟩, "a (b) ".toList)) := by
  refine ⟨.inr ⟨?_, by decide, by decide, by decide⟩, by decide +kernel⟩
  intro w t hs hw
  cases w with
  | nil => subst hs; exact ⟨by decide, by decide⟩
  | cons c w =>
    have := hw c (by simp)
    simp only [List.cons_append, List.cons.injEq] at hs
    rw [← hs.1] at this
    exact absurd this (by decide)

/-- Without signs of redirection outside quotes and escapes, digits included, a line without blocks is left as it is. -/
theorem C53_unchanged (ex : List Char → Res (List Char)) (full : List Char → List Char) (s : List Char) (hb : NoBlocks s)
    (h : ∀ i, ¬ (Hit Sign s i ∧ OutQuotes s i)) : parseOutput ex full s = .ok (some (.empty, s)) := by
  unfold parseOutput
  rw [blockBegin_noBlocks hb]
  simpa using parseOut_last ex full .empty s.length s (Nat.le_refl _) h [] []

/-! ### Violations -/

/-- Redirections "can be used anywhere in the command line" (man/en_US/spec/red.tea:54), but if one is written before a block, the redirections
inside that block are taken for those of the whole command: the command is refused, or both are applied to it and are removed from the block. -/
theorem C53_before_block :
    parseOutput .ok id ">f (a >g)".toList = .ok none ∧
    parseOutput .ok id "(a >g) >f".toList = .ok (some (⟨.none, true, false, none, some ['f'], none⟩, "(a >g) ".toList)) ∧
    parseOutput .ok id "2>e (a >g)".toList =
      .ok (some (⟨.none, true, true, none, some ['g'], some ['e']⟩, " (a )".toList)) := by
  refine ⟨?_, ?_, ?_⟩ <;> decide +kernel

/-- `2>&2` redirects the standard output, which it does not mention. -/
theorem C53_error_to_itself :
    parseOutput .ok id "a 2>&2".toList = .ok (some (⟨.outToErr, false, false, none, none, none⟩, "a ".toList)) := by
  decide +kernel

/-- In `>&2` the name of the file is empty and `&2` is left in the command. -/
theorem C53_empty_name :
    parseOutput .ok id "a >&2".toList = .ok (some (⟨.none, true, false, none, some [], none⟩, "a &2".toList)) := by
  decide +kernel

end PBat
