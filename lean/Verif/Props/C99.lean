import Verif.Lemmas.Cmdly
import Verif.Lemmas.Def
/-
C99: scripts read line by line (CMDLYCORRECT).
-/
namespace PBat.Cmdly
open Spec Spec.Cmdly

/-- The commands that are run are those of the script, in order, each once, each expanded when it is its turn: labels, comments and blank lines are
passed, and a command goes on until its blocks are closed. -/
theorem C99_run_partial (f : List Char) (cap : List Char → Nat) (exs : Nat → List Char → Res (List Char)) (name : List Char)
    (cs : List (List Char)) (hs : ∀ n, ∀ l ∈ lines f, Steady cap (exs n) (normNL l)) (h : Runs exs 0 (lines f) cs) :
    runFile f cap exs 0 { file := name, pos := 0, eof := false } = .ok cs :=
  runFile_runs hs h 0 (by simp) (fun _ h => h)

/-- The same from the middle of the script, wherever a line begins. -/
theorem C99_resume_partial (f : List Char) (cap : List Char → Nat) (exs : Nat → List Char → Res (List Char)) (name : List Char)
    (n : Nat) (before ls cs : List (List Char)) (hs : ∀ n, ∀ l ∈ lines f, Steady cap (exs n) (normNL l))
    (hl : lines f = before ++ ls) (h : Runs exs n ls cs) :
    runFile f cap exs n { file := name, pos := before.flatten.length, eof := false } = .ok cs :=
  runFile_runs hs h _ (lines_drop hl) (fun l h => by rw [hl]; simp [h])

/-- The reading always ends: each line read moves the position forward within the file. -/
theorem C99_progress (f : List Char) (cap : List Char → Nat) (ex : List Char → Res (List Char)) (st st' : In) (g : Got)
    (h : getLine (fun _ => some f) cap ex st = .ok (g, st')) : st'.eof = true ∨ (st.pos < st'.pos ∧ st'.pos ≤ f.length) := by
  cases he : st'.eof with
  | true => exact Or.inl rfl
  | false => exact Or.inr (getLine_progress h he)

/-- Lines that do not begin with a variable are steady: what is asked of the lines above is only that their expansion fits. -/
theorem C99_steady (args : LocalBlock) (mods : List Char → Char → List Char → List Char)
    (getv : List Char → Res (Option (List Char))) (cap : List Char → Nat) (l t : List Char)
    (h : replaceVars args mods getv l = .ok t) (hcap : t.length < cap l) (hp : (core l).head? ≠ some '%') :
    Steady cap (replaceVars args mods getv) l := by
  have hl := lead_core l
  have hw := lead_percent l
  cases hc : core l with
  | nil =>
    rw [hc, List.append_nil] at hl
    have ht : replaceVars args mods getv l = .ok l := by
      unfold replaceVars
      rw [expandVar.eq_1]
      have : searchTok (· == '%') l = none := searchTok_absent (fun d hd => by
        simp only [beq_eq_false_iff_ne]; rintro rfl; exact hw (by rw [hl]; exact hd))
      split
      · rfl
      · next hs => rw [this] at hs; cases hs
    cases h.symm.trans ht
    refine ⟨[], by rw [List.append_nil, hl]; exact ht, by rw [List.append_nil, hl]; exact hcap, ?_⟩
    simp [Skipped, hc]
  | cons c r =>
    have hc' := core_head l c (by rw [hc]; rfl)
    have hcp : c ≠ '%' := by rintro rfl; exact hp (by rw [hc]; rfl)
    obtain ⟨u, hu⟩ := expandVar_prefix (args := getLocalVar args mods) (getv := getv) (w := lead l ++ [c]) (s := r) (t := t)
      (by simp [hw, Ne.symm hcp]) (by
        have : lead l ++ [c] ++ r = l := by rw [List.append_assoc, List.singleton_append, ← hc, hl]
        rw [this]; exact h)
    have ht : t = lead l ++ (c :: u) := by rw [hu]; simp
    refine ⟨c :: u, by rw [h, ht], by rw [← ht]; exact hcap, ?_⟩
    simp only [Skipped, hc, List.head?_cons, Option.some.injEq]
    constructor
    · intro hx d hd; exact Or.inl (hx d hd)
    · rintro hx d rfl
      rcases hx c rfl with h | rfl
      · exact h
      · exact absurd (Or.inl (Or.inr (Or.inr (Or.inr (Or.inr rfl))))) hc'

/-- Violation: the first character of the command is read where the line was before its expansion.  When the expansion is longer than the
buffer of the line, this is memory that has been freed. -/
theorem C99_dangling (f : List Char) (cap : List Char → Nat) (exs : Nat → List Char → Res (List Char)) (n : Nat) (st : In)
    (raw t : List Char) (ls : List (List Char)) (he : st.eof = false) (hl : lines (f.drop st.pos) = raw :: ls)
    (ht : exs n (normNL raw) = .ok t) (hcap : cap (normNL raw) ≤ t.length) : runFile f cap exs n st = .ub := by
  rw [runFile_eq, if_neg (by simp [he]), getLine_eq, hl, readLoop]
  simp only [ht]
  rw [if_pos (Or.inl hcap)]

/-- Violation: a command whose name comes from a variable is not run when its value begins with a colon. -/
theorem C99_hidden (l t : List Char) (cap : List Char → Nat) (exs : Nat → List Char → Res (List Char)) (name : List Char)
    (hl : '\n' ∉ l) (hr : '\r' ∉ l) (hc : core (l ++ ['\n']) = l ++ ['\n']) (ht : exs 0 (l ++ ['\n']) = .ok (':' :: t))
    (hcap : t.length + 1 < cap (l ++ ['\n'])) :
    runFile (l ++ ['\n']) cap exs 0 { file := name, pos := 0, eof := false } = .ok [] := by
  have hlines : lines (l ++ ['\n']) = [l ++ ['\n']] := by
    have := lines_lf l [] hl
    simpa [lines] using this
  have hn : normNL (l ++ ['\n']) = l ++ ['\n'] := normNL_id (by simp [hr])
  rw [runFile_eq, if_neg (by simp), getLine_eq]
  simp only [List.drop_zero, hlines]
  rw [readLoop]
  simp only [hn, ht, skipAllBlanks_core, hc, Nat.sub_self]
  rw [if_neg (by simp only [List.length_cons]; omega), if_pos (by simp)]
  simp only [if_true]
  rw [runFile_eq, if_neg (by simp), getLine_end (by simp [lines])]
  simp only
  rw [runFile_eq, if_pos rfl]

/-! ### Jumps -/

theorem labelHere_flush {text name : List Char} (h : lineBody text = text) : labelHere text name = labelIs text name := by
  unfold labelHere labelIs
  rw [skipBlanks_eq, h]
  cases text[name.length]? <;> rfl

theorem jumpLoop_some {name : List Char} (ls : List (List Char)) : ∀ (used n : Nat) (e : Bool), jumpLoop name used ls = some (n, e) →
    ∃ a l rest, ls = a ++ l :: rest ∧ labelHere (normNL l) name = true ∧ (∀ x ∈ a, labelHere (normNL x) name = false) ∧
      n = used + (a ++ [l]).flatten.length ∧ e = decide ('\n' ∉ l) := by
  induction ls with
  | nil => intro used n e h; simp [jumpLoop] at h
  | cons raw ls ih =>
    intro used n e h
    rw [jumpLoop] at h
    split at h
    · next hh =>
      cases h
      exact ⟨[], raw, ls, rfl, hh, by simp, by simp, rfl⟩
    · next hh =>
      obtain ⟨a, l, rest, rfl, h1, h2, h3, h4⟩ := ih _ _ _ h
      refine ⟨raw :: a, l, rest, rfl, h1, ?_, ?_, h4⟩
      · intro x hx
        rcases List.mem_cons.1 hx with rfl | hx
        · simpa using hh
        · exact h2 x hx
      · rw [h3, List.cons_append, List.flatten_cons, List.length_append, Nat.add_assoc]

theorem jumpLoop_none {name : List Char} (ls : List (List Char)) : ∀ (used : Nat), jumpLoop name used ls = none →
    ∀ x ∈ ls, labelHere (normNL x) name = false := by
  induction ls with
  | nil => intro _ _ x hx; simp at hx
  | cons raw ls ih =>
    intro used h x hx
    rw [jumpLoop] at h
    split at h
    · cases h
    · next hh =>
      rcases List.mem_cons.1 hx with rfl | hx
      · simpa using hh
      · exact ih _ h x hx

/-- Lines that begin with the name after some blanks are not indented. -/
def Flush (ls : List (List Char)) (name : List Char) : Prop :=
  ∀ l ∈ ls, ((lineBody (normNL l)).take name.length).map Char.toLower = name.map Char.toLower → lineBody (normNL l) = normNL l

theorem labelHere_iff {ls : List (List Char)} {name l : List Char} (hf : Flush ls name) (hl : l ∈ ls) :
    labelHere (normNL l) name = true ↔ IsLabel (normNL l) name := by
  unfold IsLabel
  by_cases h : ((lineBody (normNL l)).take name.length).map Char.toLower = name.map Char.toLower
  · rw [labelHere_flush (hf l hl h), labelIs_iff, hf l hl h]
  · constructor
    · intro hh
      unfold labelHere at hh
      rw [skipBlanks_eq, Bool.and_eq_true, beq_iff_eq] at hh
      exact absurd hh.1 h
    · intro hh
      rw [← labelIs_iff] at hh
      unfold labelIs at hh
      rw [Bool.and_eq_true, beq_iff_eq] at hh
      exact absurd hh.1 h

/-- A jump continues with the line after the first label of that name in the file, from wherever it is made, if the labels that could be meant
are not indented; and it fails when there is none. -/
theorem C99_jump_partial (opens : List Char → Option (List Char)) (st : In) (name f : List Char) (file : Option (List Char))
    (hi : ¬ (st.file = [] ∧ file = none)) (hn : name.length ≠ 1) (ho : opens (file.getD st.file) = some f)
    (hf : Flush (lines f) name) :
    (∃ rest st', Spec.Cmdly.After (lines f) name rest ∧ jump opens st name file = some st' ∧ st'.file = file.getD st.file ∧
      lines (f.drop st'.pos) = rest ∧ (st'.eof = true → rest = [])) ∨
    ((¬ ∃ rest, Spec.Cmdly.After (lines f) name rest) ∧ jump opens st name file = none) := by
  unfold jump
  rw [if_neg hi, if_neg hn, ho]
  simp only
  cases hj : jumpLoop name 0 (lines f) with
  | none =>
    refine Or.inr ⟨?_, rfl⟩
    rintro ⟨rest, a, l, hl, h1, -⟩
    have hm : l ∈ lines f := by rw [hl]; simp
    have := jumpLoop_none _ _ hj l hm
    rw [(labelHere_iff hf hm).2 h1] at this
    cases this
  | some x =>
    obtain ⟨n, e⟩ := x
    obtain ⟨a, l, rest, hl, h1, h2, h3, h4⟩ := jumpLoop_some _ _ _ _ hj
    refine Or.inl ⟨rest, _, ⟨a, l, hl, ?_, ?_⟩, rfl, rfl, ?_, ?_⟩
    · exact (labelHere_iff hf (by rw [hl]; simp)).1 h1
    · intro y hy hh
      rw [← labelHere_iff hf (by rw [hl]; simp [hy]), h2 y hy] at hh
      cases hh
    · simp only [h3, Nat.zero_add]
      exact lines_drop (by rw [hl]; simp)
    · intro he
      simp only [h4, decide_eq_true_eq] at he
      exact lines_unterminated hl he

/-- So the commands run after it are those after the label. -/
theorem C99_jump_run_partial (f : List Char) (cap : List Char → Nat) (exs : Nat → List Char → Res (List Char)) (st : In)
    (name : List Char) (n : Nat) (rest cs : List (List Char)) (hi : st.file ≠ []) (hn : name.length ≠ 1) (hf : Flush (lines f) name)
    (hs : ∀ n, ∀ l ∈ lines f, Steady cap (exs n) (normNL l)) (ha : Spec.Cmdly.After (lines f) name rest) (h : Runs exs n rest cs) :
    ∃ st', jump (fun _ => some f) st name none = some st' ∧ runFile f cap exs n st' = .ok cs := by
  rcases C99_jump_partial (fun _ => some f) st name f none (fun h => hi h.1) hn rfl hf with ⟨r, st', h1, h2, h3, h4, h5⟩ | ⟨h1, -⟩
  · have hr : r = rest := by
      obtain ⟨a, l, hl, hm, hno⟩ := ha
      obtain ⟨a', l', hl', hm', hno'⟩ := h1
      exact after_unique (hl'.symm.trans hl) hm' hno' hm hno
    subst hr
    refine ⟨st', h2, ?_⟩
    obtain ⟨file, pos, eof⟩ := st'
    cases eof with
    | false =>
      refine runFile_runs hs h pos h4 ?_
      obtain ⟨a, l, hl, -⟩ := ha
      intro x hx
      rw [hl]; simp [hx]
    | true =>
      rw [h5 rfl] at h
      rw [runFile_eq, if_pos rfl]
      rw [runs_nil h rfl]
  · exact absurd ⟨rest, ha⟩ h1

/-- Violation: labels may be indented, but a label indented by at most its own length is never found. -/
theorem C99_indented (opens : List Char → Option (List Char)) (st : In) (w name : List Char) (hw : ∀ c ∈ w, c = ' ' ∨ c = '\t')
    (hne : w ≠ []) (hle : w.length ≤ name.length) (hb : ∀ c ∈ name, ¬ Blank c ∧ c ≠ '\r')
    (ho : opens st.file = some (w ++ name ++ ['\n'])) :
    Spec.Cmdly.After (lines (w ++ name ++ ['\n'])) name [] ∧ jump opens st name none = none := by
  have hfeed : '\n' ∉ w ++ name := by
    intro h
    rcases List.mem_append.1 h with h | h
    · rcases hw _ h with h | h <;> exact absurd h (by decide)
    · exact (hb _ h).1 (by simp [Blank])
  have hcr : '\r' ∉ w ++ name ++ ['\n'] := by
    intro h
    simp only [List.mem_append, List.mem_singleton] at h
    rcases h with (h | h) | h
    · rcases hw _ h with h | h <;> exact absurd h (by decide)
    · exact (hb _ h).2 rfl
    · exact absurd h (by decide)
  have hlines : lines (w ++ name ++ ['\n']) = [w ++ name ++ ['\n']] := by
    have := lines_lf (w ++ name) [] hfeed
    simpa [lines] using this
  have hn0 : name ≠ [] := by
    rintro rfl
    cases w with
    | nil => exact hne rfl
    | cons c w => simp at hle
  have hbody : lineBody (w ++ name ++ ['\n']) = name ++ ['\n'] := by
    unfold lineBody
    rw [List.append_assoc, List.dropWhile_append_of_pos (by
      intro c hc
      rcases hw c hc with rfl | rfl <;> decide)]
    cases name with
    | nil => exact absurd rfl hn0
    | cons c r =>
      rw [List.cons_append, List.dropWhile_cons, if_neg]
      simpa using (hb c (by simp)).1
  have hnorm := normNL_id hcr
  refine ⟨⟨[], _, hlines, ⟨name, ['\n'], ?_, rfl, ?_⟩, by simp⟩, ?_⟩
  · rw [hnorm, hbody]
  · intro c hc
    simp only [List.head?_cons, Option.some.injEq] at hc
    subst hc
    simp [Blank]
  · unfold jump
    split
    · rfl
    · split
      · rfl
      · simp only [Option.getD_none, ho]
        rw [hlines, jumpLoop, if_neg]
        · rfl
        · rw [hnorm]
          unfold labelHere
          have hidx : ∃ c ∈ name, (w ++ name ++ ['\n'])[name.length]? = some c := by
            have hlt : name.length - w.length < name.length := by
              have : 0 < w.length := by cases w with | nil => exact absurd rfl hne | cons => simp
              omega
            refine ⟨name[name.length - w.length], List.getElem_mem hlt, ?_⟩
            rw [List.append_assoc, List.getElem?_append_right hle, List.getElem?_append_left hlt,
              List.getElem?_eq_getElem hlt]
          obtain ⟨c, hc, he⟩ := hidx
          rw [he]
          simp only [Bool.and_eq_true, not_and]
          intro _ h
          exact (hb c hc).1 ((isDelim_iff c).1 h)

/-- Violation: a label indented by more than the length of the name is taken whatever follows the name in it. -/
theorem C99_deep (opens : List Char → Option (List Char)) (st : In) (w name more : List Char) (hw : ∀ c ∈ w, c = ' ' ∨ c = '\t')
    (hlt : name.length < w.length) (hlen : 1 < name.length) (hb : ∀ c ∈ name ++ more, ¬ Blank c ∧ c ≠ '\r') (hm : more ≠ [])
    (hf : st.file ≠ []) (ho : opens st.file = some (w ++ (name ++ more) ++ ['\n'])) :
    (¬ ∃ rest, Spec.Cmdly.After (lines (w ++ (name ++ more) ++ ['\n'])) name rest) ∧
      ∃ st', jump opens st name none = some st' := by
  have hfeed : '\n' ∉ w ++ (name ++ more) := by
    intro h
    rcases List.mem_append.1 h with h | h
    · rcases hw _ h with h | h <;> exact absurd h (by decide)
    · exact (hb _ h).1 (by simp [Blank])
  have hcr : '\r' ∉ w ++ (name ++ more) ++ ['\n'] := by
    intro h
    rcases List.mem_append.1 h with h | h
    · rcases List.mem_append.1 h with h | h
      · rcases hw _ h with h | h <;> exact absurd h (by decide)
      · exact (hb _ h).2 rfl
    · simp at h
  have hlines : lines (w ++ (name ++ more) ++ ['\n']) = [w ++ (name ++ more) ++ ['\n']] := by
    have := lines_lf (w ++ (name ++ more)) [] hfeed
    simpa [lines] using this
  have hbody : lineBody (w ++ (name ++ more) ++ ['\n']) = name ++ more ++ ['\n'] := by
    unfold lineBody
    rw [List.append_assoc, List.dropWhile_append_of_pos (by
      intro c hc
      rcases hw c hc with rfl | rfl <;> decide)]
    cases name with
    | nil => simp at hlen
    | cons c r =>
      simp only [List.cons_append]
      rw [List.dropWhile_cons, if_neg]
      simpa using (hb c (by simp)).1
  have hnorm := normNL_id hcr
  constructor
  · rintro ⟨rest, a, l, hl, hlab, -⟩
    rw [hlines] at hl
    cases a with
    | cons x a => simp at hl
    | nil =>
      simp only [List.nil_append, List.cons.injEq] at hl
      obtain ⟨rfl, -⟩ := hl
      unfold IsLabel at hlab
      rw [hnorm, hbody, ← labelIs_iff] at hlab
      unfold labelIs at hlab
      cases more with
      | nil => exact hm rfl
      | cons c more =>
        have : (name ++ c :: more ++ ['\n'])[name.length]? = some c := by simp
        rw [this, Bool.and_eq_true] at hlab
        exact (hb c (by simp)).1 ((isDelim_iff c).1 hlab.2)
  · unfold jump
    rw [if_neg (fun h => hf h.1), if_neg (by omega)]
    simp only [Option.getD_none, ho]
    rw [hlines, jumpLoop, if_pos]
    · exact ⟨_, rfl⟩
    · rw [hnorm]
      unfold labelHere
      rw [skipBlanks_eq, hbody]
      have hidx : (w ++ (name ++ more) ++ ['\n'])[name.length]? = some w[name.length] := by
        rw [List.append_assoc, List.getElem?_append_left hlt, List.getElem?_eq_getElem hlt]
      rw [hidx, Bool.and_eq_true]
      refine ⟨by simp, ?_⟩
      rcases hw _ (List.getElem_mem hlt) with h | h
      · rw [h]; rfl
      · rw [h]; rfl

/-! ### GOTO -/

/-- GOTO a label: the script continues after the label; ERRORLEVEL is not changed and nothing is printed. -/
theorem C99_goto_partial (f : List Char) (cap : List Char → Nat) (exs : Nat → List Char → Res (List Char))
    (ex : List Char → Res (List Char)) (full : List Char → Option (List Char)) (st : In) (level n : Nat) (line name : List Char)
    (rest cs : List (List Char)) (p : Option (List Char × List Char)) (hp : nextParam stdDelims ex line = .ok p)
    (hq : ∀ a r, p = some (a, r) → a ≠ ['/', '?']) (hname : gotoName ex line = .ok name)
    (heof : name.map Char.toLower ≠ [':', 'e', 'o', 'f']) (hi : st.file ≠ []) (hn : name.length ≠ 1) (hf : Flush (lines f) name)
    (hs : ∀ n, ∀ l ∈ lines f, Steady cap (exs n) (normNL l)) (ha : Spec.Cmdly.After (lines f) name rest) (h : Runs exs n rest cs) :
    ∃ r, goto (fun _ => some f) ex full st level line = .ok r ∧ r.moved = true ∧ r.leave = false ∧ r.printed = false ∧ r.level = level ∧
      runFile f cap exs n r.st = .ok cs := by
  obtain ⟨st', hj, hr⟩ := C99_jump_run_partial f cap exs st name n rest cs hi hn hf hs ha h
  refine ⟨{ st := st', printed := false, leave := false, moved := true, level := level }, ?_, rfl, rfl, rfl, rfl, hr⟩
  have ho : options true ex full false none line = .ok (.go false none line) := by
    rw [options, hp]
    cases p with
    | none => rfl
    | some x =>
      obtain ⟨a, r⟩ := x
      simp [hq a r rfl]
  unfold goto
  rw [ho]
  simp only [hname]
  rw [if_neg heof, hj]

/-- GOTO :EOF leaves the level and changes nothing else. -/
theorem C99_goto_eof (opens : List Char → Option (List Char)) (ex : List Char → Res (List Char))
    (full : List Char → Option (List Char)) (st : In) (level : Nat) (line name : List Char) (p : Option (List Char × List Char))
    (hp : nextParam stdDelims ex line = .ok p) (hq : ∀ a r, p = some (a, r) → a ≠ ['/', '?']) (hname : gotoName ex line = .ok name)
    (heof : name.map Char.toLower = [':', 'e', 'o', 'f']) :
    goto opens ex full st level line = .ok { st := st, printed := false, leave := true, moved := false, level := level } := by
  have ho : options true ex full false none line = .ok (.go false none line) := by
    rw [options, hp]
    cases p with
    | none => rfl
    | some x =>
      obtain ⟨a, r⟩ := x
      simp [hq a r rfl]
  unfold goto
  rw [ho]
  simp only [hname]
  rw [if_pos heof]

/-- When there is no such label, the script continues where it was and an error is printed. Violation: ERRORLEVEL becomes 6, although GOTO is said
not to change it. -/
theorem C99_goto_fails (f : List Char) (ex : List Char → Res (List Char)) (full : List Char → Option (List Char)) (st : In)
    (level : Nat) (line name : List Char) (p : Option (List Char × List Char)) (hp : nextParam stdDelims ex line = .ok p)
    (hq : ∀ a r, p = some (a, r) → a ≠ ['/', '?']) (hname : gotoName ex line = .ok name)
    (heof : name.map Char.toLower ≠ [':', 'e', 'o', 'f']) (hi : st.file ≠ []) (hn : name.length ≠ 1) (hf : Flush (lines f) name)
    (ha : ¬ ∃ rest, Spec.Cmdly.After (lines f) name rest) :
    goto (fun _ => some f) ex full st level line =
      .ok { st := st, printed := true, leave := false, moved := false, level := 6 } := by
  have ho : options true ex full false none line = .ok (.go false none line) := by
    rw [options, hp]
    cases p with
    | none => rfl
    | some x =>
      obtain ⟨a, r⟩ := x
      simp [hq a r rfl]
  unfold goto
  rw [ho]
  simp only [hname]
  rw [if_neg heof]
  rcases C99_jump_partial (fun _ => some f) st name f none (fun h => hi h.1) hn rfl hf with ⟨r, st', h1, -⟩ | ⟨-, h1⟩
  · exact absurd ⟨r, h1⟩ ha
  · rw [h1]; rfl

/-- Without CMDLYCORRECT, `/Q` before the label makes the jump quiet. -/
theorem C99_quiet (ex : List Char → Res (List Char)) (full : List Char → Option (List Char)) (line next a : List Char)
    (b : Option (List Char × List Char)) (h : nextParam stdDelims ex line = .ok (some (a, next)))
    (ha : a.map Char.toLower = ['/', 'q']) (hlt : next.length < line.length) (hb : nextParam stdDelims ex next = .ok b)
    (hno : ∀ x r, b = some (x, r) → x.head? ≠ some '/') : options false ex full false none line = .ok (.go true none next) := by
  have hx : a ≠ ['/', '?'] := by rintro rfl; exact absurd ha (by decide)
  rw [options, h]
  simp only
  rw [if_neg hx, if_pos ⟨trivial, ha⟩, if_pos hlt, options, hb]
  cases b with
  | none => rfl
  | some y =>
    obtain ⟨x, r⟩ := y
    have hh := hno x r rfl
    simp only
    rw [if_neg (by rintro rfl; exact hh rfl), if_neg, if_neg]
    · rintro ⟨-, h⟩
      match x, hh, h with
      | [], _, h => simp at h
      | [c], _, h => simp at h
      | c :: d :: x, hh, h =>
        simp only [List.take_succ_cons, List.map_cons, List.cons.injEq] at h
        exact hh (by rw [toLower_slash h.1]; rfl)
    · rintro ⟨-, h⟩
      cases x with
      | nil => simp at h
      | cons c x =>
        simp only [List.map_cons, List.cons.injEq] at h
        exact hh (by rw [toLower_slash h.1]; rfl)

/-- Violation: in the documented order, after the label, the file and `/Q` are not options: whatever follows the label belongs to it. -/
theorem C99_trailing (correct : Bool) (ex : List Char → Res (List Char)) (full : List Char → Option (List Char))
    (line a next : List Char) (h : nextParam stdDelims ex line = .ok (some (a, next))) (ha : a.head? ≠ some '/') :
    options correct ex full false none line = .ok (.go false none line) := by
  rw [options, h]
  simp only
  rw [if_neg (by rintro rfl; exact ha rfl), if_neg, if_neg]
  · rintro ⟨-, h⟩
    match a, ha, h with
    | [], _, h => simp at h
    | [c], _, h => simp at h
    | c :: d :: x, hh, h =>
      simp only [List.take_succ_cons, List.map_cons, List.cons.injEq] at h
      exact hh (by rw [toLower_slash h.1]; rfl)
  · rintro ⟨-, h⟩
    cases a with
    | nil => simp at h
    | cons c x =>
      simp only [List.map_cons, List.cons.injEq] at h
      exact ha (by rw [toLower_slash h.1]; rfl)

/-! ### Examples -/

theorem steady_ok {cap : List Char → Nat} {l : List Char} (h : l.length < cap l) : Steady cap .ok l := by
  refine ⟨core l, by rw [lead_core], by rw [lead_core]; exact h, ?_⟩
  constructor
  · intro hs c hc; exact Or.inl (hs c hc)
  · intro hs c hc
    rcases hs c hc with h | rfl
    · exact h
    · exact absurd (Or.inl (by simp [Blank])) (core_head l _ hc)

/-- A label, a command, and a block of several lines with a blank line and a comment within. -/
example : runFile ":start\necho a\n\nif x (\n:: no\n echo b\n)\n".toList (fun _ => 100) (fun _ => .ok) 0
    { file := ['f'], pos := 0, eof := false } = .ok ["echo a".toList, "if x (\n echo b\n)".toList] := by
  refine C99_run_partial _ _ _ _ _ ?_ ?_
  · intro n l hl
    have : ∀ l ∈ lines ":start\necho a\n\nif x (\n:: no\n echo b\n)\n".toList, (normNL l).length < 100 := by decide +kernel
    exact steady_ok (this l hl)
  · have hl : lines ":start\necho a\n\nif x (\n:: no\n echo b\n)\n".toList =
        [":start\n".toList] ++ (["echo a\n".toList] ++ (["\n".toList] ++
          (["if x (\n".toList, ":: no\n".toList, " echo b\n".toList, ")\n".toList] ++ []))) := by decide +kernel
    rw [hl]
    have hsk : ∀ l : List Char, (core (normNL l)).head? = some ':' ∨ (core (normNL l)).head? = none → Skipped (normNL l) := by
      intro l h c hc
      rcases h with h | h
      · rw [h] at hc; cases hc; rfl
      · rw [h] at hc; cases hc
    have hrun : ∀ (l : List Char) (d : Char), (core (normNL l)).head? = some d → d ≠ ':' → ¬ Skipped (normNL l) :=
      fun l d h hd hs => hd (hs d h)
    refine .cmd (strict := true) ?_ ?_ ?_ ?_ ?_ (.cmd (strict := true) ?_ ?_ ?_ ?_ ?_ (.done (by simp)))
    · intro l hm; simp only [List.mem_singleton] at hm; subst hm; exact hsk _ (by decide +kernel)
    · intro l hm; cases hm; exact hrun _ 'e' (by decide +kernel) (by decide)
    · intro l hm; cases hm; exact hrun _ 'e' (by decide +kernel) (by decide)
    · exact .run (u := "echo a\n".toList) (t := []) (hrun _ 'e' (by decide +kernel) (by decide)) (by decide +kernel) .nil
    · exact .last (.plain (w := []) (t := "echo a".toList) (by simp) (by decide) (by decide) (by decide))
    · intro l hm; simp only [List.mem_singleton] at hm; subst hm; exact hsk _ (by decide +kernel)
    · intro l hm; cases hm; exact hrun _ 'i' (by decide +kernel) (by decide)
    · intro l hm; cases hm; exact hrun _ ')' (by decide +kernel) (by decide)
    · refine .run (u := "if x (\n".toList) (t := " echo b\n)\n".toList) (hrun _ 'i' (by decide +kernel) (by decide)) (by decide +kernel) ?_
      refine .skip (hsk _ (by decide +kernel)) ?_
      refine .run (u := " echo b\n".toList) (t := ")\n".toList) (hrun _ 'e' (by decide +kernel) (by decide)) (by decide +kernel) ?_
      exact .run (u := ")\n".toList) (t := []) (hrun _ ')' (by decide +kernel) (by decide)) (by decide +kernel) .nil
    · refine .last (.clause (w := []) (by simp) (by decide) (.block (t := "if x ".toList) (b := "\n echo b\n".toList) (c := [])
        (by decide) ?_ (.text (by decide))))
      refine .cons (l := []) (c := '\n') (b := " echo b\n".toList) (.plain (w := []) (t := []) (by simp) (by simp) (by decide) (by decide))
        (.inr (.inr (.inl rfl))) ?_
      refine .cons (l := " echo b".toList) (c := '\n') (b := []) (.plain (w := [' ']) (t := "echo b".toList) (by decide) (by decide) (by decide) (by decide))
        (.inr (.inr (.inl rfl))) ?_
      exact .last (.plain (w := []) (t := []) (by simp) (by simp) (by decide) (by decide))

/-- A jump, to the label in capitals with a comment after it. -/
example : jump (fun _ => some "echo a\n:labx\n:LAB here\necho b\n".toList) { file := ['f'], pos := 7, eof := false } ":lab".toList none =
    some { file := ['f'], pos := 23, eof := false } := by decide +kernel

/-- The hypothesis on the labels holds for it. -/
example : Flush (lines "echo a\n:labx\n:LAB here\necho b\n".toList) ":lab".toList := by
  have : ∀ l ∈ lines "echo a\n:labx\n:LAB here\necho b\n".toList, lineBody (normNL l) = normNL l := by decide +kernel
  exact fun l hl _ => this l hl

/-- An indented label is not found; a deeply indented one is taken for another. -/
example : jump (fun _ => some "  :lab\n".toList) { file := ['f'], pos := 0, eof := false } ":lab".toList none = none :=
  (C99_indented _ _ [' ', ' '] ":lab".toList (by decide) (by decide) (by decide) (by decide) rfl).2

example : ∃ st', jump (fun _ => some "      :label\n".toList) { file := ['f'], pos := 0, eof := false } ":lab".toList none = some st' :=
  (C99_deep _ _ "      ".toList ":lab".toList "el".toList (by decide) (by decide) (by decide) (by decide) (by decide) (by decide) rfl).2

/-- GOTO with the label after a blank; a failing one; `/Q` as part of the label. -/
example : goto (fun _ => some ":lab\necho b\n".toList) .ok some { file := ['f'], pos := 0, eof := false } 3 " lab".toList =
    .ok { st := { file := ['f'], pos := 5, eof := false }, printed := false, leave := false, moved := true, level := 3 } := by
  decide +kernel

example : goto (fun _ => some ":lab\necho b\n".toList) .ok some { file := ['f'], pos := 0, eof := false } 3 " /q other".toList =
    .ok { st := { file := ['f'], pos := 0, eof := false }, printed := true, leave := false, moved := false, level := 6 } := by
  decide +kernel

example : options false .ok some false none " /q lab".toList = .ok (.go true none " lab".toList) := by decide +kernel

example : options false .ok some false none " lab file /q".toList = .ok (.go false none " lab file /q".toList) :=
  C99_trailing false .ok some " lab file /q".toList "lab".toList " file /q".toList (by decide +kernel) (by decide)

/-- A line hidden by its variable, and one that does not fit. -/
example : runFile "%x%\n".toList (fun _ => 100) (fun _ s => .ok (if s = "%x%\n".toList then ":a\n".toList else s)) 0
    { file := ['f'], pos := 0, eof := false } = .ok [] :=
  C99_hidden "%x%".toList "a\n".toList _ _ _ (by decide) (by decide) (by decide) (by decide) (by decide)

example : runFile "%x%\n".toList (fun _ => 5) (fun _ s => .ok (s ++ s)) 0 { file := ['f'], pos := 0, eof := false } = .ub :=
  C99_dangling _ _ _ _ _ "%x%\n".toList "%x%\n%x%\n".toList [] rfl (by decide +kernel) (by decide +kernel) (by decide)

end PBat.Cmdly
