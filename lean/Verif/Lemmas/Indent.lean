import Verif.Props.C53
/-
Blanks before a line do not change its analysis; for C113.
-/
namespace PBat
open Spec

/-- Blanks and line feeds. -/
theorem blank_plain {c : Char} (h : Blank c) : c ≠ '^' ∧ c ≠ '"' ∧ isOp c = false ∧ isRedir c = false ∧ c ≠ '>' ∧ c ≠ ':' ∧ c ≠ '(' := by
  rcases h with rfl | rfl | rfl | rfl | rfl <;> decide

theorem searchOutQuotes_indent {p : Char → Bool} (hp : p '^' = false) {w : List Char} (h : ∀ c ∈ w, c ≠ '^' ∧ c ≠ '"' ∧ p c = false) (s : List Char) :
    searchOutQuotes p (w ++ s) = (searchOutQuotes p s).map (w.length + ·) := by
  rw [searchOutQuotes_scan _ hp, searchOutQuotes_scan _ hp]
  induction w with
  | nil => simp
  | cons c w ih =>
    obtain ⟨h1, h2, h3⟩ := h c (by simp)
    rw [List.cons_append, outScan_ne h1, if_neg h2, ih (fun d hd => h d (by simp [hd]))]
    simp only [h3, Bool.false_and, Bool.false_eq_true, if_false, Option.map_map, List.length_cons]
    simp
    congr 1
    funext x
    simp
    omega

theorem skipAllBlanks_indent {w : List Char} (h : ∀ c ∈ w, Blank c) (s : List Char) : skipAllBlanks (w ++ s) = skipAllBlanks s := by
  induction w with
  | nil => rfl
  | cons c w ih =>
    rw [List.cons_append, skipAllBlanks, if_pos (by simp [(isDelim_iff c).2 (h c (by simp))])]
    exact ih fun d hd => h d (by simp [hd])

theorem blockBegin_indent {w : List Char} (h : ∀ c ∈ w, Blank c) (s : List Char) : blockBegin (w ++ s) = blockBegin s := by
  rw [blockBegin.eq_def, blockBegin.eq_def]
  have e := skipAllBlanks_indent h s
  generalize skipAllBlanks (w ++ s) = p at e ⊢
  subst e
  rfl

theorem opsLoop_last {ty : NodeType} {cmd search : List Char} {block : Option (List Char)}
    (h : searchOutQuotes isOp search = none ∨ ∃ i, searchOutQuotes isOp search = some i ∧ search.drop i = []) :
    opsLoop ty cmd search block = .ok (some [(ty, cmd ++ search)]) := by
  rw [opsLoop.eq_def]
  split
  · rfl
  · next j hj =>
    rcases h with h | ⟨i, h, hd⟩
    · rw [h] at hj; cases hj
    · rw [h] at hj
      cases hj
      split
      · rfl
      · next h2 => rw [hd] at h2; cases h2

theorem opsLoop_step {ty : NodeType} {cmd search : List Char} {block : Option (List Char)} {i : Nat} {c : Char} {r : List Char}
    (h : searchOutQuotes isOp search = some i) (hd : search.drop i = c :: r) :
    opsLoop ty cmd search block =
      if pastBlock (c :: r) block then
        match blockEnd (block.getD []) with
        | .ok none => .ok none
        | .ok (some e) =>
          if e.length < search.length then
            opsLoop ty (cmd ++ search.take (search.length - e.length)) e (innerBegin (e.drop 1))
          else .hang
        | .ub => .ub
        | .hang => .hang
      else if c = '&' ∧ (cmd ++ search.take i).getLast? = some '>' then
        opsLoop ty (cmd ++ search.take i ++ [c]) r block
      else
        match opsLoop (opKind c r).1 [] (opKind c r).2 block with
        | .ok (some items) => .ok (some ((ty, cmd ++ search.take i) :: items))
        | .ok none => .ok none
        | .ub => .ub
        | .hang => .hang := by
  rw [opsLoop.eq_def]
  split
  · next hj => rw [h] at hj; cases hj
  · next j hj =>
    rw [h] at hj
    cases hj
    split
    · next h2 => rw [hd] at h2; cases h2
    · next h2 =>
      rw [hd] at h2
      cases h2
      rfl

theorem last_gt {w : List Char} (h : ∀ c ∈ w, Blank c) (x : List Char) : (w ++ x).getLast? = some '>' ↔ x.getLast? = some '>' := by
  cases x with
  | nil =>
    rw [List.append_nil]
    constructor
    · intro hx
      exact absurd rfl (blank_plain (h _ (List.mem_of_getLast? hx))).2.2.2.2.1
    · intro hx; cases hx
  | cons y x => simp [List.getLast?_append]

/-- Text in front of the first command. -/
theorem opsLoop_front {w : List Char} (h : ∀ c ∈ w, Blank c) : ∀ (n : Nat) (search : List Char), search.length ≤ n →
    ∀ (ty : NodeType) (cmd : List Char) (block : Option (List Char)) t c items,
      opsLoop ty cmd search block = .ok (some ((t, c) :: items)) →
      opsLoop ty (w ++ cmd) search block = .ok (some ((t, w ++ c) :: items)) := by
  intro n
  induction n with
  | zero =>
    intro search hn ty cmd block t c items he
    have : search = [] := List.length_eq_zero_iff.1 (by omega)
    subst this
    have hl : searchOutQuotes isOp [] = none ∨ ∃ i, searchOutQuotes isOp [] = some i ∧ ([] : List Char).drop i = [] := by
      cases hs : searchOutQuotes isOp [] with
      | none => exact .inl rfl
      | some i => exact .inr ⟨i, rfl, by simp⟩
    rw [opsLoop_last hl] at he ⊢
    cases he
    simp
  | succ n ih =>
    intro search hn ty cmd block t c items he
    cases hs : searchOutQuotes isOp search with
    | none =>
      rw [opsLoop_last (.inl hs)] at he ⊢
      cases he
      simp
    | some i =>
      cases hd : search.drop i with
      | nil =>
        rw [opsLoop_last (.inr ⟨i, hs, hd⟩)] at he ⊢
        cases he
        simp
      | cons d r =>
        have hlen := congrArg List.length hd
        simp only [List.length_drop, List.length_cons] at hlen
        rw [opsLoop_step hs hd] at he ⊢
        by_cases hp : pastBlock (d :: r) block = true
        · rw [if_pos hp] at he ⊢
          cases hbe : blockEnd (block.getD []) with
          | ok o =>
            cases o with
            | none => simp only [hbe] at he; cases he
            | some e =>
              simp only [hbe] at he ⊢
              by_cases hl : e.length < search.length
              · rw [if_pos hl] at he ⊢
                rw [List.append_assoc]
                exact ih e (by omega) _ _ _ _ _ _ he
              · rw [if_neg hl] at he; cases he
          | ub => simp only [hbe] at he; cases he
          | hang => simp only [hbe] at he; cases he
        · rw [if_neg hp] at he ⊢
          simp only [List.append_assoc, last_gt h] at he ⊢
          split at he
          · next hc =>
            rw [if_pos hc]
            exact ih r (by omega) _ _ _ _ _ _ he
          · next hc =>
            rw [if_neg hc]
            cases hx : opsLoop (opKind d r).1 [] (opKind d r).2 block with
            | ok o =>
              cases o with
              | none => rw [hx] at he; cases he
              | some y => rw [hx] at he; cases he; rfl
            | ub => rw [hx] at he; cases he
            | hang => rw [hx] at he; cases he

theorem opsLoop_indent {w : List Char} (h : ∀ c ∈ w, Blank c) {s : List Char} {block : Option (List Char)} (hb : ∀ b, block = some b → b.length ≤ s.length)
    (ty : NodeType) {x} (he : opsLoop ty [] s block = .ok (some x)) : opsLoop ty [] (w ++ s) block = opsLoop ty w s block := by
  have hs' := searchOutQuotes_indent (p := isOp) (by decide) (w := w) (fun c hc => ⟨(blank_plain (h c hc)).1, (blank_plain (h c hc)).2.1,
    (blank_plain (h c hc)).2.2.1⟩) s
  cases hs : searchOutQuotes isOp s with
  | none =>
    rw [hs] at hs'
    rw [opsLoop_last (.inl hs), opsLoop_last (.inl hs')]
    rfl
  | some i =>
    rw [hs] at hs'
    simp only [Option.map_some] at hs'
    have hd' : (w ++ s).drop (w.length + i) = s.drop i := by simp [List.drop_append]
    have ht' : (w ++ s).take (w.length + i) = w ++ s.take i := by simp [List.take_append, List.take_of_length_le]
    cases hd : s.drop i with
    | nil =>
      rw [opsLoop_last (.inr ⟨i, hs, hd⟩), opsLoop_last (.inr ⟨_, hs', by rw [hd', hd]⟩)]
      rfl
    | cons d r =>
      rw [opsLoop_step hs hd] at he
      rw [opsLoop_step hs hd, opsLoop_step hs' (by rw [hd', hd])]
      by_cases hp : pastBlock (d :: r) block = true
      · rw [if_pos hp] at he
        rw [if_pos hp, if_pos hp]
        cases heb : blockEnd (block.getD []) with
        | ub => simp only [heb] at he; cases he
        | hang => simp only [heb] at he; cases he
        | ok o =>
         cases o with
         | none => simp only [heb] at he; cases he
         | some e =>
          simp only [heb] at he ⊢
          have hl : e.length < s.length := by
            split at he
            · assumption
            · cases he
          rw [if_pos hl, if_pos (by simp; omega)]
          congr 1
          have : (w ++ s).length - e.length = w.length + (s.length - e.length) := by simp; omega
          rw [this]
          simp [List.take_append, List.take_of_length_le]
      · rw [if_neg hp, if_neg hp, ht']
        rfl

theorem parseOps_indent {w : List Char} (h : ∀ c ∈ w, Blank c) {s : List Char} {t c items} (he : parseOps s = .ok (some ((t, c) :: items))) :
    parseOps (w ++ s) = .ok (some ((t, w ++ c) :: items)) := by
  unfold parseOps at he ⊢
  rw [blockBegin_indent h, opsLoop_indent h (fun b hb => (blockBegin_suffix s b hb).1.length_le) _ he]
  have := opsLoop_front h _ s (Nat.le_refl _) _ _ _ _ _ _ he
  simpa using this

/-! ### Redirections -/

theorem parseOut_rest {ex : List Char → Res (List Char)} {full : List Char → List Char} {r : Streams} {final ch search : List Char}
    {block : Option (List Char)} (h : redirToken search = none ∨ redirToken search = some []) :
    parseOut ex full r final ch search block = .ok (some (r, final ++ ch)) := by
  rw [parseOut.eq_def]
  split
  · rfl
  · rfl
  · next h' => rcases h with h | h <;> rw [h] at h' <;> cases h'

theorem parseOut_step {ex : List Char → Res (List Char)} {full : List Char → List Char} {r : Streams} {final ch search : List Char}
    {block : Option (List Char)} {c : Char} {t : List Char} (h : redirToken search = some (c :: t)) :
    parseOut ex full r final ch search block =
    if pastBlock (c :: t) block then
      match blockEnd (block.getD []) with
      | .ok none => .ok none
      | .ok (some e) =>
        if blockRank (innerBegin (e.drop 1)) < blockRank block ∧ e.length < blockRank block then parseOut ex full r final ch e (innerBegin (e.drop 1))
        else .hang
      | .ub => .ub
      | .hang => .hang
    else if c = '2' ∧ t.take 3 = ['>', '&', '1'] then
      if r.merge ≠ .none then .ok none
      else parseOut ex full { r with merge := .errToOut } (final ++ upTo ch (c :: t)) (t.drop 3) (t.drop 3) block
    else if (c = '1' ∨ c = '2') ∧ t.take 3 = ['>', '&', '2'] then
      if r.merge ≠ .none then .ok none
      else parseOut ex full { r with merge := .outToErr } (final ++ upTo ch (c :: t)) (t.drop 3) (t.drop 3) block
    else if (c = '1' ∨ c = '2') ∧ t.head? ≠ some '>' then
      parseOut ex full r (final ++ upTo ch (c :: t) ++ [c]) t t block
    else if c = '<' then
      if r.input.isSome then .ok none
      else
        match nextParam redirDelims ex t with
        | .ok none => .ok none
        | .ok (some (p, rest)) =>
          if rest.length < (c :: t).length then
            parseOut ex full { r with input := some (full p) } (final ++ upTo ch (c :: t)) rest rest block
          else .hang
        | .ub => .ub
        | .hang => .hang
    else
      let t1 := if c = '>' then t else t.drop 1
      if c = '2' then
        if r.error.isSome then .ok none
        else
          match nextParam redirDelims ex (if t1.head? = some '>' then t1.drop 1 else t1) with
          | .ok none => .ok none
          | .ok (some (p, rest)) =>
            if rest.length < (c :: t).length then
              parseOut ex full { r with error := some (full p), errTrunc := decide (t1.head? ≠ some '>') } (final ++ upTo ch (c :: t))
                rest rest block
            else .hang
          | .ub => .ub
          | .hang => .hang
      else
        if r.output.isSome then .ok none
        else
          match nextParam redirDelims ex (if t1.head? = some '>' then t1.drop 1 else t1) with
          | .ok none => .ok none
          | .ok (some (p, rest)) =>
            if rest.length < (c :: t).length then
              parseOut ex full { r with output := some (full p), outTrunc := decide (t1.head? ≠ some '>') } (final ++ upTo ch (c :: t))
                rest rest block
            else .hang
          | .ub => .ub
          | .hang => .hang := by
  rw [parseOut.eq_def]
  split
  · next h' => rw [h] at h'; cases h'
  · next h' => rw [h] at h'; cases h'
  · next h' =>
    rw [h] at h'
    cases h'
    rfl

/-- Text in front of what has been copied and of what is left to copy. -/
theorem parseOut_front (ex : List Char → Res (List Char)) (full : List Char → List Char) (w : List Char) (k : Nat) :
    ∀ (r : Streams) (final ch search : List Char) (block : Option (List Char)),
    k = blockRank block * blockRank block + search.length → ∀ (final' ch' : List Char) (m : Nat),
    search.length ≤ m → blockRank block ≤ m + 1 → final' ++ ch' = w ++ (final ++ ch) →
    (∀ tok : List Char, tok.length ≤ m → final' ++ upTo ch' tok = w ++ (final ++ upTo ch tok)) →
    ∀ r' t, parseOut ex full r final ch search block = .ok (some (r', t)) →
      parseOut ex full r final' ch' search block = .ok (some (r', w ++ t)) := by
  induction k using Nat.strongRecOn with
  | ind k ih =>
    intro r final ch search block hk final' ch' m hm hb h1 h2 r' u he
    cases ht : redirToken search with
    | none =>
      rw [parseOut_rest (.inl ht)] at he ⊢
      cases he
      rw [h1]
    | some x =>
      cases x with
      | nil =>
        rw [parseOut_rest (.inr ht)] at he ⊢
        cases he
        rw [h1]
      | cons c t =>
        have htl := redirToken_length ht
        have e := h2 _ (Nat.le_trans htl hm)
        simp only [List.length_cons] at htl
        rw [parseOut_step ht] at he ⊢
        by_cases hA : pastBlock (c :: t) block = true
        · rw [if_pos hA] at he ⊢
          cases hx : blockEnd (block.getD []) with
          | ub => simp only [hx] at he; cases he
          | hang => simp only [hx] at he; cases he
          | ok o =>
            cases o with
            | none => simp only [hx] at he; cases he
            | some y =>
              simp only [hx] at he ⊢
              split at he
              · next hl =>
                rw [if_pos hl]
                exact ih _ (by rw [hk]; exact square_step hl) _ _ _ _ _ rfl _ _ m (by omega) (by omega) h1 h2 _ _ he
              · cases he
        rw [if_neg hA] at he ⊢
        by_cases hB : c = '2' ∧ t.take 3 = ['>', '&', '1']
        · rw [if_pos hB] at he ⊢
          split at he
          · cases he
          · next hl =>
            rw [if_neg hl]
            exact ih _ (by simp only [List.length_drop]; omega) _ _ _ _ _ rfl _ _ m (by simp only [List.length_drop]; omega) hb
              (by rw [e]; simp) (fun tok _ => by rw [e]; simp) _ _ he
        rw [if_neg hB] at he ⊢
        by_cases hC : (c = '1' ∨ c = '2') ∧ t.take 3 = ['>', '&', '2']
        · rw [if_pos hC] at he ⊢
          split at he
          · cases he
          · next hl =>
            rw [if_neg hl]
            exact ih _ (by simp only [List.length_drop]; omega) _ _ _ _ _ rfl _ _ m (by simp only [List.length_drop]; omega) hb
              (by rw [e]; simp) (fun tok _ => by rw [e]; simp) _ _ he
        rw [if_neg hC] at he ⊢
        by_cases hD : (c = '1' ∨ c = '2') ∧ t.head? ≠ some '>'
        · rw [if_pos hD] at he ⊢
          exact ih _ (by omega) _ _ _ _ _ rfl _ _ m (by omega) hb (by rw [e]; simp) (fun tok _ => by rw [e]; simp) _ _ he
        rw [if_neg hD] at he ⊢
        by_cases hE : c = '<'
        · rw [if_pos hE] at he ⊢
          split at he
          · cases he
          · next hi =>
            rw [if_neg hi]
            cases hx : nextParam redirDelims ex (t) with
            | ub => simp only [hx] at he; cases he
            | hang => simp only [hx] at he; cases he
            | ok o =>
              cases o with
              | none => simp only [hx] at he; cases he
              | some y =>
                obtain ⟨p, rest⟩ := y
                simp only [hx] at he ⊢
                split at he
                · next hl =>
                  rw [if_pos hl]
                  simp only [List.length_cons] at hl
                  exact ih _ (by omega) _ _ _ _ _ rfl _ _ m (by omega) hb (by rw [e]; simp) (fun tok _ => by rw [e]; simp) _ _ he
                · cases he
        rw [if_neg hE] at he ⊢
        simp only at he ⊢
        generalize (if c = '>' then t else t.drop 1) = t1 at he ⊢
        by_cases hF : c = '2'
        · rw [if_pos hF] at he ⊢
          split at he
          · cases he
          · next hi =>
            rw [if_neg hi]
            cases hx : nextParam redirDelims ex (if t1.head? = some '>' then t1.drop 1 else t1) with
            | ub => simp only [hx] at he; cases he
            | hang => simp only [hx] at he; cases he
            | ok o =>
              cases o with
              | none => simp only [hx] at he; cases he
              | some y =>
                obtain ⟨p, rest⟩ := y
                simp only [hx] at he ⊢
                split at he
                · next hl =>
                  rw [if_pos hl]
                  simp only [List.length_cons] at hl
                  exact ih _ (by omega) _ _ _ _ _ rfl _ _ m (by omega) hb (by rw [e]; simp) (fun tok _ => by rw [e]; simp) _ _ he
                · cases he
        · rw [if_neg hF] at he ⊢
          split at he
          · cases he
          · next hi =>
            rw [if_neg hi]
            cases hx : nextParam redirDelims ex (if t1.head? = some '>' then t1.drop 1 else t1) with
            | ub => simp only [hx] at he; cases he
            | hang => simp only [hx] at he; cases he
            | ok o =>
              cases o with
              | none => simp only [hx] at he; cases he
              | some y =>
                obtain ⟨p, rest⟩ := y
                simp only [hx] at he ⊢
                split at he
                · next hl =>
                  rw [if_pos hl]
                  simp only [List.length_cons] at hl
                  exact ih _ (by omega) _ _ _ _ _ rfl _ _ m (by omega) hb (by rw [e]; simp) (fun tok _ => by rw [e]; simp) _ _ he
                · cases he

theorem redirToken_indent {w : List Char} (h : ∀ c ∈ w, Blank c) (s : List Char) : redirToken (w ++ s) = redirToken s := by
  unfold redirToken
  rw [searchOutQuotes_indent (p := isRedir) (by decide) (w := w) (fun c hc => ⟨(blank_plain (h c hc)).1, (blank_plain (h c hc)).2.1,
    (blank_plain (h c hc)).2.2.2.1⟩) s]
  cases searchOutQuotes isRedir s with
  | none => rfl
  | some i => simp [List.drop_append]

theorem upTo_indent (w s tok : List Char) (h : tok.length ≤ s.length) : upTo (w ++ s) tok = w ++ upTo s tok := by
  unfold upTo
  rw [if_pos h, if_pos (by simp; omega)]
  have : (w ++ s).length - tok.length = w.length + (s.length - tok.length) := by simp; omega
  rw [this]
  simp [List.take_append, List.take_of_length_le]

theorem parseOutput_indent (ex : List Char → Res (List Char)) (full : List Char → List Char) {w : List Char} (h : ∀ c ∈ w, Blank c)
    {s : List Char} {r t} (he : parseOutput ex full s = .ok (some (r, t))) : parseOutput ex full (w ++ s) = .ok (some (r, w ++ t)) := by
  unfold parseOutput at he ⊢
  rw [blockBegin_indent h, parseOut_congr _ _ _ _ _ _ (redirToken_indent h s)]
  refine parseOut_front ex full w _ _ _ _ _ _ rfl _ _ s.length (Nat.le_refl _) ?_ (by simp) ?_ _ _ he
  · cases hb : blockBegin s with
    | none => simp [blockRank]
    | some b => have := (blockBegin_suffix s b hb).1.length_le; simp only [blockRank]; omega
  · intro tok htok
    simp [upTo_indent w s tok htok]

/-- Blanks and line feeds before a line belong to its first command and change nothing else. -/
theorem parseLine_indent (ex : List Char → Res (List Char)) (full : List Char → List Char) {w : List Char} (h : ∀ c ∈ w, Blank c)
    {s : List Char} {n r t l} (he : parseLine ex full s = .ok (some ((n, r, t) :: l))) :
    parseLine ex full (w ++ s) = .ok (some ((n, r, w ++ t) :: l)) := by
  unfold parseLine at he ⊢
  cases hp : parseOps s with
  | ub => simp [hp, bind, Res.bind] at he
  | hang => simp [hp, bind, Res.bind] at he
  | ok o =>
    cases o with
    | none => simp [hp, bind, Res.bind] at he
    | some items =>
      cases items with
      | nil => simp [hp, bind, Res.bind, outputs] at he
      | cons x items =>
        obtain ⟨ty, c⟩ := x
        rw [parseOps_indent h hp]
        simp only [hp, bind, Res.bind, outputs] at he ⊢
        cases ho : parseOutput ex full c with
        | ub => simp [ho] at he
        | hang => simp [ho] at he
        | ok o =>
          cases o with
          | none => simp [ho] at he
          | some y =>
            obtain ⟨r1, t1⟩ := y
            rw [parseOutput_indent ex full h ho]
            simp only [ho] at he ⊢
            cases hl : outputs ex full items with
            | ub => simp [hl] at he
            | hang => simp [hl] at he
            | ok o =>
              cases o with
              | none => simp [hl] at he
              | some l' =>
                simp only [hl] at he ⊢
                cases he
                rfl

end PBat
