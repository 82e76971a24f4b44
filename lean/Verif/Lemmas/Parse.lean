import Verif.Model.Parse
import Verif.Spec.Parse
import Verif.Lemmas.Scan
namespace PBat
open Spec

/-- Operators as node types. -/
def nodeOf : Op → NodeType
  | .seq => .none
  | .and => .yes
  | .or => .not
  | .pipe => .pipe

/-- A specified split as a list of nodes. -/
def toItems (ty : NodeType) (x : List Char × List (Op × List Char)) : List (NodeType × List Char) :=
  (ty, x.1) :: x.2.map (fun p => (nodeOf p.1, p.2))

/-- `opKind` in terms of operators. -/
theorem opKind_spec {c : Char} (hc : isOp c = true) (r : List Char) :
    ∃ o : Op, (opKind c r).1 = nodeOf o ∧ c :: r = o.text ++ (opKind c r).2 := by
  have : c = '|' ∨ c = '&' := by simpa [isOp] using hc
  rcases this with rfl | rfl
  · unfold opKind
    rw [if_pos rfl]
    split
    · next h =>
      cases r with
      | nil => simp at h
      | cons d r => simp at h; subst h; exact ⟨.or, rfl, rfl⟩
    · exact ⟨.pipe, rfl, rfl⟩
  · unfold opKind
    rw [if_neg (by decide)]
    split
    · next h =>
      cases r with
      | nil => simp at h
      | cons d r => simp at h; subst h; exact ⟨.and, rfl, rfl⟩
    · exact ⟨.seq, rfl, rfl⟩

theorem searchOutQuotes_op {p : Char → Bool} {s : List Char} {i : Nat} (h : searchOutQuotes p s = some i) :
    ∃ c r, s.drop i = c :: r ∧ p c = true := by
  have hf := searchOutQuotes_spec p s
  rw [h] at hf
  obtain ⟨⟨⟨⟨c, hc, hp⟩, -⟩, -⟩, -⟩ := hf
  refine ⟨c, s.drop (i + 1), ?_, hp⟩
  obtain ⟨hi, he⟩ := List.getElem?_eq_some_iff.1 hc
  rw [List.drop_eq_getElem_cons hi, he]

theorem innerBegin_suffix {s b : List Char} (h : innerBegin s = some b) : b <:+ s ∧ b.head? = some '(' := by
  unfold innerBegin at h
  split at h
  · simp at h
  · split at h
    · next hi =>
      cases h
      exact ⟨List.drop_suffix _ _, by simpa [List.head?_drop] using hi⟩
    · simp at h

theorem skipAllBlanks_suffix (s : List Char) : skipAllBlanks s <:+ s := by
  induction s with
  | nil => exact List.nil_suffix
  | cons c s ih =>
    simp only [skipAllBlanks]
    split
    · exact ih.trans (List.suffix_cons c s)
    · exact List.suffix_refl _

theorem blockBegin_suffix (s : List Char) : ∀ b, blockBegin s = some b → b <:+ s ∧ b.head? = some '(' := by
  fun_induction blockBegin s with
  | case1 => simp
  | case2 => simp
  | case3 s p i h r h2 =>
    intro b hb
    cases hb
    refine ⟨?_, rfl⟩
    have : ('(' :: r) <:+ p := by rw [← h2]; exact List.drop_suffix _ _
    exact this.trans (skipAllBlanks_suffix s)
  | case4 s p i h c r h2 h3 h4 ih =>
    intro b hb
    obtain ⟨h5, h6⟩ := ih b hb
    refine ⟨?_, h6⟩
    have : (c :: r) <:+ p := by rw [← h2]; exact List.drop_suffix _ _
    exact (((h5.trans (List.drop_suffix _ _)).trans (List.suffix_cons c r)).trans this).trans (skipAllBlanks_suffix s)
  | case5 s p i h c r h2 h3 h4 ih =>
    intro b hb
    obtain ⟨h5, h6⟩ := ih b hb
    refine ⟨?_, h6⟩
    have : (c :: r) <:+ p := by rw [← h2]; exact List.drop_suffix _ _
    exact ((h5.trans (List.suffix_cons c r)).trans this).trans (skipAllBlanks_suffix s)

/-- The block pointer points to an opening parenthesis not yet passed. -/
def BlockInv (search : List Char) (block : Option (List Char)) : Prop :=
  ∀ b, block = some b → b <:+ search ∧ b.head? = some '('

theorem BlockInv_shorter {s t : List Char} {block : Option (List Char)} (h : BlockInv s block) (ht : t <:+ s)
    (hlt : ∀ b, block = some b → b.length ≤ t.length) : BlockInv t block := by
  intro b hb
  obtain ⟨h1, h2⟩ := h b hb
  exact ⟨List.suffix_of_suffix_length_le h1 ht (hlt b hb), h2⟩

theorem notPast {tok : List Char} {block : Option (List Char)} (h : ¬ pastBlock tok block = true) :
    ∀ b, block = some b → b.length < tok.length := by
  rintro b rfl
  simp [pastBlock] at h
  exact h

/-- The loop always ends, and what it returns, put back together, is the text it was given. -/
theorem opsLoop_spec : ∀ (n : Nat) (search : List Char), search.length ≤ n → ∀ (ty : NodeType) (cmd : List Char)
    (block : Option (List Char)), BlockInv search block →
    ∃ o, opsLoop ty cmd search block = .ok o ∧ ∀ items, o = some items →
      ∃ first more, items = toItems ty (first, more) ∧ written first more = cmd ++ search := by
  intro n
  induction n with
  | zero =>
    intro search hs ty cmd block _
    have : search = [] := List.length_eq_zero_iff.1 (by omega)
    subst this
    rw [opsLoop.eq_1]
    have h0 : searchOutQuotes isOp [] = none := by
      cases h : searchOutQuotes isOp [] with
      | none => rfl
      | some i => exact absurd (searchOutQuotes_lt h) (by simp)
    split
    · exact ⟨_, rfl, fun items h => by cases h; exact ⟨cmd, [], by simp [toItems], by simp [written]⟩⟩
    · next h => rw [h0] at h; exact absurd h (by simp)
  | succ n ih =>
    intro search hs ty cmd block hinv
    rw [opsLoop.eq_1]
    split
    · exact ⟨_, rfl, fun items h => by cases h; exact ⟨cmd ++ search, [], by simp [toItems], by simp [written]⟩⟩
    · next i hi =>
      obtain ⟨c', r', hd, hop⟩ := searchOutQuotes_op hi
      split
      · next h => rw [hd] at h; exact absurd h (by simp)
      · next c r h =>
        rw [hd] at h
        cases h
        have hsuf : (c' :: r') <:+ search := by rw [← hd]; exact List.drop_suffix _ _
        have hsplit : search.take i ++ c' :: r' = search := by rw [← hd, List.take_append_drop]
        have hlen : r'.length < search.length := by
          have := hsuf.length_le
          simp at this
          omega
        split
        · next hpast =>
          cases hb : block with
          | none => rw [hb] at hpast; simp [pastBlock] at hpast
          | some b =>
            obtain ⟨hb1, hb2⟩ := hinv b hb
            obtain ⟨o, ho, hp⟩ := blockEnd_total b
            simp only [Option.getD_some, ho]
            cases o with
            | none => exact ⟨none, rfl, by simp⟩
            | some e =>
              obtain ⟨he1, he2, -⟩ := hp e rfl
              have hes := he1.trans hb1
              have hlt : e.length < search.length := by
                have := hb1.length_le
                omega
              simp only [hlt, if_true]
              obtain ⟨o', ho', hp'⟩ := ih e (by omega) ty (cmd ++ search.take (search.length - e.length))
                (innerBegin (e.drop 1)) (by
                  intro b' hb'
                  obtain ⟨h1, h2⟩ := innerBegin_suffix hb'
                  exact ⟨h1.trans (List.drop_suffix _ _), h2⟩)
              refine ⟨o', ho', ?_⟩
              intro items hi
              obtain ⟨first, more, h1, h2⟩ := hp' items hi
              refine ⟨first, more, h1, ?_⟩
              obtain ⟨pre, hpre⟩ := hes
              rw [h2, List.append_assoc]
              congr 1
              rw [← hpre]
              simp
        · next hpast =>
          have hnp := notPast hpast
          split
          · obtain ⟨o', ho', hp'⟩ := ih r' (by omega) ty (cmd ++ search.take i ++ [c']) block
              (BlockInv_shorter hinv ((List.suffix_cons c' r').trans hsuf) (by
                intro b hb; have := hnp b hb; simp at this; omega))
            refine ⟨o', ho', ?_⟩
            intro items hi
            obtain ⟨first, more, h1, h2⟩ := hp' items hi
            refine ⟨first, more, h1, ?_⟩
            rw [h2, ← hsplit]
            simp [hsplit]
          · obtain ⟨op, hk1, hk2⟩ := opKind_spec hop r'
            have hksuf : (opKind c' r').2 <:+ search := by
              refine List.IsSuffix.trans ⟨op.text, ?_⟩ hsuf
              exact hk2.symm
            have hklen := opKind_length c' r'
            obtain ⟨o', ho', hp'⟩ := ih (opKind c' r').2 (by omega) (opKind c' r').1 [] block
              (BlockInv_shorter hinv hksuf (by
                intro b hb
                have h1 := hnp b hb
                obtain ⟨h2, h3⟩ := hinv b hb
                have h4 : b <:+ (c' :: r') := List.suffix_of_suffix_length_le h2 hsuf (by omega)
                rw [hk2] at h4
                rcases Nat.lt_or_ge (opKind c' r').2.length b.length with h5 | h5
                · exfalso
                  obtain ⟨pre, hpre⟩ := h4
                  have hl := congrArg List.length hpre
                  rw [hk2] at h1
                  simp only [List.length_append] at hl h1
                  have hpos : 0 < pre.length := by omega
                  -- the head of `b` is a character of the operator
                  have h6 : (op.text ++ (opKind c' r').2)[pre.length]? = some '(' := by
                    rw [← hpre, List.getElem?_append_right (Nat.le_refl _), Nat.sub_self, ← List.head?_eq_getElem?, h3]
                  rw [List.getElem?_append_left (by omega)] at h6
                  have := List.mem_of_getElem? h6
                  cases op <;> revert this <;> simp [Op.text]
                · exact h5))
            rw [ho']
            cases o' with
            | none => exact ⟨none, rfl, by simp⟩
            | some items =>
              obtain ⟨first, more, h1, h2⟩ := hp' items rfl
              refine ⟨_, rfl, ?_⟩
              intro items' h'
              cases h'
              refine ⟨cmd ++ search.take i, (op, first) :: more, ?_, ?_⟩
              · rw [h1, hk1]; rfl
              · have h2' : first ++ more.flatMap (fun p => p.1.text ++ p.2) = (opKind c' r').2 := by simpa [written] using h2
                simp only [written, List.flatMap_cons]
                rw [List.append_assoc, List.append_assoc, h2', ← hk2, hsplit]


/-! ### Lines without blocks -/

theorem splitLine_ne {c : Char} (hc : c ≠ '^') (quoted gt : Bool) (r : List Char) :
    splitLine quoted gt (c :: r) =
    if c = '"' then inFront [c] (splitLine (!quoted) false r)
    else if quoted then inFront [c] (splitLine quoted false r)
    else if c = '&' then
      if gt then inFront [c] (splitLine quoted false r)
      else match r with
        | '&' :: r' => newCmd .and (splitLine false false r')
        | r => newCmd .seq (splitLine false false r)
    else if c = '|' then
      match r with
        | '|' :: r' => newCmd .or (splitLine false false r')
        | r => newCmd .pipe (splitLine false false r)
    else inFront [c] (splitLine quoted (c == '>') r) := by
  rw [splitLine.eq_def]
  split
  · contradiction
  · next h => simp at h; exact absurd h.1 hc
  · next h => simp at h; exact absurd h.1 hc
  · next h => cases h; rfl

theorem inFront_inFront (a b : List Char) (x) : inFront a (inFront b x) = inFront (a ++ b) x := by
  simp [inFront]

theorem isOp_caret : isOp '^' = false := by decide

/-- No operator ahead: the rest is one command. -/
theorem splitLine_none : ∀ (n : Nat) (s : List Char), s.length ≤ n → ∀ quoted gt, outScan isOp quoted s = none →
    splitLine quoted gt s = (s, []) := by
  intro n
  induction n with
  | zero =>
    intro s hs quoted gt _
    have : s = [] := List.length_eq_zero_iff.1 (by omega)
    subst this
    rw [splitLine.eq_1]
  | succ n ih =>
    intro s hs quoted gt h
    cases s with
    | nil => rw [splitLine.eq_1]
    | cons c s =>
      by_cases hc : c = '^'
      · subst hc
        cases s with
        | nil => rw [splitLine.eq_2]
        | cons d s =>
          rw [outScan.eq_3, Option.map_eq_none_iff] at h
          rw [splitLine.eq_3, ih s (by simp at hs; omega) _ _ h]
          rfl
      · rw [outScan_ne hc] at h
        rw [splitLine_ne hc]
        have hs' : s.length ≤ n := by simp at hs; omega
        split at h
        · next hq =>
          rw [Option.map_eq_none_iff] at h
          rw [if_pos hq, ih s hs' _ _ h]
          rfl
        · next hq =>
          rw [if_neg hq]
          split at h
          · exact absurd h (by simp)
          · next hp =>
            rw [Option.map_eq_none_iff] at h
            split
            · rw [ih s hs' _ _ h]; rfl
            · next hquo =>
              have hno : ¬ isOp c = true := by
                intro h'
                apply hp
                simp [hquo, h']
              have h1 : c ≠ '&' := by rintro rfl; exact hno (by decide)
              have h2 : c ≠ '|' := by rintro rfl; exact hno (by decide)
              rw [if_neg h1, if_neg h2, ih s hs' _ _ h]
              rfl

/-- Up to the first operator the text is copied; `g` tells whether a `>` directly precedes it. -/
theorem splitLine_some : ∀ (n : Nat) (s : List Char), s.length ≤ n → ∀ quoted gt i c r, outScan isOp quoted s = some i →
    s.drop i = c :: r → ∃ g, splitLine quoted gt s = inFront (s.take i) (splitLine false g (c :: r)) ∧
      (i = 0 → g = gt) ∧ (0 < i → g = true → s[i - 1]? = some '>') ∧
      (0 < i → s[i - 1]? = some '>' → g = true ∨ ['^', '>', c] <:+: s) := by
  intro n
  induction n with
  | zero =>
    intro s hs quoted gt i c r h hd
    have : s = [] := List.length_eq_zero_iff.1 (by omega)
    subst this
    simp at hd
  | succ n ih =>
    intro s hs quoted gt i c r h hd
    cases s with
    | nil => simp at hd
    | cons a s =>
      by_cases ha : a = '^'
      · subst ha
        cases s with
        | nil => rw [outScan.eq_2] at h; exact absurd h (by simp)
        | cons d s =>
          rw [outScan.eq_3, Option.map_eq_some_iff] at h
          obtain ⟨j, hj, rfl⟩ := h
          have hd' : s.drop j = c :: r := by simpa using hd
          obtain ⟨g, h1, h2, h3, h4⟩ := ih s (by simp at hs; omega) quoted false j c r hj hd'
          refine ⟨g, ?_, by simp, ?_, ?_⟩
          · rw [splitLine.eq_3, h1, inFront_inFront]
            rfl
          · intro _ hg
            rcases Nat.eq_zero_or_pos j with rfl | hjp
            · rw [h2 rfl] at hg; exact absurd hg (by simp)
            · have := h3 hjp hg
              obtain ⟨k, rfl⟩ : ∃ k, j = k + 1 := ⟨j - 1, by omega⟩
              simpa using this
          · intro _ hgt
            rcases Nat.eq_zero_or_pos j with rfl | hjp
            · right
              simp at hgt
              simp at hd'
              exact ⟨[], r, by simp [hgt, hd']⟩
            · obtain ⟨k, rfl⟩ : ∃ k, j = k + 1 := ⟨j - 1, by omega⟩
              rcases h4 hjp (by simpa using hgt) with h5 | h5
              · exact .inl h5
              · exact .inr (h5.trans ⟨['^', d], [], by simp⟩)
      · rw [outScan_ne ha] at h
        have hs' : s.length ≤ n := by simp at hs; omega
        -- one ordinary character is passed
        have step : ∀ (q' g' : Bool), (g' = true → a = '>') → (a = '>' → g' = true ∨ q' = true) → ∀ j,
            outScan isOp q' s = some j → i = j + 1 →
            splitLine quoted gt (a :: s) = inFront [a] (splitLine q' g' s) →
            ∃ g, splitLine quoted gt (a :: s) = inFront ((a :: s).take i) (splitLine false g (c :: r)) ∧
              (i = 0 → g = gt) ∧ (0 < i → g = true → (a :: s)[i - 1]? = some '>') ∧
              (0 < i → (a :: s)[i - 1]? = some '>' → g = true ∨ ['^', '>', c] <:+: (a :: s)) := by
          intro q' g' hg1 hg2 j hj hij heq
          subst hij
          have hd' : s.drop j = c :: r := by simpa using hd
          obtain ⟨g, h1, h2, h3, h4⟩ := ih s hs' q' g' j c r hj hd'
          refine ⟨g, ?_, by simp, ?_, ?_⟩
          · rw [heq, h1, inFront_inFront]; rfl
          · intro _ hg
            rcases Nat.eq_zero_or_pos j with rfl | hjp
            · rw [h2 rfl] at hg
              simp [hg1 hg]
            · have := h3 hjp hg
              obtain ⟨k, rfl⟩ : ∃ k, j = k + 1 := ⟨j - 1, by omega⟩
              simpa using this
          · intro _ hgt
            rcases Nat.eq_zero_or_pos j with rfl | hjp
            · simp at hgt
              rcases hg2 hgt with h5 | h5
              · left; rw [h2 rfl, h5]
              · -- inside quotes the scan does not stop at the next character
                exfalso
                subst h5
                cases s with
                | nil => simp at hd'
                | cons b s =>
                  by_cases hb : b = '^'
                  · subst hb
                    cases s with
                    | nil => rw [outScan.eq_2] at hj; exact absurd hj (by simp)
                    | cons e s =>
                      rw [outScan.eq_3, Option.map_eq_some_iff] at hj
                      obtain ⟨k, -, hk⟩ := hj
                      omega
                  · rw [outScan_ne hb] at hj
                    split at hj
                    · rw [Option.map_eq_some_iff] at hj
                      obtain ⟨k, -, hk⟩ := hj
                      omega
                    · simp at hj
            · obtain ⟨k, rfl⟩ : ∃ k, j = k + 1 := ⟨j - 1, by omega⟩
              rcases h4 hjp (by simpa using hgt) with h5 | h5
              · exact .inl h5
              · exact .inr (h5.trans ⟨[a], [], by simp⟩)
        split at h
        · next hq =>
          rw [Option.map_eq_some_iff] at h
          obtain ⟨j, hj, rfl⟩ := h
          refine step (!quoted) false (by simp) ?_ j hj rfl ?_
          · intro h'; rw [hq] at h'; exact absurd h' (by decide)
          · rw [splitLine_ne ha, if_pos hq]
        · next hq =>
          split at h
          · next hp =>
            simp only [Bool.and_eq_true, Bool.not_eq_true'] at hp
            cases h
            simp at hd
            refine ⟨gt, ?_, by simp, by simp, by simp⟩
            rw [← hd.1, ← hd.2, hp.1]
            rfl
          · next hp =>
            rw [Option.map_eq_some_iff] at h
            obtain ⟨j, hj, rfl⟩ := h
            cases hquo : quoted with
            | true =>
              rw [hquo] at hj
              subst hquo
              refine step true false (by simp) (by simp) j hj rfl ?_
              rw [splitLine_ne ha, if_neg hq, if_pos rfl]
            | false =>
              rw [hquo] at hj
              subst hquo
              have hno : ¬ isOp a = true := by
                intro h'
                apply hp
                simp [h']
              have h1 : a ≠ '&' := by rintro rfl; exact hno (by decide)
              have h2 : a ≠ '|' := by rintro rfl; exact hno (by decide)
              refine step false (a == '>') (by simp) (by simp) j hj rfl ?_
              rw [splitLine_ne ha, if_neg hq, if_neg (by simp), if_neg h1, if_neg h2]

theorem splitLine_cut {c : Char} (hc : isOp c = true) {g : Bool} (hg : ¬ (c = '&' ∧ g = true)) (r : List Char) :
    ∃ o, (opKind c r).1 = nodeOf o ∧ splitLine false g (c :: r) = newCmd o (splitLine false false (opKind c r).2) := by
  have : c = '|' ∨ c = '&' := by simpa [isOp] using hc
  rcases this with rfl | rfl
  · rw [splitLine_ne (by decide), if_neg (by decide), if_neg (by decide), if_neg (by decide), if_pos rfl]
    unfold opKind
    rw [if_pos rfl]
    cases r with
    | nil => exact ⟨.pipe, rfl, rfl⟩
    | cons d r =>
      by_cases hd : d = '|'
      · subst hd; exact ⟨.or, rfl, rfl⟩
      · rw [if_neg (by simpa using hd)]
        refine ⟨.pipe, rfl, ?_⟩
        split
        · next h => simp at h; exact absurd h.1 hd
        · rfl
  · have hg : g = false := by
      cases g
      · rfl
      · exact absurd ⟨rfl, rfl⟩ hg
    subst hg
    rw [splitLine_ne (by decide), if_neg (by decide), if_neg (by decide), if_pos rfl, if_neg (by decide)]
    unfold opKind
    rw [if_neg (by decide)]
    cases r with
    | nil => exact ⟨.seq, rfl, rfl⟩
    | cons d r =>
      by_cases hd : d = '&'
      · subst hd; exact ⟨.and, rfl, rfl⟩
      · rw [if_neg (by simpa using hd)]
        refine ⟨.seq, rfl, ?_⟩
        split
        · next h => simp at h; exact absurd h.1 hd
        · rfl

theorem opsLoop_splitLine : ∀ (n : Nat) (s : List Char), s.length ≤ n → ∀ (ty : NodeType) (cmd : List Char),
    cmd.getLast? ≠ some '>' → ¬ ['^', '>', '&'] <:+: s →
    opsLoop ty cmd s none = .ok (some (toItems ty (inFront cmd (splitLine false false s)))) := by
  intro n
  induction n with
  | zero =>
    intro s hs ty cmd _ _
    have : s = [] := List.length_eq_zero_iff.1 (by omega)
    subst this
    rw [opsLoop.eq_1]
    split
    · rw [splitLine.eq_1]; simp [toItems, inFront]
    · next h => exact absurd (searchOutQuotes_lt h) (by simp)
  | succ n ih =>
    intro s hs ty cmd hcmd hinf
    rw [opsLoop.eq_1]
    split
    · next h =>
      rw [searchOutQuotes_scan _ isOp_caret] at h
      rw [splitLine_none s.length s (Nat.le_refl _) _ _ h]
      simp [toItems, inFront]
    · next i hi =>
      obtain ⟨c', r', hd, hop⟩ := searchOutQuotes_op hi
      split
      · next h => rw [hd] at h; exact absurd h (by simp)
      · next c r h =>
        rw [hd] at h
        cases h
        rw [searchOutQuotes_scan _ isOp_caret] at hi
        obtain ⟨g, h1, h2, h3, h4⟩ := splitLine_some s.length s (Nat.le_refl _) false false i c' r' hi hd
        have hsuf : (c' :: r') <:+ s := by rw [← hd]; exact List.drop_suffix _ _
        have hlen : r'.length ≤ n := by
          have := hsuf.length_le
          simp at this
          omega
        rw [if_neg (by simp [pastBlock])]
        -- the character before the operator
        have hlast : c' = '&' → ((cmd ++ s.take i).getLast? = some '>' ↔ g = true) := by
          rintro rfl
          rcases Nat.eq_zero_or_pos i with rfl | hip
          · rw [h2 rfl]
            simp [hcmd]
          · have hi' : i < s.length := by
              have := congrArg List.length hd
              simp at this
              omega
            have hl : (cmd ++ s.take i).getLast? = s[i - 1]? := by
              rw [List.getLast?_append, List.getLast?_eq_getElem?, List.length_take, Nat.min_eq_left (by omega),
                List.getElem?_take_of_lt (by omega), List.getElem?_eq_getElem (by omega)]
              rfl
            rw [hl]
            constructor
            · intro h'
              rcases h4 hip h' with h5 | h5
              · exact h5
              · exact absurd h5 hinf
            · exact h3 hip
        split
        · next hk =>
          obtain ⟨rfl, hk⟩ := hk
          have hg := (hlast rfl).1 hk
          subst hg
          rw [ih r' hlen ty _ (by simp) (fun h' => hinf (h'.trans ((List.suffix_cons '&' r').trans hsuf).isInfix)), h1,
            splitLine_ne (by decide), if_neg (by decide), if_neg (by decide), if_pos rfl, if_pos rfl, inFront_inFront,
            inFront_inFront]
        · next hk =>
          have hg : ¬ (c' = '&' ∧ g = true) := by
            rintro ⟨hc, hg⟩
            exact hk ⟨hc, (hlast hc).2 hg⟩
          obtain ⟨o, ho1, ho2⟩ := splitLine_cut hop hg r'
          obtain ⟨op, -, hk2⟩ := opKind_spec hop r'
          have hks : (opKind c' r').2 <:+ s := List.IsSuffix.trans ⟨op.text, hk2.symm⟩ hsuf
          rw [ih (opKind c' r').2 (Nat.le_trans (opKind_length c' r') hlen) _ [] (by simp)
            (fun h' => hinf (h'.trans hks.isInfix)), h1, ho1, ho2]
          simp [toItems, inFront, newCmd]

theorem blockBegin_none {s : List Char} (h : '(' ∉ s) : blockBegin s = none := by
  cases hb : blockBegin s with
  | none => rfl
  | some b =>
    obtain ⟨h1, h2⟩ := blockBegin_suffix s b hb
    exfalso
    apply h
    obtain ⟨pre, rfl⟩ := h1
    cases b with
    | nil => simp at h2
    | cons c b => simp at h2; simp [h2]

end PBat
