import Verif.Lemmas.Script
import Verif.Spec.Script
/-
Lemmas on `pBat_CheckBlocks`.
-/
namespace PBat
open Spec

/-- What the scanner does on a command outside blocks. -/
def TopOk (g : Bool) (l : List Char) : Prop :=
  ∀ c : Char, c = '&' ∨ c = '|' ∨ c = '\n' ∨ g = true → ∀ rest : List Char, lineEnd false (l ++ c :: rest) = .ok (some (c :: rest))

/-- The same for IF, FOR and DEF. -/
def TopClauseOk (t : List Char) : Prop :=
  ∀ c : Char, c = '&' ∨ c = '|' ∨ c = '\n' → ∀ rest : List Char, clauseEnd false (t ++ c :: rest) = .ok (some (c :: rest))

theorem lineStop_struct (c : Char) (h : lineStop false c = true) : Struct c = true ∧ Stop c = true := by
  simp only [lineStop, Bool.or_eq_true, beq_iff_eq, Bool.and_eq_true, Bool.false_eq_true, false_and, or_false] at h
  rcases h with rfl | rfl <;> decide

theorem clauseStop_struct (c : Char) (h : clauseStop false c = true) : Struct c = true := by
  simp only [clauseStop, lineStop, Bool.or_eq_true, beq_iff_eq, Bool.and_eq_true, Bool.false_eq_true, false_and, or_false] at h
  rcases h with rfl | rfl | rfl <;> decide

theorem top_group {strict : Bool} {w b : List Char} (hw : ∀ c ∈ w, Margin c) (hb : Body strict b) :
    TopOk true (w ++ '(' :: (b ++ [')'])) := by
  intro c _ rest
  have h1 := blockEnd_body hb (c :: rest)
  rw [List.append_assoc, lineEnd_margin hw]
  have := lineEnd_group (par := false) h1
  simpa using this

theorem top_plain {strict : Bool} {w t : List Char} (hw : ∀ c ∈ w, Margin c)
    (ht : ∀ c, t.head? = some c → ¬ Margin c ∧ c ≠ '(') (hk : ¬ BlockWord (t ++ ['\n']))
    (hcl : Closed (if strict then Struct else Stop) t) : TopOk false (w ++ t) := by
  intro c hc rest
  have hc : c = '&' ∨ c = '|' ∨ c = '\n' := by simpa using hc
  rw [List.append_assoc, lineEnd_margin hw]
  have hcl' : Closed (lineStop false) t := by
    refine hcl.mono (fun c h => ?_)
    have := lineStop_struct c h
    cases strict
    · exact this.2
    · exact this.1
  have hy := hcl'.hybridTo (by decide) (by decide) (c := c) (by rcases hc with rfl | rfl | rfl <;> decide) rest
  have hk' := BlockWord_cut hk (c := c) (by rcases hc with rfl | rfl | rfl <;> simp) rest
  cases t with
  | nil =>
    rw [List.nil_append] at hy hk' ⊢
    have hm : ¬ Margin c := by rcases hc with rfl | rfl | rfl <;> (unfold Margin Blank; decide)
    have hp : c ≠ '(' := by rcases hc with rfl | rfl | rfl <;> decide
    rw [lineEnd_plain hm hp hk', hy]
  | cons d t =>
    have := ht d rfl
    rw [List.cons_append] at hy hk' ⊢
    rw [lineEnd_plain this.1 this.2 hk', hy]

theorem top_clause {t : List Char} {strict : Bool} (h : Clause strict t) : TopClauseOk t := by
  refine Clause.rec (motive_1 := fun _ _ => True) (motive_2 := fun _ _ _ => True) (motive_3 := fun t _ => TopClauseOk t)
    (fun _ _ => trivial) (fun _ _ _ _ _ => trivial) (fun _ _ _ => trivial) (fun _ _ _ _ => trivial) (fun _ _ _ _ => trivial)
    ?_ ?_ h
  · intro t ht c hc rest
    have h1 := (ht.mono clauseStop_struct).hybridTo (by decide) (by decide) (c := c)
      (by rcases hc with rfl | rfl | rfl <;> decide) rest
    exact clauseEnd_text h1 (by rcases hc with rfl | rfl | rfl <;> decide)
  · intro t b k ht hb _ _ ihk c hc rest
    have h1 := (ht.mono clauseStop_struct).hybridTo (by decide) (by decide) (c := '(') (.inl (by decide))
      (b ++ ')' :: (k ++ c :: rest))
    have h2 := blockEnd_body hb (k ++ c :: rest)
    have h3 := ihk c hc rest
    have e : t ++ '(' :: (b ++ ')' :: k) ++ c :: rest = t ++ '(' :: (b ++ ')' :: (k ++ c :: rest)) := by simp
    rw [e, clauseEnd_block h1 h2 (by simp) (by simp; omega)]
    exact h3

theorem top_line {strict g : Bool} {l : List Char} (h : Line strict g l) : TopOk g l := by
  cases h with
  | group hw hb => exact top_group hw hb
  | plain hw ht hk hcl => exact top_plain hw ht hk hcl
  | @clause w t hw hk ht =>
    intro c hc rest
    have hc : c = '&' ∨ c = '|' ∨ c = '\n' := by simpa using hc
    rw [List.append_assoc, lineEnd_margin hw]
    have h1 := top_clause ht c hc rest
    rcases t with _ | ⟨d, r⟩
    · obtain ⟨k, b, r', h1, -⟩ := hk
      simp at h1
    · have hh := blockWord_head hk
      rw [List.cons_append]
      rw [lineEnd_clause hh.1 hh.2 (by have := BlockWord_append hk (c :: rest); simpa using this)]
      exact h1

/-- Where the loop of `pBat_CheckBlocks` starts. -/
def afterOp : List Char → List Char
  | c :: r => if c = '|' ∨ c = '&' then r else c :: r
  | [] => []

theorem afterOp_suffix (s : List Char) : afterOp s <:+ s := by
  cases s with
  | nil => exact List.suffix_refl _
  | cons c r =>
    simp only [afterOp]
    split
    · exact List.suffix_cons c r
    · exact List.suffix_refl _

theorem checkBlocks_eq (s : List Char) : checkBlocks s =
    match lineEnd false (afterOp s) with
    | .ok none => .ok none
    | .ok (some []) => .ok (some false)
    | .ok (some (c :: r)) =>
      if c = '\n' then .ok (some true) else if (c :: r).length < s.length then checkBlocks (c :: r) else .hang
    | .ub => .ub
    | .hang => .hang := by
  rw [checkBlocks.eq_def]
  cases s with
  | nil => rfl
  | cons c r => rfl

/-- The position found is a line feed or lies further on. -/
theorem afterOp_progress {s : List Char} {c : Char} {r : List Char} (h : lineEnd false (afterOp s) = .ok (some (c :: r))) :
    c = '\n' ∨ (c :: r).length < s.length := by
  obtain ⟨o, ho, hp⟩ := lineEnd_total false (afterOp s)
  rw [h] at ho
  cases ho
  have hs := hp _ rfl
  have hle : (c :: r).length ≤ s.length := (hs.trans (afterOp_suffix s)).length_le
  by_cases hlt : (c :: r).length < s.length
  · exact .inr hlt
  · left
    have heq : (c :: r) = s := (hs.trans (afterOp_suffix s)).eq_of_length (by omega)
    have hop : ¬ (c = '|' ∨ c = '&') := by
      intro hc
      have : afterOp s = r := by rw [← heq]; simp [afterOp, hc]
      rw [this] at hs
      have := hs.length_le
      simp at this
      omega
    have ha : afterOp s = c :: r := by rw [← heq]; simp [afterOp, hop]
    rw [ha, lineEnd.eq_1] at h
    split at h
    · cases h
    · next d x hd =>
      have hsl : (d :: x).length ≤ (c :: r).length := by rw [← hd]; exact skipLineBlanks_length _
      split at h
      · split at h
        · next t ht =>
          have h4 : t.drop 1 = c :: r := by injection h with h; injection h
          obtain ⟨o, ho, hp⟩ := blockEnd_total (d :: x)
          rw [ht] at ho
          cases ho
          have h3 := (hp _ rfl).2.1
          have h4 := congrArg List.length h4
          simp only [List.length_drop, List.length_cons] at h3 h4 hsl
          omega
        · cases h
        · cases h
        · cases h
      · next hpar =>
        split at h
        · rw [clauseEnd.eq_1] at h
          split at h
          · cases h
          · next e y he =>
            have hch := hybridTo_char he
            have hel : (e :: y).length ≤ (d :: x).length := by rw [← he]; exact hybridTo_length _ _
            split at h
            · split at h
              · next d' r' hbe =>
                split at h
                · split at h
                  · cases h
                  · split at h
                    · next hlt' =>
                      obtain ⟨o, ho, hp⟩ := (scan_total r'.length r' (Nat.le_refl _)).2.1 false
                      rw [h] at ho
                      cases ho
                      have := (hp _ rfl).length_le
                      simp only [List.length_cons] at *
                      omega
                    · cases h
                · cases h
              · cases h
              · cases h
              · cases h
            · next he' =>
              cases h
              rcases hch.2 with h | h
              · exact h
              · simp only [clauseStop, lineStop, Bool.or_eq_true, beq_iff_eq, Bool.and_eq_true, Bool.false_eq_true,
                  false_and, or_false] at h
                rcases h with h | h | h
                · exact absurd h he'
                · exact absurd (.inr h) hop
                · exact absurd (.inl h) hop
        · cases hy : hybridTo (lineStop false) (d :: x) with
          | nil => rw [hy] at h; cases h
          | cons e y =>
            rw [hy] at h
            cases h
            rcases (hybridTo_char hy).2 with h | h
            · exact h
            · simp only [lineStop, Bool.or_eq_true, beq_iff_eq, Bool.and_eq_true, Bool.false_eq_true,
                  false_and, or_false] at h
              exact absurd h.symm hop

/-- The loop ends on every text. -/
theorem checkBlocks_total (s : List Char) : ∃ o, checkBlocks s = .ok o := by
  generalize hn : s.length = n
  induction n using Nat.strongRecOn generalizing s with
  | _ n ih =>
    rw [checkBlocks_eq]
    obtain ⟨o, ho, hp⟩ := lineEnd_total false (afterOp s)
    rw [ho]
    match o, ho with
    | none, _ => exact ⟨_, rfl⟩
    | some [], _ => exact ⟨_, rfl⟩
    | some (c :: r), ho =>
      simp only
      split
      · exact ⟨_, rfl⟩
      · next hc =>
        have hlt := (afterOp_progress ho).resolve_left hc
        rw [if_pos hlt]
        exact ih _ (by omega) _ rfl

/-- The line feed where the loop of `pBat_CheckBlocks` ends, from the first position of a command on. -/
inductive FeedAt : List Char → List Char → Prop
  | here {p r} : lineEnd false p = .ok (some ('\n' :: r)) → FeedAt p ('\n' :: r)
  | next {p c r t} : lineEnd false p = .ok (some (c :: r)) → c ≠ '\n' → FeedAt (afterOp (c :: r)) t → FeedAt p t

theorem FeedAt.ne_nil {p t : List Char} (h : FeedAt p t) : t ≠ [] := by
  induction h with
  | here => simp
  | next _ _ _ ih => exact ih

theorem FeedAt.unique {p t t' : List Char} (h : FeedAt p t) (h' : FeedAt p t') : t = t' := by
  induction h with
  | here h =>
    cases h' with
    | here h2 => rw [h] at h2; cases h2; rfl
    | next h2 hc => rw [h] at h2; cases h2; exact absurd rfl hc
  | next h hc _ ih =>
    cases h' with
    | here h2 => rw [h] at h2; cases h2; exact absurd rfl hc
    | next h2 _ h3 => rw [h] at h2; cases h2; exact ih h3

theorem FeedAt.extend {p t : List Char} (h : FeedAt p t) (u : List Char) : FeedAt (p ++ u) (t ++ u) := by
  induction h with
  | here h =>
    refine .here ?_
    exact lineEnd_extend (by simp) h u
  | @next p c r t h hc _ ih =>
    refine .next (c := c) (r := r ++ u) ?_ hc ?_
    · have := lineEnd_extend (by simp) h u
      exact this
    · have : afterOp (c :: (r ++ u)) = afterOp (c :: r) ++ u := by
        simp only [afterOp]
        split <;> rfl
      rw [this]
      exact ih

theorem checkBlocks_true (s : List Char) : checkBlocks s = .ok (some true) ↔ ∃ t, FeedAt (afterOp s) t := by
  generalize hn : s.length = n
  induction n using Nat.strongRecOn generalizing s with
  | _ n ih =>
    rw [checkBlocks_eq]
    obtain ⟨o, ho, hp⟩ := lineEnd_total false (afterOp s)
    rw [ho]
    match o, ho with
    | none, ho =>
      constructor
      · intro h; cases h
      · rintro ⟨t, ht⟩
        cases ht with
        | here h => rw [ho] at h; cases h
        | next h => rw [ho] at h; cases h
    | some [], ho =>
      constructor
      · intro h; cases h
      · rintro ⟨t, ht⟩
        cases ht with
        | here h => rw [ho] at h; cases h
        | next h => rw [ho] at h; cases h
    | some (c :: r), ho =>
      simp only
      by_cases hc : c = '\n'
      · subst hc
        rw [if_pos rfl]
        exact ⟨fun _ => ⟨_, .here ho⟩, fun _ => rfl⟩
      · have hlt := (afterOp_progress ho).resolve_left hc
        rw [if_neg hc, if_pos hlt, ih _ (by omega) _ rfl]
        constructor
        · rintro ⟨t, ht⟩
          exact ⟨t, .next ho hc ht⟩
        · rintro ⟨t, ht⟩
          cases ht with
          | here h => rw [ho] at h; cases h; exact absurd rfl hc
          | next h _ h3 => rw [ho] at h; cases h; exact ⟨t, h3⟩

theorem FeedAt.margin {c : Char} (hc : Margin c) {x t : List Char} (h : FeedAt x t) : FeedAt (c :: x) t := by
  have e : lineEnd false (c :: x) = lineEnd false x := lineEnd_margin (w := [c]) (by simpa using hc) x
  cases h with
  | here h => exact .here (e.trans h)
  | next h h2 h3 => exact .next (e.trans h) h2 h3

theorem margin_not_op {c : Char} (h : Margin c) : ¬ (c = '|' ∨ c = '&') := by
  rcases h with ⟨rfl | rfl | rfl | rfl | rfl, -⟩ | rfl <;> decide

theorem whole_feed {strict : Bool} {w : List Char} (h : Whole strict w) (rest : List Char) :
    FeedAt (w ++ '\n' :: rest) ('\n' :: rest) := by
  induction h with
  | last hl => exact .here (top_line hl '\n' (by simp) rest)
  | @cons g l c b hl hc _ ih =>
    rw [List.append_assoc, List.cons_append]
    have h1 := top_line hl c (by grind) (b ++ '\n' :: rest)
    have hcn : c ≠ '\n' := by
      rcases hc with rfl | rfl | ⟨-, hm⟩
      · decide
      · decide
      · rcases hm with ⟨-, h⟩ | rfl
        · exact h
        · decide
    refine .next h1 hcn ?_
    by_cases hop : c = '|' ∨ c = '&'
    · simp only [afterOp, if_pos hop]
      exact ih
    · simp only [afterOp, if_neg hop]
      exact .margin (by grind) ih

theorem line_head {strict g : Bool} {l : List Char} (h : Line strict g l) {c : Char} (hc : l.head? = some c) :
    ¬ (c = '|' ∨ c = '&') := by
  have hmar : ∀ {w t : List Char}, (∀ c ∈ w, Margin c) → (w ++ t).head? = some c → Margin c ∨ t.head? = some c := by
    intro w t hw h
    cases w with
    | nil => exact .inr h
    | cons d w => simp at h; subst h; exact .inl (hw _ (by simp))
  cases h with
  | group hw _ =>
    rcases hmar hw hc with h | h
    · exact margin_not_op h
    · simp at h; subst h; decide
  | @plain w t hw _ _ hcl =>
    rcases hmar hw hc with h | h
    · exact margin_not_op h
    · intro hop
      cases t with
      | nil => cases h
      | cons d t =>
        simp at h
        subst h
        refine hcl.none 0 ⟨⟨⟨d, rfl, ?_⟩, by simp [Free, caretsBefore]⟩, by simp [quotesBefore], ?_⟩
        · cases strict <;> rcases hop with rfl | rfl <;> decide
        · rintro ⟨h, -⟩
          rcases hop with rfl | rfl <;> simp at h
  | @clause w t hw hk _ =>
    rcases hmar hw hc with h | h
    · exact margin_not_op h
    · obtain ⟨k, b, r, rfl, -, h3⟩ := hk
      cases k with
      | nil => rcases h3 with h3 | h3 | h3 <;> simp at h3
      | cons x k =>
        simp at h
        subst h
        rintro (rfl | rfl) <;> rcases h3 with h3 | h3 | h3 <;> simp at h3 <;> revert h3 <;> decide

theorem whole_feed' {strict : Bool} {w : List Char} (h : Whole strict w) (rest : List Char) :
    FeedAt (afterOp (w ++ '\n' :: rest)) ('\n' :: rest) := by
  have key : (∃ c x, w = c :: x ∧ (c = '|' ∨ c = '&') ∧ Whole strict x) ∨ afterOp (w ++ '\n' :: rest) = w ++ '\n' :: rest := by
    cases w with
    | nil => right; simp [afterOp]
    | cons c x =>
      by_cases hop : c = '|' ∨ c = '&'
      · left
        refine ⟨c, x, rfl, hop, ?_⟩
        generalize hw : c :: x = w at h
        cases h with
        | last hl => exact absurd hop (line_head hl (by rw [← hw]; rfl))
        | @cons g l d b hl hd hb =>
          cases l with
          | nil => simp at hw; rw [hw.2]; exact hb
          | cons e l => simp at hw; rw [hw.1] at hop; exact absurd hop (line_head hl rfl)
      · right
        simp [afterOp, hop]
  rcases key with ⟨c, x, rfl, hop, hx⟩ | h'
  · simp only [List.cons_append, afterOp, if_pos hop]
    exact whole_feed hx rest
  · rw [h']
    exact whole_feed h rest

/-- A whole command line followed by a line feed is complete. -/
theorem checkBlocks_whole {strict : Bool} {w : List Char} (h : Whole strict w) (rest : List Char) :
    checkBlocks (w ++ '\n' :: rest) = .ok (some true) := (checkBlocks_true _).2 ⟨_, whole_feed' h rest⟩

/-- No part of it is, that does not reach its final line feed. -/
theorem checkBlocks_part {strict : Bool} {p v : List Char} (h : Whole strict (p ++ v)) : checkBlocks p ≠ .ok (some true) := by
  intro hp
  obtain ⟨t, ht⟩ := (checkBlocks_true _).1 hp
  have h1 := whole_feed' h []
  have h2 := ht.extend (v ++ ['\n'])
  have hne : p ≠ [] := by
    rintro rfl
    have := ht.ne_nil
    cases ht with
    | here h => simp [afterOp, lineEnd.eq_1, skipLineBlanks] at h
    | next h => simp [afterOp, lineEnd.eq_1, skipLineBlanks] at h
  have ha : afterOp (p ++ v ++ ['\n']) = afterOp p ++ (v ++ ['\n']) := by
    cases p with
    | nil => exact absurd rfl hne
    | cons c r => simp only [List.cons_append, List.append_assoc, afterOp]; split <;> rfl
  rw [ha] at h1
  have := congrArg List.length (h2.unique h1)
  have := List.length_pos_iff.2 ht.ne_nil
  simp at *
  omega

end PBat
