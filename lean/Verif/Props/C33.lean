import Verif.Lemmas.Wild
/-
C33: wildcard patterns.
-/
namespace PBat
open Spec

theorem nextChar_ascii {c : Char} (h : c.toNat < 0x80) (r : List Char) : nextChar true (c :: r) = r := by
  show (if (true && decide (0x80 ≤ c.toNat)) = true then _ else _) = _
  rw [if_neg (by simp; omega)]

/-- A run of wildcards without `?` is a run of stars. -/
theorem run_stars {r : List Char} (h : '?' ∉ r.takeWhile isWild) : ∀ c ∈ r.takeWhile isWild, c = '*' := by
  intro c hc
  have hw : isWild c = true := by
    have := List.all_takeWhile (p := isWild) (l := r)
    exact List.all_eq_true.1 this c hc
  unfold isWild at hw
  rcases Bool.or_eq_true _ _ ▸ hw with h1 | h1
  · simpa using h1
  · have : c = '?' := by simpa using h1
    subst this
    exact absurd hc h

theorem lit_plain (r : List Char) : ∀ c ∈ r.takeWhile (!isWild ·), c ≠ '*' ∧ c ≠ '?' := by
  intro c hc
  have := List.all_eq_true.1 (List.all_takeWhile (p := (!isWild ·)) (l := r)) c hc
  unfold isWild at this
  simpa using this

theorem lit_ne {r : List Char} (h : r.dropWhile isWild ≠ []) : (r.dropWhile isWild).takeWhile (!isWild ·) ≠ [] := by
  have hh := List.head_dropWhile_not isWild h
  intro h0
  cases hd : r.dropWhile isWild with
  | nil => exact h hd
  | cons c t =>
    simp only [hd, List.head_cons] at hh
    rw [hd, List.takeWhile_cons, hh] at h0
    simp at h0

theorem wildMatch_star (ci utf8 : Bool) (r : List Char) (d : Char) (m : List Char) :
    wildMatch ci utf8 ('*' :: r) (d :: m) =
      if r.dropWhile isWild = [] then true
      else if (r.dropWhile isWild).dropWhile (!isWild ·) ≠ [] then
        match seekPattern ci ((r.dropWhile isWild).takeWhile (!isWild ·)) (d :: m) with
        | some m' => wildMatch ci utf8 ((r.dropWhile isWild).dropWhile (!isWild ·)) (m'.drop ((r.dropWhile isWild).takeWhile (!isWild ·)).length)
        | none => false
      else endWith ci (d :: m) (r.dropWhile isWild) := by
  rw [wildMatch.eq_def]
  simp only [show ¬ ('*' = '?') by decide, if_false, if_true]
  rfl

theorem head_star {r t : List Char} {x : Char} (h : (r.dropWhile isWild).dropWhile (!isWild ·) = x :: t) (hq : '?' ∉ r) : x = '*' := by
  have hh := List.head_dropWhile_not (!isWild ·) (l := r.dropWhile isWild) (by rw [h]; simp)
  simp only [h, List.head_cons, Bool.not_eq_false'] at hh
  unfold isWild at hh
  rcases Bool.or_eq_true _ _ ▸ hh with h1 | h1
  · simpa using h1
  · have : x = '?' := by simpa using h1
    subst this
    have : '?' ∈ r := (List.dropWhile_sublist _).mem ((List.dropWhile_sublist _).mem (h ▸ List.mem_cons_self))
    exact absurd this hq

/-- The pattern the code follows: a star at the end stands for a text that is not empty. -/
def strictEnd (p : List Char) : List Char := if p.getLast? = some '*' then p ++ ['?'] else p

theorem strictEnd_append {a b : List Char} (hb : b ≠ []) : strictEnd (a ++ b) = a ++ strictEnd b := by
  unfold strictEnd
  rw [List.getLast?_append]
  cases h : b.getLast? with
  | none => exact absurd (List.getLast?_eq_none_iff.1 h) hb
  | some c =>
    rw [Option.some_or]
    by_cases hc : c = '*'
    · rw [if_pos (by rw [hc]), if_pos (by rw [hc]), List.append_assoc]
    · rw [if_neg (by simp [hc]), if_neg (by simp [hc])]

/-- For every pattern of ASCII characters in which no `?` follows a `*`, and every name in UTF-8: the name matches iff it can be
obtained by replacing each `*` by any text and each `?` by one character, except that a `*` at the end of the pattern has to stand
for at least one character.  Missing: that exception (`C33_star_at_end`), `?` after `*` (`C33_question_after_star`, `C33_no_backtracking`),
and patterns with other characters (`C33_first_byte_only`). -/
theorem C33_match_partial (ci : Bool) (p : List Char) (hp : ∀ c ∈ p, c.toNat < 0x80) (hq : '?' ∉ p.dropWhile (· != '*'))
    (s : List (List Char)) (hs : ∀ g ∈ s, Glyph g) :
    wildMatch ci true p s.flatten = true ↔ Wild ci (if p.getLast? = some '*' then p ++ ['?'] else p) s := by
  show _ ↔ Wild ci (strictEnd p) s
  induction hn : p.length using Nat.strongRecOn generalizing p s with
  | ind n ih =>
  subst hn
  cases p with
  | nil =>
    rw [wildMatch.eq_def]
    constructor
    · intro h
      cases s with
      | nil => exact .nil
      | cons g s =>
        obtain ⟨c, l, rfl, -⟩ := glyph_head (hs g (by simp))
        simp at h
    · intro h
      cases h
      rfl
  | cons c r =>
    cases s with
    | nil =>
      rw [wildMatch.eq_def]
      simp only [List.flatten_nil, Bool.false_eq_true, false_iff]
      intro h
      have := wild_nil h
      unfold strictEnd at this
      split at this
      · exact absurd (this '?' (by simp)) (by decide)
      · rename_i hl
        have h1 : (c :: r).getLast? = some ((c :: r).getLast (by simp)) := List.getLast?_eq_some_getLast (by simp)
        rw [h1] at hl
        exact hl (by rw [this _ (List.getLast_mem _)])
    | cons g s =>
      have hg := hs g (by simp)
      have hs' : Glyphs s := fun g hg => hs g (by simp [hg])
      have hnext : nextChar true (g :: s).flatten = s.flatten := nextChar_glyph hg hs'
      obtain ⟨d, l, hgd, hfd, hfl, ha⟩ := glyph_head hg
      have hfl' : (g :: s).flatten = d :: (l ++ s.flatten) := by rw [hgd]; rfl
      have hp' : ∀ x ∈ r, x.toNat < 0x80 := fun x hx => hp x (by simp [hx])
      have hcons : ∀ x, r ≠ [] → strictEnd (x :: r) = x :: strictEnd r := fun x h => strictEnd_append (a := [x]) h
      have hone : ∀ x, x ≠ '*' → strictEnd (x :: r) = x :: strictEnd r := by
        intro x hx
        by_cases h : r = []
        · subst h; simp [strictEnd, hx]
        · exact hcons x h
      by_cases h1 : c = '?'
      · subst h1
        have hq' : '?' ∉ r.dropWhile (· != '*') := by simpa [List.dropWhile_cons] using hq
        rw [hone _ (by decide), hfl', wildMatch.eq_def]
        simp only [if_true]
        rw [← hfl', hnext, ih r.length (by simp) r hp' hq' s hs' rfl]
        exact ⟨.one, fun h => by
          cases h with
          | one h => exact h
          | char _ h2 _ _ => exact absurd rfl h2⟩
      · by_cases h2 : c = '*'
        · subst h2
          have hqr : '?' ∉ r := by simpa [List.dropWhile_cons] using hq
          have hst := run_stars (r := r) (fun h => hqr ((List.takeWhile_sublist _).mem h))
          rw [hfl', wildMatch_star]
          by_cases h3 : r.dropWhile isWild = []
          · rw [if_pos h3]
            have hall : ∀ x ∈ r, x = '*' := by
              have : r.takeWhile isWild = r := by
                conv => rhs; rw [← List.takeWhile_append_dropWhile (p := isWild) (l := r), h3, List.append_nil]
              rw [this] at hst; exact hst
            simp only [true_iff]
            have hse : strictEnd ('*' :: r) = '*' :: (r ++ ['?']) := by
              unfold strictEnd
              rw [if_pos]
              · rfl
              · rw [List.getLast?_eq_some_getLast (by simp)]
                congr 1
                rcases List.mem_cons.1 (List.getLast_mem (show '*' :: r ≠ [] by simp)) with h | h
                · exact h
                · exact hall _ h
            rw [hse, wild_stars hall, wild_star]
            exact ⟨(g :: s).dropLast, [(g :: s).getLast (by simp)], (List.dropLast_concat_getLast (by simp)).symm, .one .nil⟩
          · rw [if_neg h3]
            generalize hr' : r.dropWhile isWild = r' at h3
            have hrw : r = r.takeWhile isWild ++ r' := by rw [← hr', List.takeWhile_append_dropWhile]
            have hr'q : '?' ∉ r' := fun h => hqr ((List.dropWhile_sublist _).mem (hr' ▸ h))
            have hpr' : ∀ x ∈ r', x.toNat < 0x80 := fun x hx => hp' x ((List.dropWhile_sublist _).mem (hr' ▸ hx))
            have hlitne := lit_ne (r := r) (by rw [hr']; exact h3)
            rw [hr'] at hlitne
            have hlp := lit_plain r'
            have hsplit := List.takeWhile_append_dropWhile (p := (!isWild ·)) (l := r')
            have hpl : ∀ x ∈ r'.takeWhile (!isWild ·), x.toNat < 0x80 := fun x hx => hpr' x ((List.takeWhile_sublist _).mem hx)
            have hse : Wild ci (strictEnd ('*' :: r)) (g :: s) ↔ Wild ci ('*' :: strictEnd r') (g :: s) := by
              have : strictEnd ('*' :: r) = '*' :: (r.takeWhile isWild ++ strictEnd r') := by
                conv => lhs; rw [hrw]
                exact strictEnd_append (a := '*' :: r.takeWhile isWild) h3
              rw [this, wild_stars hst]
            rw [hse]
            by_cases h4 : r'.dropWhile (!isWild ·) = []
            · rw [if_neg (by simpa using h4)]
              have hlit : r'.takeWhile (!isWild ·) = r' := by rw [h4, List.append_nil] at hsplit; exact hsplit
              rw [hlit] at hlp
              have hse2 : strictEnd r' = r' := by
                unfold strictEnd
                rw [if_neg]
                intro h
                exact (hlp '*' (List.mem_of_getLast? h)).1 rfl
              rw [hse2, ← hfl', endWith_glyphs h3 hpr' hs, wild_star]
              constructor
              · rintro ⟨a, b, he, hb⟩
                refine ⟨a, b, he, ?_⟩
                have := (wild_lit (ci := ci) (l := r') (p := []) hlp (s := b)).2 ⟨[], hb, .nil⟩
                rwa [List.append_nil] at this
              · rintro ⟨a, b, he, hb⟩
                rw [← List.append_nil r'] at hb
                obtain ⟨r0, hr0, h0⟩ := (wild_lit hlp).1 hb
                cases h0
                exact ⟨a, b, he, hr0⟩
            · rw [if_pos (by simpa using h4)]
              generalize hrest : r'.dropWhile (!isWild ·) = rest at h4 hsplit ⊢
              generalize hlit : r'.takeWhile (!isWild ·) = lit at hlitne hlp hpl hsplit ⊢
              have hse2 : strictEnd r' = lit ++ strictEnd rest := by rw [← hsplit]; exact strictEnd_append h4
              have hprest : ∀ x ∈ rest, x.toNat < 0x80 := fun x hx => hpr' x (by rw [← hsplit]; simp [hx])
              have hqrest : '?' ∉ rest := fun h => hr'q (by rw [← hsplit]; simp [h])
              obtain ⟨t, hrt⟩ : ∃ t, rest = '*' :: t := by
                cases hrr : rest with
                | nil => exact absurd hrr h4
                | cons x t =>
                  refine ⟨t, ?_⟩
                  rw [head_star (r := r) (x := x) (t := t) (by rw [hr', hrest, hrr]) hqr]
              have hset : ∃ t', strictEnd rest = '*' :: t' := by
                rw [hrt]
                unfold strictEnd
                split
                · exact ⟨t ++ ['?'], rfl⟩
                · exact ⟨t, rfl⟩
              obtain ⟨t', ht'⟩ := hset
              have hih : ∀ b, Glyphs b → (wildMatch ci true rest b.flatten = true ↔ Wild ci (strictEnd rest) b) := by
                intro b hb
                refine ih rest.length ?_ rest hprest ?_ b hb rfl
                · have e1 := congrArg List.length hrw
                  have e2 := congrArg List.length hsplit
                  have e3 : lit.length ≠ 0 := fun h => hlitne (List.length_eq_zero_iff.1 h)
                  simp only [List.length_append, List.length_cons] at e1 e2 ⊢
                  omega
                · exact fun h => hqrest ((List.dropWhile_sublist _).mem h)
              rw [hse2, wild_star, ← hfl']
              rcases seek_glyphs (ci := ci) hlitne hpl hs with ⟨hnone, hno⟩ | ⟨a, b, r0, he, hr0, hsome, hmin⟩
              · rw [hnone]
                simp only [Bool.false_eq_true, false_iff]
                rintro ⟨a, b, he, hb⟩
                obtain ⟨r0, hr0, -⟩ := (wild_lit hlp).1 hb
                exact hno a b r0 he hr0
              · rw [hsome]
                simp only
                have hgb : Glyphs b := fun x hx => hs x (by rw [he]; simp [hx])
                rw [hr0.drop, hih r0 (hr0.glyphs hgb)]
                constructor
                · intro h
                  exact ⟨a, b, he, (wild_lit hlp).2 ⟨r0, hr0, h⟩⟩
                · rintro ⟨a', b', he', hb'⟩
                  obtain ⟨r1, hr1, h1'⟩ := (wild_lit hlp).1 hb'
                  obtain ⟨x, hx⟩ := hmin a' b' r1 he' hr1
                  rw [ht'] at h1' ⊢
                  obtain ⟨a2, b2, e2, h2'⟩ := wild_star.1 h1'
                  exact wild_star.2 ⟨x ++ a2, b2, by rw [hx, e2, List.append_assoc], h2'⟩
        · have hq' : '?' ∉ r.dropWhile (· != '*') := by simpa [List.dropWhile_cons, h2] using hq
          have hc := hp c (by simp)
          rw [hone _ h2, hfl', wildMatch.eq_def]
          simp only [h1, h2, if_false]
          rw [← hfl', hnext, nextChar_ascii hc]
          constructor
          · intro h
            split at h
            · rename_i hsame
              have hsl := (sameChar_iff _ _ _).1 hsame
              rw [hgd, ha (sameLetter_ascii hsl hc)]
              exact .char h2 h1 hsl ((ih r.length (by simp) r hp' hq' s hs' rfl).1 h)
            · cases h
          · intro h
            rw [hgd] at h
            cases h with
            | empty => exact absurd rfl h2
            | more => exact absurd rfl h2
            | one => exact absurd rfl h1
            | char _ _ h3 h4 =>
              rw [if_pos ((sameChar_iff _ _ _).2 h3)]
              exact (ih r.length (by simp) r hp' hq' s hs' rfl).2 h4

/-- Whatever the pattern of ASCII characters, provided `*` is never directly followed by `?`: a name reported to match does match. -/
theorem C33_sound_partial (ci : Bool) (p : List Char) (hp : ∀ c ∈ p, c.toNat < 0x80) (hq : ¬ ['*', '?'] <:+: p)
    (s : List (List Char)) (hs : ∀ g ∈ s, Glyph g) (h : wildMatch ci true p s.flatten = true) : Wild ci p s := by
  induction hn : p.length using Nat.strongRecOn generalizing p s with
  | ind n ih =>
  subst hn
  cases p with
  | nil =>
    rw [wildMatch.eq_def] at h
    cases s with
    | nil => exact .nil
    | cons g s =>
      obtain ⟨c, l, rfl, -⟩ := glyph_head (hs g (by simp))
      simp at h
  | cons c r =>
    cases s with
    | nil =>
      rw [wildMatch.eq_def] at h
      simp at h
    | cons g s =>
      have hg := hs g (by simp)
      have hs' : Glyphs s := fun g hg => hs g (by simp [hg])
      have hnext : nextChar true (g :: s).flatten = s.flatten := nextChar_glyph hg hs'
      obtain ⟨d, l, hgd, hfd, hfl, ha⟩ := glyph_head hg
      have hfl' : (g :: s).flatten = d :: (l ++ s.flatten) := by rw [hgd]; rfl
      have hp' : ∀ x ∈ r, x.toNat < 0x80 := fun x hx => hp x (by simp [hx])
      have hq' : ¬ ['*', '?'] <:+: r := fun hi => hq (hi.trans (List.suffix_cons _ _).isInfix)
      by_cases h1 : c = '?'
      · subst h1
        rw [hfl', wildMatch.eq_def] at h
        simp only [if_true] at h
        rw [← hfl', hnext] at h
        exact .one (ih r.length (by simp) r hp' hq' s hs' h rfl)
      · by_cases h2 : c = '*'
        · subst h2
          have hst : ∀ x ∈ r.takeWhile isWild, x = '*' := by
            have : ∀ t : List Char, ¬ ['*', '?'] <:+: '*' :: t → ∀ x ∈ t.takeWhile isWild, x = '*' := by
              intro t
              induction t with
              | nil => simp
              | cons y t iht =>
                intro hno x hx
                rw [List.takeWhile_cons] at hx
                split at hx
                · rename_i hw
                  have hy : y = '*' := by
                    unfold isWild at hw
                    rcases Bool.or_eq_true _ _ ▸ hw with h1 | h1
                    · simpa using h1
                    · have : y = '?' := by simpa using h1
                      subst this
                      exact absurd ⟨[], t, rfl⟩ hno
                  subst hy
                  rcases List.mem_cons.1 hx with rfl | hx
                  · rfl
                  · exact iht (fun hi => hno (hi.trans (List.suffix_cons _ _).isInfix)) x hx
                · simp at hx
            exact this r hq
          rw [hfl', wildMatch_star] at h
          have hrw : r = r.takeWhile isWild ++ r.dropWhile isWild := List.takeWhile_append_dropWhile.symm
          rw [hrw, wild_stars hst]
          by_cases h3 : r.dropWhile isWild = []
          · rw [h3]
            exact wild_star.2 ⟨g :: s, [], by simp, .nil⟩
          · rw [if_neg h3] at h
            have hlitne := lit_ne (r := r) h3
            generalize hr' : r.dropWhile isWild = r' at h3 h hlitne ⊢
            have hpr' : ∀ x ∈ r', x.toNat < 0x80 := fun x hx => hp' x ((List.dropWhile_sublist _).mem (hr' ▸ hx))
            have hlp := lit_plain r'
            have hsplit := List.takeWhile_append_dropWhile (p := (!isWild ·)) (l := r')
            have hpl : ∀ x ∈ r'.takeWhile (!isWild ·), x.toNat < 0x80 := fun x hx => hpr' x ((List.takeWhile_sublist _).mem hx)
            by_cases h4 : r'.dropWhile (!isWild ·) = []
            · rw [if_neg (by simpa using h4), ← hfl', endWith_glyphs h3 hpr' hs] at h
              obtain ⟨a, b, he, hb⟩ := h
              have hlit : r'.takeWhile (!isWild ·) = r' := by rw [h4, List.append_nil] at hsplit; exact hsplit
              rw [hlit] at hlp
              have := (wild_lit (ci := ci) (l := r') (p := []) hlp (s := b)).2 ⟨[], hb, .nil⟩
              rw [List.append_nil] at this
              exact wild_star.2 ⟨a, b, he, this⟩
            · rw [if_pos (by simpa using h4)] at h
              generalize hrest : r'.dropWhile (!isWild ·) = rest at h4 hsplit h
              generalize hlit : r'.takeWhile (!isWild ·) = lit at hlitne hlp hpl hsplit h
              rw [← hfl'] at h
              rcases seek_glyphs (ci := ci) hlitne hpl hs with ⟨hnone, -⟩ | ⟨a, b, r0, he, hr0, hsome, -⟩
              · rw [hnone] at h; cases h
              · rw [hsome] at h
                simp only at h
                have hgb : Glyphs b := fun x hx => hs x (by rw [he]; simp [hx])
                rw [hr0.drop] at h
                have hw := ih rest.length (by
                  have e1 := congrArg List.length hrw
                  have e2 := congrArg List.length hsplit
                  have e3 : lit.length ≠ 0 := fun h => hlitne (List.length_eq_zero_iff.1 h)
                  rw [hr'] at e1
                  simp only [List.length_append, List.length_cons] at e1 e2 ⊢
                  omega) rest (fun x hx => hpr' x (by rw [← hsplit]; simp [hx])) (by
                  intro hi
                  refine hq' (hi.trans ?_)
                  rw [hrw, hr', ← hsplit, ← List.append_assoc]
                  exact (List.suffix_append _ _).isInfix) r0 (hr0.glyphs hgb) h rfl
                rw [← hsplit]
                exact wild_star.2 ⟨a, b, he, (wild_lit hlp).2 ⟨r0, hr0, hw⟩⟩
        · have hc := hp c (by simp)
          rw [hfl', wildMatch.eq_def] at h
          simp only [h1, h2, if_false] at h
          rw [← hfl', hnext, nextChar_ascii hc] at h
          split at h
          · rename_i hsame
            have hsl := (sameChar_iff _ _ _).1 hsame
            rw [hgd, ha (sameLetter_ascii hsl hc)]
            exact .char h2 h1 hsl (ih r.length (by simp) r hp' hq' s hs' h rfl)
          · cases h

/-- Texts of ASCII characters as lists of characters. -/
theorem ascii_glyphs {s : List Char} (h : ∀ c ∈ s, c.toNat < 0x80) : (∀ g ∈ s.map ([·]), Glyph g) ∧ (s.map ([·])).flatten = s := by
  refine ⟨?_, by induction s with
    | nil => rfl
    | cons c s ih => simp [ih (fun x hx => h x (by simp [hx]))]⟩
  intro g hg
  obtain ⟨c, hc, rfl⟩ := List.mem_map.1 hg
  exact .inl ⟨c, rfl, h c hc⟩

/-- A `*` at the end matches no empty text: `a*` does not match `a`, for any text `a` without wildcards. -/
theorem C33_star_at_end (ci : Bool) (a : List Char) (ha : ∀ c ∈ a, c.toNat < 0x80 ∧ c ≠ '*' ∧ c ≠ '?') :
    wildMatch ci true (a ++ ['*']) a = false ∧ Wild ci (a ++ ['*']) (a.map ([·])) := by
  have hsame : ∀ b : List Char, LitAt ci b (b.map ([·])) [] := by
    intro b
    induction b with
    | nil => exact .nil
    | cons c b ih => exact .cons (.inl rfl) ih
  refine ⟨?_, (wild_lit (fun c hc => (ha c hc).2)).2 ⟨[], hsame a, .empty .nil⟩⟩
  rw [← Bool.not_eq_true]
  intro h
  obtain ⟨h1, h2⟩ := ascii_glyphs (s := a) (fun c hc => (ha c hc).1)
  have hdw : '?' ∉ (a ++ ['*']).dropWhile (· != '*') := by
    intro hm
    have := (List.dropWhile_sublist _).mem hm
    simp at this
    exact (ha '?' this).2.2 rfl
  have hw := C33_match_partial ci (a ++ ['*']) (by
    intro c hc
    rcases List.mem_append.1 hc with hc | hc
    · exact (ha c hc).1
    · rw [List.mem_singleton.1 hc]; decide) hdw (a.map ([·])) h1
  rw [h2] at hw
  have hw := hw.1 h
  rw [if_pos (by simp), List.append_assoc] at hw
  obtain ⟨r, hr, hw⟩ := (wild_lit (fun c hc => (ha c hc).2)).1 hw
  rw [hr.unique (hsame a)] at hw
  exact absurd (wild_nil hw '?' (by simp)) (by decide)

example : ∀ c ∈ "notes".toList, c.toNat < 0x80 ∧ c ≠ '*' ∧ c ≠ '?' := by decide

/-- A `?` next to a `*` stands for no character at all. -/
theorem C33_question_after_star : wildMatch false true "*?b".toList "b".toList = true ∧ ¬ Wild false "*?b".toList ["b".toList] := by
  refine ⟨by decide +kernel, ?_⟩
  intro h
  obtain ⟨a, b, he, h⟩ := wild_star.1 h
  have hl := congrArg List.length he
  cases h with
  | one h =>
    cases h with
    | char _ _ _ h =>
      simp at hl
      omega
  | char _ h _ _ => exact absurd rfl h

/-- After a `*` only the first place where the following text occurs is tried. -/
theorem C33_no_backtracking : wildMatch false true "*a?b".toList "a1aXb".toList = false ∧
    Wild false "*a?b".toList ("a1aXb".toList.map ([·])) := by
  refine ⟨by decide +kernel, wild_star.2 ⟨["a".toList, "1".toList], ["a".toList, "X".toList, "b".toList], rfl, ?_⟩⟩
  exact .char (by decide) (by decide) (.inl rfl) (.one (.char (by decide) (by decide) (.inl rfl) .nil))

/-- Characters written with several bytes are compared by their first byte only: `é` matches `è`. -/
theorem C33_first_byte_only : wildMatch false true [Char.ofNat 0xC3, Char.ofNat 0xA9] [Char.ofNat 0xC3, Char.ofNat 0xA8] = true := by
  decide +kernel

/-- Cases meeting the hypotheses: a matching and a non-matching name, one of them with a character of two bytes. -/
example : (∀ c ∈ "?o*.t*t".toList, c.toNat < 0x80) ∧ '?' ∉ "?o*.t*t".toList.dropWhile (· != '*') ∧ ¬ ['*', '?'] <:+: "?o*.t*t".toList ∧
    wildMatch true true "?o*.t*t".toList "NOTE.TXT".toList = true ∧ wildMatch false true "?o*.t*t".toList "NOTE.TXT".toList = false ∧
    wildMatch false true "?o*.t*t".toList (Char.ofNat 0xC3 :: Char.ofNat 0xA9 :: "o.txt".toList) = true := by
  refine ⟨by decide, by decide, by decide +kernel, by decide +kernel, by decide +kernel, by decide +kernel⟩

example : Glyph [Char.ofNat 0xC3, Char.ofNat 0xA9] := .inr ⟨_, _, rfl, by decide, by decide⟩

end PBat
