import Verif.Model.Block
import Verif.Spec.Block
import Verif.Lemmas.Args
namespace PBat
open Spec

theorem QuoteAt_prefix {x : List Char} (y : List Char) {i : Nat} (h : i < x.length) : QuoteAt (x ++ y) i ↔ QuoteAt x i := by
  rw [← Hit_quote, ← Hit_quote, Hit_prefix _ _ _ _ h]

theorem quotesBefore_prefix (x y : List Char) : ∀ i, i ≤ x.length → quotesBefore (x ++ y) i = quotesBefore x i := by
  intro i
  induction i with
  | zero => intro _; rfl
  | succ i ih =>
    intro h
    rw [quotesBefore_succ, quotesBefore_succ, ih (by omega)]
    congr 1
    simp only [QuoteAt_prefix y (show i < x.length by omega)]

theorem OutQuotes_prefix {x : List Char} (y : List Char) {i : Nat} (h : i < x.length) :
    OutQuotes (x ++ y) i ↔ OutQuotes x i := by
  unfold OutQuotes
  rw [quotesBefore_prefix x y i (by omega), QuoteAt_prefix y h]

theorem Free_at {x : List Char} (y : List Char) (h : Free x x.length) : Free (x ++ y) x.length := by
  rw [Free_prefix]; exact h

theorem Spec.Closed.mono {p q : Char → Bool} (hpq : ∀ c, q c = true → p c = true) {s : List Char} (h : Closed p s) :
    Closed q s := by
  refine ⟨?_, h.line, h.even, h.free⟩
  rintro i ⟨⟨⟨c, hc, hq⟩, hf⟩, ho⟩
  exact h.none i ⟨⟨⟨c, hc, hpq c hq⟩, hf⟩, ho⟩

theorem Spec.Closed.outHit {p : Char → Bool} {s : List Char} (h : Closed p s) {c : Char} (hq : c ≠ '"') (hp : p c = true)
    (rest : List Char) : searchOutQuotes p (s ++ c :: rest) = some s.length := by
  apply IsFirst_unique (searchOutQuotes_spec _ _)
  refine ⟨⟨⟨⟨c, by simp, hp⟩, Free_at _ h.free⟩, ?_, ?_⟩, ?_⟩
  · rw [quotesBefore_prefix _ _ _ (Nat.le_refl _)]; exact h.even
  · rintro ⟨h', -⟩
    simp at h'
    exact hq h'
  · intro j hj hh
    rw [Hit_prefix _ _ _ _ hj, OutQuotes_prefix _ hj] at hh
    exact h.none j hh

theorem Spec.Closed.outLate {p : Char → Bool} {s : List Char} (h : Closed p s) (rest : List Char) {i : Nat}
    (hi : searchOutQuotes p (s ++ rest) = some i) : s.length ≤ i := by
  have hf := searchOutQuotes_spec p (s ++ rest)
  rw [hi] at hf
  rcases Nat.lt_or_ge i s.length with hlt | hge
  · have := hf.1
    simp only at this
    rw [Hit_prefix _ _ _ _ hlt, OutQuotes_prefix _ hlt] at this
    exact absurd this (h.none i)
  · exact hge

theorem Spec.Closed.lineHit {p : Char → Bool} {s : List Char} (h : Closed p s) (rest : List Char) :
    searchTok (· == '\n') (s ++ '\n' :: rest) = some s.length := by
  apply IsFirst_unique (searchTok_first _ _)
  refine ⟨⟨⟨'\n', by simp, by simp⟩, Free_at _ h.free⟩, ?_⟩
  intro j hj hh
  rw [Hit_prefix _ _ _ _ hj] at hh
  exact h.line j hh

theorem Spec.Closed.lineLate {p : Char → Bool} {s : List Char} (h : Closed p s) (rest : List Char) {i : Nat}
    (hi : searchTok (· == '\n') (s ++ rest) = some i) : s.length ≤ i := by
  have hf := searchTok_first (· == '\n') (s ++ rest)
  rw [hi] at hf
  rcases Nat.lt_or_ge i s.length with hlt | hge
  · have := hf.1
    rw [Hit_prefix _ _ _ _ hlt] at this
    exact absurd this (h.line i)
  · exact hge

/-- The hybrid search stops right after a closed segment. -/
theorem Spec.Closed.hybrid {p : Char → Bool} (hpn : p '\n' = false) (hpq : p '"' = false) {s : List Char} (h : Closed p s)
    {c : Char} (hc : p c = true ∨ c = '\n') (rest : List Char) :
    searchHybrid (· == '\n') p (s ++ c :: rest) = some s.length := by
  unfold searchHybrid
  rcases hc with hc | rfl
  · have hq : c ≠ '"' := by rintro rfl; rw [hc] at hpq; exact absurd hpq (by simp)
    have hn : c ≠ '\n' := by rintro rfl; rw [hc] at hpn; exact absurd hpn (by simp)
    rw [h.outHit hq hc]
    cases ht : searchTok (· == '\n') (s ++ c :: rest) with
    | none => rfl
    | some i =>
      have h1 := h.lineLate _ ht
      have hne : i ≠ s.length := by
        rintro rfl
        have hf := searchTok_first (· == '\n') (s ++ c :: rest)
        rw [ht] at hf
        obtain ⟨⟨⟨d, hd, hd'⟩, -⟩, -⟩ := hf
        simp at hd hd'
        exact hn (hd.trans hd')
      simp only
      rw [if_pos (by omega)]
  · rw [h.lineHit]
    cases ht : searchOutQuotes p (s ++ '\n' :: rest) with
    | none => rfl
    | some i =>
      have h1 := h.outLate _ ht
      simp only
      rw [if_neg (by omega)]

theorem Spec.Closed.hybridTo {p : Char → Bool} (hpn : p '\n' = false) (hpq : p '"' = false) {s : List Char} (h : Closed p s)
    {c : Char} (hc : p c = true ∨ c = '\n') (rest : List Char) :
    hybridTo p (s ++ c :: rest) = c :: rest := by
  unfold PBat.hybridTo
  rw [h.hybrid hpn hpq hc]
  simp [dropTo]

theorem skipLineBlanks_margin {w : List Char} (h : ∀ c ∈ w, Margin c) (s : List Char) :
    skipLineBlanks (w ++ s) = skipLineBlanks s := by
  induction w with
  | nil => rfl
  | cons c w ih =>
    simp only [List.cons_append, skipLineBlanks]
    have hc := h c (by simp)
    rw [if_pos, ih (fun c hc => h c (by simp [hc]))]
    rcases hc with ⟨hb, hn⟩ | rfl
    · simp [(isDelim_iff c).2 hb, hn]
    · decide

theorem skipLineBlanks_stop {c : Char} (h : ¬ Margin c) (s : List Char) : skipLineBlanks (c :: s) = c :: s := by
  simp only [skipLineBlanks]
  rw [if_neg]
  intro h'
  apply h
  simp only [Bool.and_eq_true, Bool.or_eq_true, bne_iff_ne, ne_eq, beq_iff_eq] at h'
  rcases h' with ⟨h1 | h1, h2⟩
  · exact .inl ⟨(isDelim_iff c).1 h1, h2⟩
  · exact .inr h1

theorem wordIs_iff (kw s : List Char) :
    wordIs kw s = true ↔ ∃ k b r, s = k ++ b :: r ∧ Blank b ∧ k.map Char.toLower = kw := by
  induction kw generalizing s with
  | nil =>
    cases s with
    | nil => simp [wordIs]
    | cons c s =>
      simp only [wordIs, isDelim_iff, List.map_eq_nil_iff]
      constructor
      · intro h; exact ⟨[], c, s, rfl, h, rfl⟩
      · rintro ⟨k, b, r, h1, h2, rfl⟩
        simp at h1
        rw [h1.1]; exact h2
  | cons x kw ih =>
    cases s with
    | nil => simp [wordIs]
    | cons c s =>
      simp only [wordIs, Bool.and_eq_true, beq_iff_eq, ih]
      constructor
      · rintro ⟨h, k, b, r, rfl, hb, hk⟩
        exact ⟨c :: k, b, r, rfl, hb, by simp [h, hk]⟩
      · rintro ⟨k, b, r, h1, hb, hk⟩
        cases k with
        | nil => simp at hk
        | cons y k =>
          simp only [List.map_cons, List.cons.injEq, List.cons_append] at hk h1
          exact ⟨by rw [h1.1]; exact hk.1, k, b, r, h1.2, hb, hk.2⟩

theorem blockWord_iff (s : List Char) : blockWord s = true ↔ BlockWord s := by
  unfold blockWord BlockWord
  simp only [Bool.or_eq_true, wordIs_iff]
  constructor
  · rintro ((⟨k, b, r, h1, h2, h3⟩ | ⟨k, b, r, h1, h2, h3⟩) | ⟨k, b, r, h1, h2, h3⟩)
    · exact ⟨k, b, r, h1, h2, .inl h3⟩
    · exact ⟨k, b, r, h1, h2, .inr (.inl h3)⟩
    · exact ⟨k, b, r, h1, h2, .inr (.inr h3)⟩
  · rintro ⟨k, b, r, h1, h2, h3 | h3 | h3⟩
    · exact .inl (.inl ⟨k, b, r, h1, h2, h3⟩)
    · exact .inl (.inr ⟨k, b, r, h1, h2, h3⟩)
    · exact .inr ⟨k, b, r, h1, h2, h3⟩

theorem BlockWord_append {s : List Char} (h : BlockWord s) (x : List Char) : BlockWord (s ++ x) := by
  obtain ⟨k, b, r, rfl, h2, h3⟩ := h
  exact ⟨k, b, r ++ x, by simp, h2, h3⟩

/-- What follows a command cannot make it begin with a keyword. -/
theorem BlockWord_cut {t : List Char} (h : ¬ BlockWord (t ++ ['\n'])) {c : Char}
    (hc : c = ')' ∨ c = '&' ∨ c = '|' ∨ c = '\n') (rest : List Char) : ¬ BlockWord (t ++ c :: rest) := by
  rintro ⟨k, b, r, h1, h2, h3⟩
  apply h
  rcases List.append_eq_append_iff.1 h1 with ⟨m, hk, hr⟩ | ⟨m, hk, hr⟩
  · -- `k = t ++ m`
    cases m with
    | nil =>
      exact ⟨k, '\n', [], by simp [hk], by decide, h3⟩
    | cons d m =>
      simp only [List.cons_append, List.cons.injEq] at hr
      obtain ⟨rfl, -⟩ := hr
      exfalso
      have hm : c.toLower ∈ k.map Char.toLower := List.mem_map.2 ⟨c, by simp [hk], rfl⟩
      rcases h3 with h3 | h3 | h3 <;> rw [h3] at hm <;> rcases hc with rfl | rfl | rfl | rfl <;> revert hm <;> decide
  · -- `t = k ++ m`
    cases m with
    | nil =>
      simp at hk
      exact ⟨k, '\n', [], by simp [hk], by decide, h3⟩
    | cons d m =>
      simp only [List.cons_append, List.cons.injEq] at hr
      obtain ⟨rfl, -⟩ := hr
      exact ⟨k, b, m ++ ['\n'], by simp [hk], h2, h3⟩

theorem lineStop_true : lineStop true = Stop := by
  funext c; unfold lineStop Stop; cases c == ')' <;> cases c == '&' <;> cases c == '|' <;> rfl

theorem clauseStop_true : clauseStop true = Struct := by
  funext c; unfold clauseStop Struct; rw [lineStop_true]

end PBat

namespace PBat
open Spec

theorem lineEnd_margin {par : Bool} {w : List Char} (h : ∀ c ∈ w, Margin c) (s : List Char) :
    lineEnd par (w ++ s) = lineEnd par s := by
  rw [lineEnd.eq_1, lineEnd.eq_1, skipLineBlanks_margin h]

theorem lineEnd_group {par : Bool} {r t : List Char} (h : blockEnd ('(' :: r) = .ok (some t)) :
    lineEnd par ('(' :: r) = .ok (some (t.drop 1)) := by
  rw [lineEnd.eq_1]
  have hm : ¬ Margin '(' := by unfold Margin Blank; decide
  split
  · next h' => rw [skipLineBlanks_stop hm] at h'; simp at h'
  · next c r' h' =>
    rw [skipLineBlanks_stop hm] at h'
    cases h'
    rw [if_pos rfl, h]

theorem lineEnd_plain {par : Bool} {c : Char} {r : List Char} (hm : ¬ Margin c) (hp : c ≠ '(')
    (hw : ¬ BlockWord (c :: r)) : lineEnd par (c :: r) = .ok (some (hybridTo (lineStop par) (c :: r))) := by
  rw [lineEnd.eq_1]
  split
  · next h' => rw [skipLineBlanks_stop hm] at h'; simp at h'
  · next c r' h' =>
    rw [skipLineBlanks_stop hm] at h'
    cases h'
    rw [if_neg hp, if_neg (by rw [blockWord_iff]; exact hw)]

theorem lineEnd_clause {par : Bool} {c : Char} {r : List Char} (hm : ¬ Margin c) (hp : c ≠ '(')
    (hw : BlockWord (c :: r)) : lineEnd par (c :: r) = clauseEnd par (c :: r) := by
  rw [lineEnd.eq_1]
  split
  · next h' => rw [skipLineBlanks_stop hm] at h'; simp at h'
  · next c r' h' =>
    rw [skipLineBlanks_stop hm] at h'
    cases h'
    rw [if_neg hp, if_pos ((blockWord_iff _).2 hw)]

theorem clauseEnd_text {par : Bool} {s : List Char} {c : Char} {r : List Char} (h : hybridTo (clauseStop par) s = c :: r)
    (hc : c ≠ '(') : clauseEnd par s = .ok (some (c :: r)) := by
  rw [clauseEnd.eq_1]
  split
  · next h' => rw [h] at h'; simp at h'
  · next c' r' h' =>
    rw [h] at h'
    cases h'
    rw [if_neg hc]

theorem clauseEnd_block {par : Bool} {s : List Char} {r r' : List Char} (h : hybridTo (clauseStop par) s = '(' :: r)
    (hb : blockEnd ('(' :: r) = .ok (some (')' :: r'))) (hr : r' ≠ []) (hl : r'.length < s.length) :
    clauseEnd par s = clauseEnd par r' := by
  rw [clauseEnd.eq_1]
  split
  · next h' => rw [h] at h'; simp at h'
  · next c' r'' h' =>
    rw [h] at h'
    cases h'
    rw [if_pos rfl, hb]
    simp only [if_true, hr, if_false, hl]

theorem blockWord_head {c : Char} {r : List Char} (h : BlockWord (c :: r)) : ¬ Margin c ∧ c ≠ '(' := by
  obtain ⟨k, b, r', h1, -, h3⟩ := h
  cases k with
  | nil => rcases h3 with h3 | h3 | h3 <;> simp at h3
  | cons x k =>
    simp only [List.cons_append, List.cons.injEq] at h1
    obtain ⟨rfl, -⟩ := h1
    have hc : c.toLower = 'i' ∨ c.toLower = 'f' ∨ c.toLower = 'd' := by
      rcases h3 with h3 | h3 | h3 <;> simp at h3 <;> simp [h3]
    constructor
    · rintro (⟨h4, -⟩ | rfl)
      · rcases h4 with rfl | rfl | rfl | rfl | rfl <;> revert hc <;> decide
      · revert hc; decide
    · rintro rfl
      revert hc; decide

/-- What the scanner does on the inside of a block. -/
def BodyOk (b : List Char) : Prop := ∀ rest : List Char, blockLoop (b ++ ')' :: rest) = .ok (some (')' :: rest))

/-- What the scanner does on a command. -/
def LineOk (g : Bool) (l : List Char) : Prop :=
  ∀ c : Char, c = ')' ∨ c = '&' ∨ c = '|' ∨ c = '\n' ∨ g = true → ∀ rest : List Char, lineEnd true (l ++ c :: rest) = .ok (some (c :: rest))

/-- What the scanner does on the text of IF, FOR and DEF. -/
def ClauseOk (t : List Char) : Prop :=
  ∀ c : Char, c = ')' ∨ c = '&' ∨ c = '|' ∨ c = '\n' → ∀ rest : List Char, clauseEnd true (t ++ c :: rest) = .ok (some (c :: rest))

theorem step_last {g : Bool} {l : List Char} (ih : LineOk g l) : BodyOk l := by
  intro rest
  have := ih ')' (.inl rfl) rest
  rw [blockLoop.eq_1, this]
  simp

theorem step_cons {g : Bool} {l b : List Char} {c : Char} (ihl : LineOk g l)
    (hc : c = '&' ∨ c = '|' ∨ c = '\n' ∨ (g = true ∧ Blank c)) (ihb : BodyOk b) : BodyOk (l ++ c :: b) := by
  intro rest
  have h1 := ihl c (by grind) (b ++ ')' :: rest)
  have h2 := ihb rest
  rw [List.append_assoc, List.cons_append, blockLoop.eq_1, h1]
  have hne : c ≠ ')' := by
    rintro rfl
    rcases hc with hc | hc | hc | ⟨-, hc⟩
    · revert hc; decide
    · revert hc; decide
    · revert hc; decide
    · revert hc; unfold Blank; decide
  simp only
  rw [if_neg hne]
  rcases hb' : b ++ ')' :: rest with _ | ⟨d, r⟩
  · simp at hb'
  · simp only
    rw [hb'] at h2
    split
    · next hd =>
      subst hd
      have : b = [] ∨ ∃ b', b = ')' :: b' := by
        cases b with
        | nil => exact .inl rfl
        | cons x b => simp at hb'; exact .inr ⟨b, by rw [hb'.1]⟩
      rcases this with rfl | ⟨b', rfl⟩
      · simp at hb'; rw [hb']
      · -- a body cannot begin with a parenthesis
        exfalso
        rw [blockLoop.eq_1, lineEnd_plain (by unfold Margin Blank; decide) (by decide) (by
          rintro ⟨k, b, r, h1, h2, h3⟩
          cases k with
          | nil => rcases h3 with h3 | h3 | h3 <;> simp at h3
          | cons x k =>
            simp only [List.cons_append, List.cons.injEq] at h1
            rw [← h1.1] at h3
            rcases h3 with h3 | h3 | h3 <;> simp at h3 <;> exact absurd h3.1 (by decide))] at h2
        have h4 : hybridTo (lineStop true) (')' :: r) = ')' :: r := by
          have hcl : Closed (lineStop true) [] := ⟨by simp [Hit], by simp [Hit], rfl, by simp [Free, caretsBefore]⟩
          exact hcl.hybridTo (by decide) (by decide) (c := ')') (.inl (by decide)) r
        rw [h4] at h2
        simp only [if_true, Res.ok.injEq, Option.some.injEq] at h2
        have := congrArg List.length h2
        have h6 := congrArg List.length hb'
        simp at this h6
        omega
    · rw [if_pos, h2]
      simp only [List.length_append, List.length_cons] at *
      have := congrArg List.length hb'
      simp at this
      omega

theorem step_group {w b : List Char} (hw : ∀ c ∈ w, Margin c) (ih : BodyOk b) : LineOk true (w ++ '(' :: (b ++ [')'])) := by
  intro c hc rest
  have h1 := ih (c :: rest)
  rw [List.append_assoc, lineEnd_margin hw]
  have h2 : blockEnd ('(' :: (b ++ ')' :: c :: rest)) = .ok (some (')' :: c :: rest)) := by
    rw [blockEnd.eq_2, if_pos rfl, h1]
  have := lineEnd_group (par := true) h2
  simpa using this

theorem step_plain {strict : Bool} {w t : List Char} (hw : ∀ c ∈ w, Margin c)
    (ht : ∀ c, t.head? = some c → ¬ Margin c ∧ c ≠ '(') (hk : ¬ BlockWord (t ++ ['\n']))
    (hcl : Closed (if strict then Struct else Stop) t) : LineOk false (w ++ t) := by
  intro c hc rest
  have hc : c = ')' ∨ c = '&' ∨ c = '|' ∨ c = '\n' := by simpa using hc
  rw [List.append_assoc, lineEnd_margin hw]
  have hcl' : Closed (lineStop true) t := by
    rw [lineStop_true]
    cases strict
    · exact hcl
    · exact hcl.mono (by intro c h; simp [Struct, h])
  have h1 := hcl'.hybridTo (by decide) (by decide) (c := c)
    (by rcases hc with rfl | rfl | rfl | rfl <;> decide) rest
  have h2 := BlockWord_cut hk hc rest
  rcases hs : t ++ c :: rest with _ | ⟨d, r⟩
  · simp at hs
  · rw [hs] at h1 h2
    have hd : ¬ Margin d ∧ d ≠ '(' := by
      cases t with
      | nil =>
        simp at hs
        rw [← hs.1]
        rcases hc with rfl | rfl | rfl | rfl <;> refine ⟨?_, by decide⟩ <;> unfold Margin Blank <;> decide
      | cons x t =>
        simp at hs
        rw [← hs.1]
        exact ht x rfl
    rw [lineEnd_plain hd.1 hd.2 h2, h1]

theorem step_clause {w t : List Char} (hw : ∀ c ∈ w, Margin c) (hk : BlockWord t) (ih : ClauseOk t) :
    LineOk false (w ++ t) := by
  intro c hc rest
  have hc : c = ')' ∨ c = '&' ∨ c = '|' ∨ c = '\n' := by simpa using hc
  rw [List.append_assoc, lineEnd_margin hw]
  have h1 := ih c hc rest
  rcases t with _ | ⟨d, r⟩
  · obtain ⟨k, b, r, h, -⟩ := hk
    simp at h
  · have := blockWord_head hk
    rw [List.cons_append, lineEnd_clause this.1 this.2 (show BlockWord (d :: (r ++ c :: rest)) from BlockWord_append hk (c :: rest)), ← List.cons_append, h1]

theorem step_text {t : List Char} (ht : Closed Struct t) : ClauseOk t := by
  intro c hc rest
  rw [← clauseStop_true] at ht
  have h1 := ht.hybridTo (by decide) (by decide) (c := c)
    (by rcases hc with rfl | rfl | rfl | rfl <;> decide) rest
  exact clauseEnd_text h1 (by rcases hc with rfl | rfl | rfl | rfl <;> decide)

theorem step_block {t b k : List Char} (ht : Closed Struct t) (ihb : BodyOk b) (ihk : ClauseOk k) :
    ClauseOk (t ++ '(' :: (b ++ ')' :: k)) := by
  intro c hc rest
  rw [← clauseStop_true] at ht
  have h1 := ihb (k ++ c :: rest)
  have h2 := ihk c hc rest
  have h3 := ht.hybridTo (by decide) (by decide) (c := '(') (.inl (by decide)) (b ++ ')' :: (k ++ c :: rest))
  have h4 : blockEnd ('(' :: (b ++ ')' :: (k ++ c :: rest))) = .ok (some (')' :: (k ++ c :: rest))) := by
    rw [blockEnd.eq_2, if_pos rfl, h1]
  have e : t ++ '(' :: (b ++ ')' :: k) ++ c :: rest = t ++ '(' :: (b ++ ')' :: (k ++ c :: rest)) := by simp
  rw [e, clauseEnd_block h3 h4 (by simp) (by simp; omega), h2]

theorem body_ok {strict : Bool} {b : List Char} (h : Body strict b) : BodyOk b :=
  Body.rec (motive_1 := fun b _ => BodyOk b) (motive_2 := fun g l _ => LineOk g l) (motive_3 := fun t _ => ClauseOk t)
    (fun _ ih => step_last ih) (fun _ hc _ ihl ihb => step_cons ihl hc ihb) (fun hw _ ih => step_group hw ih)
    (fun hw ht hk hcl => step_plain hw ht hk hcl) (fun hw hk _ ih => step_clause hw hk ih) (fun ht => step_text ht)
    (fun ht _ _ ihb ihk => step_block ht ihb ihk) h

theorem blockEnd_body {strict : Bool} {b : List Char} (h : Body strict b) (rest : List Char) :
    blockEnd ('(' :: (b ++ ')' :: rest)) = .ok (some (')' :: rest)) := by
  rw [blockEnd.eq_2, if_pos rfl]
  exact body_ok h rest

end PBat

namespace PBat
open Spec

theorem hybridTo_suffix (q : Char → Bool) (s : List Char) : hybridTo q s <:+ s := by
  unfold hybridTo dropTo
  split
  · exact List.nil_suffix
  · exact List.drop_suffix _ _

theorem skipLineBlanks_suffix (s : List Char) : skipLineBlanks s <:+ s := by
  induction s with
  | nil => exact List.nil_suffix
  | cons c s ih =>
    simp only [skipLineBlanks]
    split
    · exact ih.trans (List.suffix_cons c s)
    · exact List.suffix_refl _

/-- What a scanner returns: `NULL` or a suffix of the text, never undefined behaviour or an endless loop. -/
def ScanOk (s : List Char) (r : Res (Option (List Char))) : Prop :=
  ∃ o : Option (List Char), r = .ok o ∧ ∀ t, o = some t → t <:+ s

/-- The end of a block is a closing parenthesis after the opening one. -/
def EndOk (s : List Char) (r : Res (Option (List Char))) : Prop :=
  ∃ o : Option (List Char), r = .ok o ∧ ∀ t, o = some t → t <:+ s ∧ t.length < s.length ∧ t.head? = some ')'

theorem blockEnd_step {s : List Char} (ih : ∀ t : List Char, t.length < s.length → EndOk ('(' :: t) (blockLoop t)) :
    EndOk s (blockEnd s) := by
  cases s with
  | nil => rw [blockEnd.eq_1]; exact ⟨none, rfl, by simp⟩
  | cons c r =>
    rw [blockEnd.eq_2]
    split
    · next hc => subst hc; exact ih r (by simp)
    · exact ⟨none, rfl, by simp⟩

theorem clauseEnd_step (par : Bool) {s : List Char} (hb : ∀ t : List Char, t.length ≤ s.length → EndOk t (blockEnd t))
    (ih : ∀ t : List Char, t.length < s.length → ScanOk t (clauseEnd par t)) : ScanOk s (clauseEnd par s) := by
  have hsuf := hybridTo_suffix (clauseStop par) s
  rw [clauseEnd.eq_1]
  split
  · exact ⟨some [], rfl, by simp⟩
  · next c r h =>
    rw [h] at hsuf
    split
    · obtain ⟨o, ho, hp⟩ := hb (c :: r) hsuf.length_le
      rw [ho]
      cases o with
      | none => exact ⟨none, rfl, by simp⟩
      | some t =>
        obtain ⟨h1, h2, h3⟩ := hp t rfl
        cases t with
        | nil => simp at h3
        | cons d r' =>
          simp only [List.head?_cons, Option.some.injEq] at h3
          subst h3
          have hr : r' <:+ s := ((List.suffix_cons ')' r').trans h1).trans hsuf
          have hlt : r'.length < s.length := by
            have := (h1.trans hsuf).length_le
            simp at this
            omega
          simp only [if_true, hlt]
          split
          · exact ⟨some [], rfl, by simp⟩
          · obtain ⟨o', ho', hp'⟩ := ih r' hlt
            exact ⟨o', ho', fun t ht => (hp' t ht).trans hr⟩
    · exact ⟨some (c :: r), rfl, by simpa using hsuf⟩

theorem lineEnd_step (par : Bool) {s : List Char} (hb : ∀ t : List Char, t.length ≤ s.length → EndOk t (blockEnd t))
    (hc : ∀ t : List Char, t.length ≤ s.length → ScanOk t (clauseEnd par t)) : ScanOk s (lineEnd par s) := by
  have hsuf := skipLineBlanks_suffix s
  rw [lineEnd.eq_1]
  split
  · exact ⟨some [], rfl, by simp⟩
  · next c r h =>
    rw [h] at hsuf
    split
    · obtain ⟨o, ho, hp⟩ := hb (c :: r) hsuf.length_le
      rw [ho]
      cases o with
      | none => exact ⟨none, rfl, by simp⟩
      | some t =>
        obtain ⟨h1, h2, h3⟩ := hp t rfl
        refine ⟨some (t.drop 1), rfl, ?_⟩
        intro t' ht'
        cases ht'
        exact ((List.drop_suffix 1 t).trans h1).trans hsuf
    · split
      · obtain ⟨o, ho, hp⟩ := hc (c :: r) hsuf.length_le
        exact ⟨o, ho, fun t ht => (hp t ht).trans hsuf⟩
      · refine ⟨_, rfl, ?_⟩
        intro t ht
        cases ht
        exact (hybridTo_suffix _ _).trans hsuf

theorem blockLoop_step {s : List Char} (hl : ScanOk s (lineEnd true s))
    (ih : ∀ t : List Char, t.length < s.length → EndOk ('(' :: t) (blockLoop t)) : EndOk ('(' :: s) (blockLoop s) := by
  obtain ⟨o, ho, hp⟩ := hl
  rw [blockLoop.eq_1, ho]
  cases o with
  | none => exact ⟨none, rfl, by simp⟩
  | some t =>
    have hs := hp t rfl
    cases t with
    | nil => exact ⟨none, rfl, by simp⟩
    | cons c r =>
      simp only
      split
      · next hc =>
        subst hc
        refine ⟨_, rfl, ?_⟩
        intro t ht
        cases ht
        have := hs.length_le
        exact ⟨hs.trans (List.suffix_cons _ _), by simp at this ⊢; omega, rfl⟩
      · cases r with
        | nil => exact ⟨none, rfl, by simp⟩
        | cons d r' =>
          have hs' : (d :: r') <:+ s := (List.suffix_cons c _).trans hs
          have hlt : (d :: r').length < s.length := by
            have := hs.length_le
            simp at this ⊢
            omega
          simp only [hlt, if_true]
          split
          · next hd =>
            subst hd
            refine ⟨_, rfl, ?_⟩
            intro t ht
            cases ht
            exact ⟨hs'.trans (List.suffix_cons _ _), by simp at hlt ⊢; omega, rfl⟩
          · obtain ⟨o', ho', hp'⟩ := ih _ hlt
            refine ⟨o', ho', ?_⟩
            intro t ht
            obtain ⟨h1, h2, h3⟩ := hp' t ht
            refine ⟨?_, by simp at h2 hlt ⊢; omega, h3⟩
            rcases List.suffix_cons_iff.1 h1 with rfl | h1
            · simp at h3
            · exact (h1.trans hs').trans (List.suffix_cons _ _)

theorem scan_total (n : Nat) : ∀ s : List Char, s.length ≤ n →
    EndOk s (blockEnd s) ∧ (∀ par, ScanOk s (clauseEnd par s)) ∧ (∀ par, ScanOk s (lineEnd par s)) ∧
      EndOk ('(' :: s) (blockLoop s) := by
  induction n using Nat.strongRecOn with
  | _ n ih =>
    have lt : ∀ s t : List Char, s.length ≤ n → t.length < s.length →
        (∀ par, ScanOk t (clauseEnd par t)) ∧ EndOk ('(' :: t) (blockLoop t) := fun s t hs ht =>
      have := ih t.length (by omega) t (Nat.le_refl _)
      ⟨this.2.1, this.2.2.2⟩
    have hb : ∀ s : List Char, s.length ≤ n → EndOk s (blockEnd s) := fun s hs =>
      blockEnd_step fun t ht => (lt s t hs ht).2
    have hc : ∀ par, ∀ s : List Char, s.length ≤ n → ScanOk s (clauseEnd par s) := fun par s hs =>
      clauseEnd_step par (fun t ht => hb t (by omega)) fun t ht => (lt s t hs ht).1 par
    have hl : ∀ par, ∀ s : List Char, s.length ≤ n → ScanOk s (lineEnd par s) := fun par s hs =>
      lineEnd_step par (fun t ht => hb t (by omega)) (fun t ht => hc par t (by omega))
    intro s hs
    exact ⟨hb s hs, fun par => hc par s hs, fun par => hl par s hs,
      blockLoop_step (hl true s hs) fun t ht => (lt s t hs ht).2⟩

theorem blockEnd_total (s : List Char) : EndOk s (blockEnd s) := (scan_total s.length s (Nat.le_refl _)).1

theorem lineEnd_total (par : Bool) (s : List Char) : ScanOk s (lineEnd par s) :=
  (scan_total s.length s (Nat.le_refl _)).2.2.1 par

/-! ### The balancing parenthesis -/

theorem QuoteAt_append {u : List Char} (hu : caretsBefore u u.length % 2 = 0) (v : List Char) (j : Nat) :
    QuoteAt (u ++ v) (u.length + j) ↔ QuoteAt v j := by
  rw [← Hit_quote, ← Hit_quote, Hit_append hu]

theorem quotesBefore_append {u : List Char} (hu : caretsBefore u u.length % 2 = 0) (v : List Char) (j : Nat) :
    quotesBefore (u ++ v) (u.length + j) = quotesBefore u u.length + quotesBefore v j := by
  induction j with
  | zero => rw [Nat.add_zero, quotesBefore_prefix u v _ (Nat.le_refl _)]; rfl
  | succ j ih =>
    rw [← Nat.add_assoc, quotesBefore_succ, ih, quotesBefore_succ, Nat.add_assoc]
    congr 2
    simp only [QuoteAt_append hu]

/-- A segment that leaves the scan of quotes and escapes outside both, without structural character. -/
def Passes (q : Nat) (t : List Char) : Prop :=
  (∀ i, Hit Struct t i → (quotesBefore t i + q) % 2 = 1) ∧
    (quotesBefore t t.length + q) % 2 = 0 ∧ Free t t.length

theorem Passes_drop {q : Nat} {u t : List Char} (hu : caretsBefore u u.length % 2 = 0) (h : Passes q (u ++ t)) :
    Passes (quotesBefore u u.length + q) t := by
  obtain ⟨h1, h2, h3⟩ := h
  refine ⟨?_, ?_, ?_⟩
  · intro i hi
    have := h1 (u.length + i) ((Hit_append hu t i).2 hi)
    rw [quotesBefore_append hu] at this
    omega
  · rw [List.length_append, quotesBefore_append hu] at h2
    omega
  · rw [List.length_append, Free_append hu] at h3
    exact h3

theorem closing_ne {c : Char} (hc : c ≠ '^') (depth : Nat) (quoted : Bool) (r : List Char) :
    closing depth quoted (c :: r) =
      if c = '"' then closing depth (!quoted) r
      else if quoted then closing depth quoted r
      else if c = '(' then closing (depth + 1) quoted r
      else if c = ')' then if depth = 0 then some (c :: r) else closing (depth - 1) quoted r
      else closing depth quoted r := by
  rw [closing.eq_def]
  split
  · contradiction
  · next h => simp at h; exact absurd h.1 hc
  · next h => simp at h; exact absurd h.1 hc
  · next h => cases h; rfl

theorem closing_pass (depth : Nat) (x : List Char) : ∀ (n : Nat) (t : List Char), t.length ≤ n → ∀ q : Nat, Passes q t →
    closing depth (q % 2 == 1) (t ++ x) = closing depth false x := by
  intro n
  induction n with
  | zero =>
    intro t ht q h
    have : t = [] := List.length_eq_zero_iff.1 (by omega)
    subst this
    have := h.2.1
    simp [quotesBefore] at this
    simp [this]
  | succ n ih =>
    intro t ht q h
    cases t with
    | nil =>
      have := h.2.1
      simp [quotesBefore] at this
      simp [this]
    | cons c t =>
      by_cases hc : c = '^'
      · subst hc
        cases t with
        | nil =>
          have := h.2.2
          simp [Free, caretsBefore] at this
        | cons d t =>
          have hu : caretsBefore ['^', d] ['^', d].length % 2 = 0 := by
            unfold caretsBefore
            by_cases hd : d = '^'
            · subst hd; decide
            · simp [hd]
          have hq : quotesBefore ['^', d] ['^', d].length = 0 := by
            have h0 : ¬ QuoteAt ['^', d] 0 := by simp [QuoteAt]
            have h1 : ¬ QuoteAt ['^', d] 1 := by simp [QuoteAt, Free, caretsBefore]
            simp [quotesBefore, List.range, List.range.loop, h0, h1]
          have := ih t (by simp at ht; omega) _ (Passes_drop (u := ['^', d]) hu h)
          rw [hq, Nat.zero_add] at this
          simp only [List.cons_append]
          rw [closing.eq_3]
          exact this
      · have hu : caretsBefore [c] [c].length % 2 = 0 := by simp [caretsBefore, hc]
        have hd := Passes_drop (u := [c]) hu h
        have hrec := ih t (by simp at ht; omega) _ hd
        have hfree : Free (c :: t) 0 := by simp [Free, caretsBefore]
        have hs : Struct c = true → (q % 2 == 1) = true := by
          intro hs
          have := h.1 0 ⟨⟨c, rfl, hs⟩, hfree⟩
          simp [quotesBefore] at this
          simp [this]
        simp only [List.cons_append]
        rw [closing_ne hc]
        by_cases hcq : c = '"'
        · subst hcq
          have hq : quotesBefore ['"'] ['"'].length = 1 := by decide
          rw [hq] at hrec
          rw [if_pos rfl, ← hrec]
          congr 1
          rcases Nat.mod_two_eq_zero_or_one q with h2 | h2 <;> have h3 := Nat.add_mod 1 q 2 <;> simp [h2] at h3 ⊢ <;> simp [h3]
        · have hq : quotesBefore [c] [c].length = 0 := by
            simp [quotesBefore, List.range, List.range.loop, QuoteAt, hcq]
          rw [hq, Nat.zero_add] at hrec
          rw [if_neg hcq]
          by_cases h1 : c = '('
          · subst h1
            rw [if_pos (hs (by decide))]; exact hrec
          · by_cases h2 : c = ')'
            · subst h2
              rw [if_pos (hs (by decide))]; exact hrec
            · rw [if_neg h1, if_neg h2]
              split <;> exact hrec

theorem closing_closed {t : List Char} (h : Closed Struct t) (depth : Nat) (x : List Char) :
    closing depth false (t ++ x) = closing depth false x := by
  refine closing_pass depth x t.length t (Nat.le_refl _) 0 ⟨?_, h.even, h.free⟩
  intro i hi
  have h1 := h.none i
  have h2 : ¬ QuoteAt t i := by
    rintro ⟨hq, -⟩
    obtain ⟨⟨c, hc, hs⟩, -⟩ := hi
    rw [hq] at hc
    cases hc
    revert hs; decide
  rcases Nat.mod_two_eq_zero_or_one (quotesBefore t i) with h3 | h3
  · exact absurd ⟨hi, h3, h2⟩ h1
  · exact h3

theorem closing_open (depth : Nat) (x : List Char) : closing depth false ('(' :: x) = closing (depth + 1) false x := by
  rw [closing_ne (by decide)]
  simp

theorem closing_close (depth : Nat) (x : List Char) : closing (depth + 1) false (')' :: x) = closing depth false x := by
  rw [closing_ne (by decide)]
  simp

theorem closing_other {c : Char} (h : c ≠ '^' ∧ c ≠ '"' ∧ c ≠ '(' ∧ c ≠ ')') (depth : Nat) (x : List Char) :
    closing depth false (c :: x) = closing depth false x := by
  rw [closing_ne h.1]
  simp [h]

theorem margin_other {c : Char} (h : Margin c) : c ≠ '^' ∧ c ≠ '"' ∧ c ≠ '(' ∧ c ≠ ')' := by
  rcases h with ⟨h | h | h | h | h, -⟩ | h <;> subst h <;> decide

theorem closing_margin {w : List Char} (h : ∀ c ∈ w, Margin c) (depth : Nat) (x : List Char) :
    closing depth false (w ++ x) = closing depth false x := by
  induction w with
  | nil => rfl
  | cons c w ih =>
    rw [List.cons_append, closing_other (margin_other (h c (by simp))), ih (fun c hc => h c (by simp [hc]))]

theorem closing_body {b : List Char} (h : Body true b) (depth : Nat) (x : List Char) :
    closing depth false (b ++ x) = closing depth false x :=
  Body.rec (motive_1 := fun b _ => ∀ depth x, closing depth false (b ++ x) = closing depth false x)
    (motive_2 := fun _ l _ => ∀ depth x, closing depth false (l ++ x) = closing depth false x)
    (motive_3 := fun t _ => ∀ depth x, closing depth false (t ++ x) = closing depth false x)
    (fun _ ih => ih)
    (fun {g l c b} _ hc _ ihl ihb depth x => by
      rw [List.append_assoc, ihl, List.cons_append, closing_other, ihb]
      rcases hc with rfl | rfl | rfl | ⟨-, rfl | rfl | rfl | rfl | rfl⟩ <;> decide)
    (fun {w b} hw _ ih depth x => by
      rw [List.append_assoc, closing_margin hw, List.cons_append, closing_open, List.append_assoc, ih,
        List.cons_append, closing_close, List.nil_append])
    (fun {w t} hw _ _ hcl depth x => by
      rw [List.append_assoc, closing_margin hw, closing_closed hcl])
    (fun {w t} hw _ _ ih depth x => by rw [List.append_assoc, closing_margin hw, ih])
    (fun ht depth x => closing_closed ht depth x)
    (fun {t b c} ht _ _ ihb ihc depth x => by
      rw [List.append_assoc, closing_closed ht, List.cons_append, closing_open, List.append_assoc, ihb,
        List.cons_append, closing_close, ihc])
    h depth x

end PBat

namespace PBat
open Spec

instance (p : Char → Bool) (s : List Char) (i : Nat) : Decidable (Hit p s i) :=
  decidable_of_iff (s[i]?.any p = true ∧ Free s i) (by
    unfold Hit
    cases s[i]? <;> simp)

theorem Hit_lt {p : Char → Bool} {s : List Char} {i : Nat} (h : Hit p s i) : i < s.length := by
  obtain ⟨⟨c, hc, -⟩, -⟩ := h
  exact (List.getElem?_eq_some_iff.1 hc).1

instance (p : Char → Bool) (s : List Char) : Decidable (Closed p s) :=
  decidable_of_iff ((∀ i, i < s.length → ¬ (Hit p s i ∧ OutQuotes s i)) ∧ (∀ i, i < s.length → ¬ Hit (· == '\n') s i) ∧
      quotesBefore s s.length % 2 = 0 ∧ Free s s.length)
    ⟨fun ⟨h1, h2, h3, h4⟩ => ⟨fun i h => h1 i (Hit_lt h.1) h, fun i h => h2 i (Hit_lt h) h, h3, h4⟩,
      fun h => ⟨fun i _ => h.none i, fun i _ => h.line i, h.even, h.free⟩⟩

instance (s : List Char) : Decidable (BlockWord s) := decidable_of_iff _ (blockWord_iff s)

instance (c : Char) : Decidable (Margin c) := by unfold Margin; infer_instance

end PBat
