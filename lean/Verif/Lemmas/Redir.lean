import Verif.Model.Redir
import Verif.Spec.Redir
import Verif.Lemmas.ParseBlocks
import Verif.Lemmas.Args
/-
Lemmas on redirections.
-/
namespace PBat
open Spec

/-! ### Names -/

theorem quoted_neutral {E : List Char} (h : Lead '"' E) :
    Neutral ('"' :: (E ++ ['"'])) ∧ ∀ i, i < ('"' :: (E ++ ['"'])).length → ¬ OutQuotes ('"' :: (E ++ ['"'])) i := by
  have hf1 : Free ['"'] ['"'].length := by decide
  have hE : ∀ j, j ≤ E.length → quotesBefore (E ++ ['"']) j = 0 := by
    intro j hj
    unfold quotesBefore
    rw [List.length_eq_zero_iff, List.filter_eq_nil_iff]
    intro k hk hq
    have hk' := List.mem_range.1 hk
    simp only [decide_eq_true_eq] at hq
    rw [QuoteAt_prefix _ (by omega)] at hq
    exact h.1 k ⟨⟨'"', hq.1, by simp⟩, hq.2⟩
  have hclose : QuoteAt (E ++ ['"']) E.length := ⟨by simp, (Free_prefix E ['"']).2 h.2⟩
  have e : '"' :: (E ++ ['"']) = ['"'] ++ (E ++ ['"']) := rfl
  have hall : quotesBefore (E ++ ['"']) (E.length + 1) = 1 := by
    have h0 := hE E.length (Nat.le_refl _)
    unfold quotesBefore at h0 ⊢
    rw [List.range_succ, List.filter_append, List.length_append, h0]
    simp [hclose]
  refine ⟨⟨?_, ?_⟩, ?_⟩
  · rw [e, List.length_append, quotesBefore_append hf1]
    simp only [List.length_append, List.length_cons, List.length_nil, Nat.zero_add]
    rw [hall]
    decide
  · rw [e, List.length_append, Free_append hf1]
    show Free (E ++ ['"']) _
    rw [List.length_append, Free_append h.2]
    decide
  · intro i hi ho
    rw [e] at ho
    rcases i with _ | i
    · exact ho.2 ⟨rfl, by simp [Free, caretsBefore]⟩
    · have e2 : i + 1 = ['"'].length + i := by simp [Nat.add_comm]
      rw [e2] at ho
      obtain ⟨h1, h2⟩ := ho
      rw [quotesBefore_append hf1] at h1
      rw [QuoteAt_append hf1] at h2
      simp only [List.length_cons, List.length_append, List.length_nil, Nat.zero_add] at hi
      rw [hE i (by omega)] at h1
      exact absurd h1 (by decide)

theorem neutral_noquote {x : List Char} (hq : '"' ∉ x) (hc : '^' ∉ x) : Neutral x := by
  induction x with
  | nil => exact .nil
  | cons c x ih =>
    simp only [List.mem_cons, not_or] at hq hc
    exact .cons (Ne.symm hc.1) (Ne.symm hq.1) (ih hq.2 hc.2)

theorem nextParam_stops {p q : Char → Bool} (hp : p '"' = true) (hpc : p '^' = false) (hpq : ∀ c, p c = true → Blank c ∨ q c = true)
    (hqq : q '"' = true) (hqc : q '^' = true) (ex : List Char → Res (List Char)) {w x a tail : List Char} (hw : ∀ c ∈ w, Blank c)
    (hx : Written q x a) (ht : ∀ c, tail.head? = some c → p c = true ∧ c ≠ '"') :
    nextParam p ex (w ++ (x ++ tail)) = (ex (escape q a) >>= fun t => pure (some (t, tail))) := by
  have hlead := Lead_escape (d := '"') (by decide) hqq hqc a
  have hneu : Neutral x ∧ ∀ i, i < x.length → ¬ (Hit (fun c => p c && c != '"') x i ∧ OutQuotes x i) := by
    cases hx with
    | quoted =>
      obtain ⟨h1, h2⟩ := quoted_neutral hlead
      exact ⟨h1, fun i hi h => h2 i hi h.2⟩
    | word hne hb hq hqa =>
      refine ⟨neutral_noquote hq (fun h => by rw [hqa _ h] at hqc; exact absurd hqc (by simp)), ?_⟩
      rintro i hi ⟨⟨⟨c, hc, hpc'⟩, -⟩, -⟩
      have hm := List.mem_of_getElem? hc
      simp only [Bool.and_eq_true] at hpc'
      rcases hpq c hpc'.1 with h | h
      · exact hb c hm h
      · rw [hqa c hm] at h; exact absurd h (by simp)
  have hxne : x ≠ [] := written_ne hx
  have hsk : skipBlanks (w ++ (x ++ tail)) = x ++ tail := by
    rw [skipBlanks_append hw]
    cases hx with
    | quoted => rw [List.cons_append, skipBlanks_stop (by decide)]
    | word hne hb hq hqa =>
      cases x with
      | nil => exact absurd rfl hne
      | cons c x => rw [List.cons_append, skipBlanks_stop (hb c (by simp))]
  have hs : skipBlanks (w ++ (x ++ tail)) ≠ [] := by rw [hsk]; simp [hxne]
  obtain ⟨raw, rest, text, h1, h2, h3, h4⟩ := paramText_spec hp hpc (skipBlanks (w ++ (x ++ tail))) hs
  have hfirst : IsFirst (fun i => Hit (fun c => p c && c != '"') (x ++ tail) i ∧ OutQuotes (x ++ tail) i)
      (if tail = [] then none else some x.length) := by
    cases tail with
    | nil =>
      rw [if_pos rfl, List.append_nil]
      intro i hi
      exact hneu.2 i (Hit_lt hi.1) hi
    | cons c tail =>
      rw [if_neg (by simp)]
      obtain ⟨hc1, hc2⟩ := ht c rfl
      refine ⟨⟨⟨⟨c, by simp, by simp [hc1, hc2]⟩, (Free_prefix _ _).2 hneu.1.free⟩, ?_, ?_⟩, ?_⟩
      · rw [quotesBefore_prefix x _ _ (Nat.le_refl _)]; exact hneu.1.even
      · rintro ⟨h, -⟩
        simp only [List.getElem?_append_right (Nat.le_refl _),
          Nat.sub_self, List.getElem?_cons_zero, Option.some.injEq] at h
        exact hc2 h
      · intro j hj h
        rw [Hit_prefix _ _ _ _ hj, OutQuotes_prefix _ hj] at h
        exact hneu.2 j hj h
  rw [hsk] at h1 h3 h4
  obtain ⟨he, hend⟩ := h1
  have hu := IsFirst_unique hend hfirst
  have hraw : raw = x ∧ rest = tail := by
    by_cases hr : rest = []
    · rw [if_pos hr] at hu
      by_cases hti : tail = []
      · subst hr hti; simp only [List.append_nil] at he; exact ⟨he.symm, rfl⟩
      · rw [if_neg hti] at hu; exact absurd hu (by simp)
    · rw [if_neg hr] at hu
      by_cases hti : tail = []
      · rw [if_pos hti] at hu; exact absurd hu (by simp)
      · rw [if_neg hti] at hu
        simp only [Option.some.injEq] at hu
        obtain ⟨h1, h2⟩ := List.append_inj he hu.symm
        exact ⟨h1.symm, h2.symm⟩
  obtain ⟨rfl, rfl⟩ := hraw
  have htext : text = escape q a := by
    cases hx with
    | quoted =>
      generalize hr : '"' :: (escape q a ++ ['"']) = raw at h2
      cases h2 with
      | bare h => subst hr; exact absurd rfl h
      | quoted _ => exact (List.append_cancel_right (List.cons.inj hr).2).symm
      | opened h =>
        obtain ⟨-, h⟩ := h (escape q a) (List.cons.inj hr).2.symm
        exact absurd hlead.2 h
    | word hne hb hq hqa =>
      rw [escape_none hqa]
      cases h2 with
      | bare _ => rfl
      | quoted _ => exact absurd (List.mem_cons_self) hq
      | opened _ => exact absurd (List.mem_cons_self) hq
  rw [nextParam_eq p ex _ text hs (by rw [hsk]; exact h3) rest (by rw [hsk]; exact h4), htext, if_neg (escape_ne_caret hqc a)]

/-! ### Tokens -/

theorem redirToken_skip {u : List Char} (hu : Neutral u) (hno : ∀ i, ¬ (Hit isRedir u i ∧ OutQuotes u i)) (x : List Char) :
    redirToken (u ++ x) = redirToken x := by
  unfold redirToken
  rw [searchOut_skip hu hno]
  cases searchOutQuotes isRedir x with
  | none => rfl
  | some i => simp [List.drop_append, Nat.add_comm]

theorem redirToken_head {c : Char} (hc : isRedir c = true) (x : List Char) : redirToken (c :: x) = some (c :: x) := by
  unfold redirToken
  rw [searchOut_head _ _ (by rintro rfl; exact absurd hc (by decide)) hc]
  rfl

theorem redirToken_none {s : List Char} (h : ∀ i, ¬ (Hit isRedir s i ∧ OutQuotes s i)) : redirToken s = none := by
  unfold redirToken
  rw [show searchOutQuotes isRedir s = none from IsFirst_unique (searchOutQuotes_spec _ _) h]
  rfl

theorem parseOut_congr (ex : List Char → Res (List Char)) (full : List Char → List Char) (r : Streams) (final ch : List Char)
    {s1 s2 : List Char} (block : Option (List Char)) (h : redirToken s1 = redirToken s2) :
    parseOut ex full r final ch s1 block = parseOut ex full r final ch s2 block := by
  rw [parseOut.eq_1, parseOut.eq_1 _ _ _ _ _ s2]
  rw [h]

/-- The text up to the first unescaped character of `p` outside quotes. -/
theorem out_split {p : Char → Bool} {t : List Char} :
    (∀ i, ¬ (Hit p t i ∧ OutQuotes t i)) ∨
    ∃ t1 c t2, t = t1 ++ c :: t2 ∧ p c = true ∧ (∀ i, ¬ (Hit p t1 i ∧ OutQuotes t1 i)) ∧ Neutral t1 ∧ c ≠ '"' := by
  have hf := searchOutQuotes_spec p t
  cases hs : searchOutQuotes p t with
  | none => rw [hs] at hf; exact .inl hf
  | some i =>
    rw [hs] at hf
    right
    obtain ⟨hi, hmin⟩ := hf
    obtain ⟨⟨⟨c, h1, hp⟩, hfr⟩, ho1, ho2⟩ := hi
    obtain ⟨hsp, hlen⟩ := split_at h1
    refine ⟨t.take i, c, t.drop (i + 1), hsp, hp, ?_, ⟨?_, ?_⟩, ?_⟩
    · intro j hj
      have hj' : j < (t.take i).length := Hit_lt hj.1
      apply hmin j (by omega)
      rw [hsp, Hit_prefix _ _ _ _ hj', OutQuotes_prefix _ hj']
      exact hj
    · rw [hsp, quotesBefore_prefix _ _ i (by omega)] at ho1
      rw [hlen]
      exact ho1
    · rw [hsp] at hfr
      unfold Free at hfr ⊢
      rw [show caretsBefore (t.take i ++ c :: t.drop (i + 1)) i = caretsBefore (t.take i) (t.take i).length from by
        unfold caretsBefore
        rw [List.take_left' hlen, List.take_length]] at hfr
      exact hfr
    · rintro rfl
      exact ho2 ⟨h1, hfr⟩

theorem Spec.NoSign.neutral {t : List Char} (h : NoSign t) : Neutral t := ⟨h.even, h.free⟩

theorem NoSign_drop {u v : List Char} (h : NoSign (u ++ v)) (hu : Neutral u) : NoSign v := by
  refine ⟨?_, ?_, ?_⟩
  · intro i hi
    exact h.none (u.length + i) ⟨(Hit_append hu.free v i).2 hi.1, (OutQuotes_append hu v i).2 hi.2⟩
  · have := h.even
    rw [List.length_append, quotesBefore_append hu.free] at this
    have := hu.even
    omega
  · have := h.free
    rwa [List.length_append, Free_append hu.free] at this

theorem upTo_append (u v : List Char) : upTo (u ++ v) v = u := by
  unfold upTo
  rw [if_pos (by simp), List.length_append, Nat.add_sub_cancel, List.take_left]

theorem upTo_eq {ch u v : List Char} (h : ch = u ++ v) : upTo ch v = u := by rw [h, upTo_append]

/-- A sign right after neutral text is seen. -/
theorem sign_hit {u : List Char} (hu : Neutral u) {p : Char → Bool} {c : Char} (hc : p c = true) (hq : c ≠ '"') (v : List Char) :
    Hit p (u ++ c :: v) u.length ∧ OutQuotes (u ++ c :: v) u.length := by
  refine ⟨⟨⟨c, by simp, hc⟩, (Free_prefix _ _).2 hu.free⟩, ?_, ?_⟩
  · rw [quotesBefore_prefix u _ _ (Nat.le_refl _)]; exact hu.even
  · rintro ⟨h, -⟩
    simp only [List.getElem?_append_right (Nat.le_refl _), Nat.sub_self, List.getElem?_cons_zero, Option.some.injEq] at h
    exact hq h

theorem not_past {tok : List Char} {block : Option (List Char)} (h : blockRank block ≤ tok.length) : ¬ pastBlock tok block = true := by
  cases block with
  | none => simp [pastBlock]
  | some b => simp only [blockRank] at h; simp only [pastBlock, decide_eq_true_eq]; omega

/-- Text without signs is kept; a number in it is no redirection. -/
theorem parseOut_text (ex : List Char → Res (List Char)) (full : List Char → List Char) (r : Streams) (R : List Char)
    (block : Option (List Char)) (hb : blockRank block ≤ R.length + 1) :
    ∀ (n : Nat) (t : List Char), t.length ≤ n → NoSign t → (R.head? = some '>' → NoNumber t) → ∀ final pre,
    ∃ final' pre', final' ++ pre' = final ++ (pre ++ t) ∧
      parseOut ex full r final (pre ++ (t ++ R)) (t ++ R) block = parseOut ex full r final' (pre' ++ R) R block := by
  intro n
  induction n with
  | zero =>
    intro t ht _ _ final pre
    have : t = [] := List.length_eq_zero_iff.1 (by omega)
    subst this
    exact ⟨final, pre, by simp, by simp⟩
  | succ n ih =>
    intro t ht hs hn final pre
    rcases out_split (p := isRedir) (t := t) with hno | ⟨t1, c, t2, rfl, hc, hno, hn1, hq⟩
    · exact ⟨final, pre ++ t, by simp, by
        rw [List.append_assoc]
        exact parseOut_congr _ _ _ _ _ _ (redirToken_skip hs.neutral hno R)⟩
    · have hnum : c = '1' ∨ c = '2' := by
        simp only [isRedir, Bool.or_eq_true, beq_iff_eq] at hc
        rcases hc with ((h | h) | h) | h
        · exact .inl h
        · exact .inr h
        · exact absurd (sign_hit hn1 (p := Sign) (c := c) (by rw [h]; decide) hq t2) (hs.none _)
        · exact absurd (sign_hit hn1 (p := Sign) (c := c) (by rw [h]; decide) hq t2) (hs.none _)
      have hn2 : Neutral (t1 ++ [c]) := hn1.append (.one (by rcases hnum with rfl | rfl <;> decide) hq)
      have hs2 : NoSign t2 := NoSign_drop (u := t1 ++ [c]) (by simpa using hs) hn2
      have hhead : (t2 ++ R).head? ≠ some '>' := by
        intro h
        cases t2 with
        | nil =>
          have := hn h t1 c rfl hn1.free
          rcases hnum with rfl | rfl
          · exact this.1 rfl
          · exact this.2 rfl
        | cons d t2 =>
          simp only [List.cons_append, List.head?_cons, Option.some.injEq] at h
          subst h
          exact hs2.none 0 (sign_hit (u := []) .nil (p := Sign) (by decide) (by decide) t2)
      have htok : redirToken (t1 ++ c :: t2 ++ R) = some (c :: (t2 ++ R)) := by
        rw [List.append_assoc, redirToken_skip hn1 hno, List.cons_append, redirToken_head hc]
      obtain ⟨f', p', he, hgo⟩ := ih t2 (by simp at ht; omega) hs2 (by
        intro h u c' hu hf
        refine hn h (t1 ++ [c] ++ u) c' (by simp [hu]) ?_
        rw [List.length_append, Free_append hn2.free]
        exact hf) (final ++ (pre ++ t1) ++ [c]) []
      refine ⟨f', p', by rw [he]; simp, ?_⟩
      rw [parseOut.eq_1, htok]
      simp only
      have hnp : ¬ pastBlock (c :: (t2 ++ R)) block = true := not_past (by simp; omega)
      have htake : ∀ z, (t2 ++ R).take 3 ≠ '>' :: z := by
        intro z hz
        apply hhead
        cases hx : t2 ++ R with
        | nil => rw [hx] at hz; simp at hz
        | cons d x => rw [hx] at hz; simp at hz; simp [hz.1]
      rw [if_neg hnp, if_neg (fun h => htake _ h.2), if_neg (fun h => htake _ h.2), if_pos ⟨hnum, hhead⟩,
        upTo_eq (u := pre ++ t1) (by simp)]
      simpa using hgo

/-! ### Items -/

/-- The redirections of the items, one after the other. -/
def applyItems (full : List Char → List Char) : Streams → List RedirItem → Option Streams
  | r, [] => some r
  | r, .text _ :: is => applyItems full r is
  | r, .out true app n :: is => if r.error.isSome then none else applyItems full { r with error := some (full n), errTrunc := !app } is
  | r, .out false app n :: is => if r.output.isSome then none else applyItems full { r with output := some (full n), outTrunc := !app } is
  | r, .inp n :: is => if r.input.isSome then none else applyItems full { r with input := some (full n) } is
  | r, .errToOut :: is => if r.merge ≠ .none then none else applyItems full { r with merge := .errToOut } is
  | r, .outToErr :: is => if r.merge ≠ .none then none else applyItems full { r with merge := .outToErr } is

theorem redirDelims_iff (c : Char) : redirDelims c = true ↔ Blank c ∨ c = '"' ∨ c = '&' ∨ c = '|' ∨ c = '>' ∨ c = '<' ∨ c = ')' := by
  unfold redirDelims
  simp only [Bool.or_eq_true, beq_iff_eq, stdDelims_iff]
  grind

/-- What names have to escape. -/
structure NameSet (q : Char → Bool) : Prop where
  quote : q '"' = true
  caret : q '^' = true
  amp : q '&' = true
  bar : q '|' = true
  gt : q '>' = true
  lt : q '<' = true
  paren : q ')' = true

theorem nextParam_name {q : Char → Bool} (hq : NameSet q) (ex : List Char → Res (List Char)) (hex : ∀ a, ex (escape q a) = .ok a)
    {w x a tail : List Char} (hw : ∀ c ∈ w, Blank c) (hx : Written q x a) (ht : ∀ c, tail.head? = some c → EndsName c) :
    nextParam redirDelims ex (w ++ (x ++ tail)) = .ok (some (a, tail)) := by
  rw [nextParam_stops (p := redirDelims) (q := q) (by decide) (by decide) ?_ hq.quote hq.caret ex hw hx ?_, hex]
  · rfl
  · intro c hc
    rcases (redirDelims_iff c).1 hc with h | rfl | rfl | rfl | rfl | rfl | rfl
    · exact .inl h
    · exact .inr hq.quote
    · exact .inr hq.amp
    · exact .inr hq.bar
    · exact .inr hq.gt
    · exact .inr hq.lt
    · exact .inr hq.paren
  · intro c hc
    constructor
    · rw [redirDelims_iff]
      rcases ht c hc with h | h | h | h | h | h <;> simp [h]
    · rintro rfl
      rcases ht '"' hc with h | h | h | h | h | h
      · revert h; decide
      all_goals exact absurd h (by decide)

theorem written_head {q : Char → Bool} (hq : NameSet q) {w x a : List Char} (hw : ∀ c ∈ w, Blank c) (hx : Written q x a) (tail : List Char) :
    (w ++ (x ++ tail)).head? ≠ some '>' := by
  cases w with
  | cons c w =>
    intro h
    simp only [List.cons_append, List.head?_cons, Option.some.injEq] at h
    subst h
    exact absurd (hw '>' (by simp)) (by decide)
  | nil =>
    cases hx with
    | quoted => simp
    | word hne hb hqq hqa =>
      cases x with
      | nil => exact absurd rfl hne
      | cons c x =>
        intro h
        simp only [List.nil_append, List.cons_append, List.head?_cons, Option.some.injEq] at h
        subst h
        have := hqa '>' (by simp)
        rw [hq.gt] at this
        exact absurd this (by simp)

theorem written_amp {q : Char → Bool} (hq : NameSet q) {w x a : List Char} (hw : ∀ c ∈ w, Blank c) (hx : Written q x a) (tail : List Char) :
    (w ++ (x ++ tail)).head? ≠ some '&' := by
  cases w with
  | cons c w =>
    intro h
    simp only [List.cons_append, List.head?_cons, Option.some.injEq] at h
    subst h
    exact absurd (hw '&' (by simp)) (by decide)
  | nil =>
    cases hx with
    | quoted => simp
    | word hne hb hqq hqa =>
      cases x with
      | nil => exact absurd rfl hne
      | cons c x =>
        intro h
        simp only [List.nil_append, List.cons_append, List.head?_cons, Option.some.injEq] at h
        subst h
        have := hqa '&' (by simp)
        rw [hq.amp] at this
        exact absurd this (by simp)

theorem take3_ne {x : List Char} {b c : Char} (h : x.head? ≠ some '&') (y : List Char) (hy : y = [] ∨ y = ['>']) :
    ('>' :: (y ++ x)).take 3 ≠ ['>', '&', b] := by
  rcases hy with rfl | rfl
  · intro he
    cases x with
    | nil => simp at he
    | cons d x => simp at he; simp [he.1] at h
  · intro he
    cases x <;> simp at he

/-- The last text. -/
theorem parseOut_last (ex : List Char → Res (List Char)) (full : List Char → List Char) (r : Streams) :
    ∀ (n : Nat) (t : List Char), t.length ≤ n → (∀ i, ¬ (Hit Sign t i ∧ OutQuotes t i)) → ∀ final pre,
      parseOut ex full r final (pre ++ t) t none = .ok (some (r, final ++ (pre ++ t))) := by
  intro n
  induction n with
  | zero =>
    intro t ht _ final pre
    have : t = [] := List.length_eq_zero_iff.1 (by omega)
    subst this
    rw [parseOut.eq_1, redirToken_none (by simp [Hit])]
  | succ n ih =>
    intro t ht hs final pre
    rcases out_split (p := isRedir) (t := t) with hno | ⟨t1, c, t2, rfl, hc, hno, hn1, hq⟩
    · rw [parseOut.eq_1, redirToken_none hno]
    · have hnum : c = '1' ∨ c = '2' := by
        simp only [isRedir, Bool.or_eq_true, beq_iff_eq] at hc
        rcases hc with ((h | h) | h) | h
        · exact .inl h
        · exact .inr h
        · exact absurd (sign_hit hn1 (p := Sign) (c := c) (by rw [h]; decide) hq t2) (hs _)
        · exact absurd (sign_hit hn1 (p := Sign) (c := c) (by rw [h]; decide) hq t2) (hs _)
      have hn2 : Neutral (t1 ++ [c]) := hn1.append (.one (by rcases hnum with rfl | rfl <;> decide) hq)
      have hs2 : ∀ i, ¬ (Hit Sign t2 i ∧ OutQuotes t2 i) := by
        intro i hi
        refine hs ((t1 ++ [c]).length + i) ?_
        rw [show t1 ++ c :: t2 = (t1 ++ [c]) ++ t2 by simp]
        exact ⟨(Hit_append hn2.free t2 i).2 hi.1, (OutQuotes_append hn2 t2 i).2 hi.2⟩
      have hhead : t2.head? ≠ some '>' := by
        intro h
        cases t2 with
        | nil => simp at h
        | cons d t2 =>
          simp only [List.head?_cons, Option.some.injEq] at h
          subst h
          exact hs2 0 (sign_hit (u := []) .nil (p := Sign) (by decide) (by decide) t2)
      have htake : ∀ z, t2.take 3 ≠ '>' :: z := by
        intro z hz
        apply hhead
        cases hx : t2 with
        | nil => rw [hx] at hz; simp at hz
        | cons d x => rw [hx] at hz; simp at hz; simp [hz.1]
      have htok : redirToken (t1 ++ c :: t2) = some (c :: t2) := by
        rw [redirToken_skip hn1 hno, redirToken_head hc]
      rw [parseOut.eq_1, htok]
      simp only
      rw [if_neg (not_past (by simp [blockRank])), if_neg (fun h => htake _ h.2), if_neg (fun h => htake _ h.2), if_pos ⟨hnum, hhead⟩,
        upTo_eq (u := pre ++ t1) (by simp)]
      have := ih t2 (by simp at ht; omega) hs2 (final ++ (pre ++ t1) ++ [c]) []
      simp only [List.nil_append] at this
      rw [this]
      simp

/-- A line of text and redirections, reached with text pending. -/
theorem parseOut_line {q : Char → Bool} (hq : NameSet q) (ex : List Char → Res (List Char)) (hex : ∀ a, ex (escape q a) = .ok a)
    (full : List Char → List Char) {s : List Char} {items : List RedirItem} (h : RedirLine q s items) : ∀ (r : Streams) (final pre : List Char),
    parseOut ex full r final (pre ++ s) s none = .ok ((applyItems full r items).map (·, final ++ (pre ++ textOf items))) := by
  induction h with
  | @last t hs =>
    intro r final pre
    rw [parseOut_last ex full r t.length t (Nat.le_refl _) hs]
    simp [applyItems, textOf]
  | @file t s d w x a rest items hs hsig hnum hw hx hr _ ih =>
    intro r final pre
    have hne : s.head? ≠ none := by cases hsig <;> simp
    obtain ⟨f', p', he, hgo⟩ := parseOut_text ex full r (s ++ (w ++ (x ++ rest))) none (by simp [blockRank]) t.length t (Nat.le_refl _) hs
      (by
        intro h'
        refine hnum ?_
        cases s with
        | nil => simp at hne
        | cons c s => simpa using h') final pre
    rw [hgo]
    have hname := nextParam_name hq ex hex hw hx hr
    have hgt := written_head hq hw hx rest
    have hamp := written_amp hq hw hx rest
    have hlen : rest.length < (w ++ (x ++ rest)).length := by
      have := List.length_pos_iff.2 (written_ne hx)
      simp only [List.length_append]
      omega
    have hfin : ∀ r', parseOut ex full r' (f' ++ p') rest rest none =
        .ok ((applyItems full r' items).map (·, final ++ (pre ++ textOf (.text t :: d a :: items)))) := by
      intro r'
      have := ih r' (f' ++ p') []
      simp only [List.nil_append] at this
      rw [this, he]
      have : textOf (.text t :: d a :: items) = t ++ textOf items := by cases hsig <;> rfl
      rw [this]
      simp
    cases hsig with
    | inp =>
      rw [parseOut.eq_1, List.cons_append, redirToken_head (by decide)]
      simp only
      rw [if_neg (not_past (by simp [blockRank])), if_neg (by simp), if_neg (by simp), if_neg (by simp), if_pos trivial]
      simp only [List.nil_append, upTo_append, hname, applyItems]
      split
      · rfl
      · rw [if_pos (by simp only [List.length_cons]; omega), hfin]
    | @out app =>
      rw [parseOut.eq_1, List.cons_append, redirToken_head (by decide)]
      simp only
      rw [if_neg (not_past (by simp [blockRank])), if_neg (by simp), if_neg (by simp), if_neg (by simp), if_neg (by decide)]
      simp only [if_pos, upTo_append, applyItems, if_neg (show ¬ ('>' = '2') by decide)]
      split
      · rfl
      · cases app with
        | false =>
          simp only [Bool.false_eq_true, if_false, List.nil_append, if_neg hgt, hname, List.length_cons]
          rw [if_pos (by omega), hfin]
          rw [decide_eq_true hgt]; rfl
        | true =>
          simp only [if_true, List.cons_append, List.nil_append, List.head?_cons, List.drop_succ_cons, List.drop_zero, hname, List.length_cons]
          rw [if_pos (by omega), hfin]
          simp
    | @out1 app =>
      rw [parseOut.eq_1, List.cons_append, redirToken_head (by decide)]
      simp only
      rw [if_neg (not_past (by simp [blockRank])), if_neg (by simp), if_neg (by
          rintro ⟨-, h⟩
          rw [List.cons_append] at h
          exact take3_ne (c := 'x') hamp _ (by cases app <;> simp) h), if_neg (by simp), if_neg (by decide)]
      simp only [if_neg (show ¬ ('1' = '>') by decide), List.cons_append, List.drop_succ_cons, List.drop_zero, upTo_append, applyItems,
        if_neg (show ¬ ('1' = '2') by decide)]
      split
      · rfl
      · cases app with
        | false =>
          simp only [Bool.false_eq_true, if_false, List.nil_append, if_neg hgt, hname, List.length_cons]
          rw [if_pos (by omega), hfin]
          rw [decide_eq_true hgt]; rfl
        | true =>
          simp only [if_true, List.cons_append, List.nil_append, List.head?_cons, List.drop_succ_cons, List.drop_zero, hname, List.length_cons]
          rw [if_pos (by omega), hfin]
          simp
    | @out2 app =>
      rw [parseOut.eq_1, List.cons_append, redirToken_head (by decide)]
      simp only
      rw [if_neg (not_past (by simp [blockRank])), if_neg (by
          rintro ⟨-, h⟩
          rw [List.cons_append] at h
          exact take3_ne (c := 'x') hamp _ (by cases app <;> simp) h), if_neg (by
          rintro ⟨-, h⟩
          rw [List.cons_append] at h
          exact take3_ne (c := 'x') hamp _ (by cases app <;> simp) h), if_neg (by simp), if_neg (by decide)]
      simp only [if_neg (show ¬ ('2' = '>') by decide), List.cons_append, List.drop_succ_cons, List.drop_zero, upTo_append, applyItems, if_true]
      split
      · rfl
      · cases app with
        | false =>
          simp only [Bool.false_eq_true, if_false, List.nil_append, if_neg hgt, hname, List.length_cons]
          rw [if_pos (by omega), hfin]
          rw [decide_eq_true hgt]; rfl
        | true =>
          simp only [if_true, List.cons_append, List.nil_append, List.head?_cons, List.drop_succ_cons, List.drop_zero, hname, List.length_cons]
          rw [if_pos (by omega), hfin]
          simp
  | @errToOut t rest items hs _ ih =>
    intro r final pre
    obtain ⟨f', p', he, hgo⟩ := parseOut_text ex full r ("2>&1".toList ++ rest) none (by simp [blockRank]) t.length t (Nat.le_refl _) hs
      (by simp) final pre
    rw [hgo, parseOut.eq_1, show "2>&1".toList ++ rest = '2' :: ('>' :: '&' :: '1' :: rest) from rfl, redirToken_head (by decide)]
    simp only
    rw [if_neg (not_past (by simp [blockRank])), if_pos (by simp), upTo_append]
    simp only [applyItems, textOf]
    split
    · rfl
    · have := ih { r with merge := .errToOut } (f' ++ p') []
      simp only [List.nil_append] at this
      simp only [List.drop_succ_cons, List.drop_zero]
      rw [this, he]
      simp
  | @outToErr t rest items hs _ ih =>
    intro r final pre
    obtain ⟨f', p', he, hgo⟩ := parseOut_text ex full r ("1>&2".toList ++ rest) none (by simp [blockRank]) t.length t (Nat.le_refl _) hs
      (by simp) final pre
    rw [hgo, parseOut.eq_1, show "1>&2".toList ++ rest = '1' :: ('>' :: '&' :: '2' :: rest) from rfl, redirToken_head (by decide)]
    simp only
    rw [if_neg (not_past (by simp [blockRank])), if_neg (by simp), if_pos (by simp), upTo_append]
    simp only [applyItems, textOf]
    split
    · rfl
    · have := ih { r with merge := .outToErr } (f' ++ p') []
      simp only [List.nil_append] at this
      simp only [List.drop_succ_cons, List.drop_zero]
      rw [this, he]
      simp

/-! ### Blocks -/

theorem hit_suffix {p : Char → Bool} {u v : List Char} (hu : Neutral u) (h : ∀ i, ¬ (Hit p (u ++ v) i ∧ OutQuotes (u ++ v) i)) :
    ∀ i, ¬ (Hit p v i ∧ OutQuotes v i) := by
  intro i hi
  exact h (u.length + i) ⟨(Hit_append hu.free v i).2 hi.1, (OutQuotes_append hu v i).2 hi.2⟩

theorem redirToken_cases (s : List Char) :
    (redirToken s = none ∧ ∀ i, ¬ (Hit isRedir s i ∧ OutQuotes s i)) ∨ ∃ c t, redirToken s = some (c :: t) ∧ (c :: t).length ≤ s.length := by
  have hf := searchOutQuotes_spec isRedir s
  cases hs : searchOutQuotes isRedir s with
  | none => rw [hs] at hf; exact .inl ⟨by unfold redirToken; rw [hs]; rfl, hf⟩
  | some i =>
    obtain ⟨c, r, hd, -⟩ := searchOutQuotes_op hs
    have h : redirToken s = some (c :: r) := by unfold redirToken; rw [hs]; simp [hd]
    exact .inr ⟨c, r, h, redirToken_length h⟩

/-- A block is kept as it is. -/
theorem parseOut_block (ex : List Char → Res (List Char)) (full : List Char → List Char) (r : Streams) {t b c : List Char} (hs : NoSign t)
    (hb : Body false b) (final pre : List Char) :
    ∃ final' pre', final' ++ pre' = final ++ (pre ++ (t ++ '(' :: b)) ∧
      parseOut ex full r final (pre ++ (t ++ '(' :: (b ++ ')' :: c))) (t ++ '(' :: (b ++ ')' :: c)) (some ('(' :: (b ++ ')' :: c))) =
        parseOut ex full r final' (pre' ++ ')' :: c) (')' :: c) (innerBegin c) := by
  obtain ⟨f', p', he, hgo⟩ := parseOut_text ex full r ('(' :: (b ++ ')' :: c)) (some ('(' :: (b ++ ')' :: c))) (by simp [blockRank]) t.length t
    (Nat.le_refl _) hs (by simp) final pre
  refine ⟨f', p' ++ '(' :: b, ?_, ?_⟩
  · rw [← List.append_assoc, he]; simp
  · rw [hgo]
    have hn : Neutral ('(' :: b) := .cons (by decide) (by decide) (.body hb)
    rcases redirToken_cases ('(' :: (b ++ ')' :: c)) with ⟨h1, h2⟩ | ⟨d, x, h1, h2⟩
    · rw [parseOut.eq_1, h1, parseOut.eq_1, redirToken_none (hit_suffix (u := '(' :: b) hn h2)]
      simp
    · rw [parseOut.eq_1, h1]
      simp only
      rw [if_pos (by simp only [pastBlock, decide_eq_true_eq]; exact h2)]
      simp only [Option.getD_some, blockEnd_body hb c]
      rw [if_pos]
      · simp
      · refine ⟨?_, by simp [blockRank]; omega⟩
        cases hi : innerBegin ((')' :: c).drop 1) with
        | none => simp [blockRank]
        | some b' =>
          have := innerBegin_length hi
          simp [blockRank] at this ⊢
          omega

theorem noParen_closed {t : List Char} (ht : Closed Struct t) : ∀ i, ¬ (Hit isParen t i ∧ OutQuotes t i) := by
  rintro i ⟨⟨⟨d, hd, hp⟩, hf⟩, ho⟩
  refine ht.none i ⟨⟨⟨d, hd, ?_⟩, hf⟩, ho⟩
  simp only [isParen, Bool.or_eq_true, beq_iff_eq] at hp
  rcases hp with rfl | rfl <;> decide

theorem innerBegin_none {c : List Char} (h : ∀ i, ¬ (Hit isParen c i ∧ OutQuotes c i)) : innerBegin c = none := by
  unfold innerBegin
  have : searchOutQuotes (fun c => c == '(' || c == ')') c = none := IsFirst_unique (searchOutQuotes_spec _ _) h
  rw [this]

theorem paren_token (c : List Char) : redirToken (')' :: c) = redirToken c := by
  refine redirToken_skip (u := [')']) (.one (by decide) (by decide)) ?_ c
  rintro i ⟨⟨⟨d, hd, hp⟩, -⟩, -⟩
  have := List.mem_of_getElem? hd
  simp only [List.mem_cons, List.not_mem_nil, or_false] at this
  subst this
  exact absurd hp (by decide)

/-- From the closing parenthesis of a block on. -/
theorem parseOut_tail {q : Char → Bool} (hq : NameSet q) (ex : List Char → Res (List Char)) (hex : ∀ a, ex (escape q a) = .ok a)
    (full : List Char → List Char) {c : List Char} {items : List RedirItem} (h : RedirTail q c items) : ∀ (r : Streams) (final pre : List Char),
    parseOut ex full r final (pre ++ ')' :: c) (')' :: c) (innerBegin c) =
      .ok ((applyItems full r items).map (·, final ++ (pre ++ ')' :: textOf items))) := by
  induction h with
  | @line c items hl hp =>
    intro r final pre
    rw [innerBegin_none hp, parseOut_congr _ _ _ _ _ _ (paren_token c)]
    have := parseOut_line hq ex hex full hl r final (pre ++ [')'])
    simp only [List.append_assoc, List.singleton_append] at this
    exact this
  | @block t b c items ht hs hb _ ih =>
    intro r final pre
    rw [innerBegin_skip (.closed ht) (noParen_closed ht), innerBegin_open, parseOut_congr _ _ _ _ _ _ (paren_token _)]
    obtain ⟨f', p', he, hgo⟩ := parseOut_block (c := c) ex full r hs hb final (pre ++ [')'])
    simp only [List.append_assoc, List.singleton_append] at hgo
    rw [hgo, ih, ← List.append_assoc, he]
    simp [applyItems, textOf]

theorem skipAllBlanks_split (s : List Char) : ∃ w, s = w ++ skipAllBlanks s ∧ ∀ c ∈ w, Blank c ∨ c = '@' := by
  induction s with
  | nil => exact ⟨[], rfl, by simp⟩
  | cons c s ih =>
    rw [skipAllBlanks]
    split
    · next h =>
      obtain ⟨w, h1, h2⟩ := ih
      refine ⟨c :: w, by rw [List.cons_append, ← h1], ?_⟩
      intro d hd
      rcases List.mem_cons.1 hd with rfl | hd
      · simp only [Bool.or_eq_true, beq_iff_eq, isDelim_iff] at h
        exact h
      · exact h2 d hd
    · exact ⟨[], rfl, by simp⟩

theorem searchHybrid_absent {p q : Char → Bool} {s : List Char} (h : ∀ c ∈ s, p c = false ∧ q c = false) : searchHybrid p q s = none := by
  have h1 : searchTok p s = none := searchTok_absent (fun d hd => (h d hd).1)
  have h2 : searchOutQuotes q s = none := by
    refine IsFirst_unique (searchOutQuotes_spec q s) ?_
    rintro i ⟨⟨⟨c, hc, hp⟩, -⟩, -⟩
    rw [(h c (List.mem_of_getElem? hc)).2] at hp
    exact absurd hp (by simp)
  unfold searchHybrid
  rw [h1, h2]

theorem blockBegin_noBlocks {s : List Char} (h : NoBlocks s) : blockBegin s = none := by
  rcases h with h | ⟨h1, h2, h3, h4⟩
  · exact blockBegin_none h
  · obtain ⟨w, hw, hb⟩ := skipAllBlanks_split s
    obtain ⟨hp, hk⟩ := h1 w _ hw hb
    have hstop : beginStop (skipAllBlanks s) = lineStop false := by
      unfold beginStop
      rw [if_neg]
      simp only [Bool.or_eq_true, blockWord_iff, beq_iff_eq]
      rintro (h | h)
      · exact hk h
      · exact hp h
    have hnone : searchHybrid (fun x => x == '\n') (beginStop (skipAllBlanks s)) (skipAllBlanks s) = none := ?_
    · rw [blockBegin.eq_def]
      simp only
      split
      · rfl
      · next i hi => rw [hnone] at hi; cases hi
    rw [hstop]
    refine searchHybrid_absent ?_
    intro c hc
    have hm : c ∈ s := by rw [hw]; exact List.mem_append_right _ hc
    simp only [lineStop, beq_eq_false_iff_ne, Bool.false_and, Bool.or_false, Bool.or_eq_false_iff]
    exact ⟨by rintro rfl; exact h4 hm, by rintro rfl; exact h2 hm, by rintro rfl; exact h3 hm⟩

/-- The first block of a command. -/
theorem blockBegin_clause {w t b c : List Char} (hw : ∀ c ∈ w, Margin c) (hk : BlockWord t) (ht : Closed Struct t) :
    blockBegin (w ++ t ++ '(' :: (b ++ ')' :: c)) = some ('(' :: (b ++ ')' :: c)) := by
  have hkw := BlockWord_append hk ('(' :: (b ++ ')' :: c))
  refine blockBegin_found (t := t) ?_ ht ?_
  · cases t with
    | nil => obtain ⟨k, b', r, h, -⟩ := hk; simp at h
    | cons d t =>
      rw [List.append_assoc]
      refine skipAllBlanks_margin hw ?_ _
      have := (blockWord_head hk).1
      intro h'
      apply this
      rcases h' with h' | h'
      · left
        refine ⟨h', ?_⟩
        rintro rfl
        obtain ⟨k, b', r, h1, -, h3⟩ := hk
        cases k with
        | nil => rcases h3 with h3 | h3 | h3 <;> simp at h3
        | cons x k =>
          simp at h1
          rw [← h1.1] at h3
          rcases h3 with h3 | h3 | h3 <;> simp at h3 <;> exact absurd h3.1 (by decide)
      · exact .inr h'
  · unfold beginStop
    rw [(blockWord_iff _).2 hkw]
    rfl

theorem blockBegin_group {w b c : List Char} (hw : ∀ c ∈ w, Margin c) :
    blockBegin (w ++ '(' :: (b ++ ')' :: c)) = some ('(' :: (b ++ ')' :: c)) :=
  blockBegin_found (t := []) (skipAllBlanks_margin hw (by decide) _) (Closed_nil _) (by simp [beginStop, clauseStop])

theorem NoSign_margin {w : List Char} (hw : ∀ c ∈ w, Margin c) {t : List Char} (ht : NoSign t) : NoSign (w ++ t) := by
  have hn := Neutral.margin hw
  have hnt := hn.append ht.neutral
  refine ⟨?_, hnt.even, hnt.free⟩
  intro i hi
  rcases Nat.lt_or_ge i w.length with h | h
  · rw [Hit_prefix _ _ _ _ h] at hi
    obtain ⟨⟨⟨d, hd, hp⟩, -⟩, -⟩ := hi
    rcases hw d (List.mem_of_getElem? hd) with ⟨rfl | rfl | rfl | rfl | rfl, -⟩ | rfl <;> exact absurd hp (by decide)
  · obtain ⟨j, rfl⟩ : ∃ j, i = w.length + j := ⟨i - w.length, by omega⟩
    exact ht.none j ⟨(Hit_append hn.free t j).1 hi.1, (OutQuotes_append hn t j).1 hi.2⟩

theorem NoSign_nil : NoSign [] := ⟨by simp [Hit], rfl, by simp [Free, caretsBefore]⟩

theorem parseOutput_command {q : Char → Bool} (hq : NameSet q) (ex : List Char → Res (List Char)) (hex : ∀ a, ex (escape q a) = .ok a)
    (full : List Char → List Char) {s : List Char} {items : List RedirItem} (h : RedirCommand q s items) :
    parseOutput ex full s = .ok ((applyItems full .empty items).map (·, textOf items)) := by
  unfold parseOutput
  cases h with
  | plain hl hb =>
    rw [blockBegin_noBlocks hb]
    have := parseOut_line hq ex hex full hl .empty [] []
    simpa using this
  | @group w b c items hw hb ht =>
    rw [blockBegin_group hw]
    obtain ⟨f', p', he, hgo⟩ := parseOut_block (c := c) ex full .empty (t := w) (by simpa using NoSign_margin hw NoSign_nil) hb [] []
    simp only [List.nil_append] at hgo he
    rw [hgo, parseOut_tail hq ex hex full ht, ← List.append_assoc, he]
    simp [applyItems, textOf]
  | @clause w t b c items hw hk hcl hs hb ht =>
    rw [blockBegin_clause hw hk hcl]
    obtain ⟨f', p', he, hgo⟩ := parseOut_block (c := c) ex full .empty (t := w ++ t) (NoSign_margin hw hs) hb [] []
    simp only [List.nil_append] at hgo he
    rw [hgo, parseOut_tail hq ex hex full ht, ← List.append_assoc, he]
    simp [applyItems, textOf]

/-! ### The items as lists -/

/-- What the lists of redirections amount to, starting from `r`. -/
def foldRedir (full : List Char → List Char) (r : Streams) (is : List RedirItem) : Streams :=
  { merge := match (mergesOf is).head? with
      | none => r.merge
      | some true => .errToOut
      | some false => .outToErr
    outTrunc := match (outsOf false is).head? with
      | none => r.outTrunc
      | some p => !p.1
    errTrunc := match (outsOf true is).head? with
      | none => r.errTrunc
      | some p => !p.1
    input := match (insOf is).head? with
      | none => r.input
      | some n => some (full n)
    output := match (outsOf false is).head? with
      | none => r.output
      | some p => some (full p.2)
    error := match (outsOf true is).head? with
      | none => r.error
      | some p => some (full p.2) }

theorem ite_some_congr {α : Type} {P : Prop} [Decidable P] {a b : α} (h : P → a = b) :
    (if P then some a else none) = (if P then some b else none) := by
  split
  · next hp => rw [h hp]
  · rfl

theorem len_le_zero {α : Type} {l : List α} : l.length + 1 ≤ 1 ↔ l = [] := by
  rw [← List.length_eq_zero_iff]; omega

theorem applyItems_eq (full : List Char → List Char) : ∀ (is : List RedirItem) (r : Streams),
    applyItems full r is =
      if (outsOf false is).length + (if r.output.isSome then 1 else 0) ≤ 1 ∧ (outsOf true is).length + (if r.error.isSome then 1 else 0) ≤ 1 ∧
        (insOf is).length + (if r.input.isSome then 1 else 0) ≤ 1 ∧ (mergesOf is).length + (if r.merge ≠ .none then 1 else 0) ≤ 1
      then some (foldRedir full r is) else none
  | [], r => by
    rw [applyItems, if_pos]
    · rfl
    · simp only [outsOf, insOf, mergesOf, List.length_nil, Nat.zero_add]
      refine ⟨?_, ?_, ?_, ?_⟩ <;> split <;> omega
  | .text t :: is, r => by
    rw [applyItems, applyItems_eq full is r]
    rfl
  | .out true app n :: is, r => by
    rw [applyItems]
    by_cases h : r.error.isSome = true
    · rw [if_pos h, if_neg]
      rintro ⟨-, h2, -⟩
      simp [outsOf, h] at h2
    · rw [if_neg h, applyItems_eq full is]
      simp only [outsOf, insOf, mergesOf, if_neg h, if_true, List.length_cons, Option.isSome_some, if_neg (show ¬ (true = false) by decide),
        Nat.add_zero]
      refine ite_some_congr fun hc => ?_
      · have := len_le_zero.1 hc.2.1
        simp [foldRedir, outsOf, insOf, mergesOf, this]
  | .out false app n :: is, r => by
    rw [applyItems]
    by_cases h : r.output.isSome = true
    · rw [if_pos h, if_neg]
      rintro ⟨h2, -⟩
      simp [outsOf, h] at h2
    · rw [if_neg h, applyItems_eq full is]
      simp only [outsOf, insOf, mergesOf, if_neg h, if_true, List.length_cons, Option.isSome_some, if_neg (show ¬ (false = true) by decide),
        Nat.add_zero]
      refine ite_some_congr fun hc => ?_
      · have := len_le_zero.1 hc.1
        simp [foldRedir, outsOf, insOf, mergesOf, this]
  | .inp n :: is, r => by
    rw [applyItems]
    by_cases h : r.input.isSome = true
    · rw [if_pos h, if_neg]
      rintro ⟨-, -, h2, -⟩
      simp [insOf, h] at h2
    · rw [if_neg h, applyItems_eq full is]
      simp only [outsOf, insOf, mergesOf, if_neg h, if_true, List.length_cons, Option.isSome_some, Nat.add_zero]
      refine ite_some_congr fun hc => ?_
      · have := len_le_zero.1 hc.2.2.1
        simp [foldRedir, outsOf, insOf, mergesOf, this]
  | .errToOut :: is, r => by
    rw [applyItems]
    by_cases h : r.merge ≠ .none
    · rw [if_pos h, if_neg]
      rintro ⟨-, -, -, h2⟩
      simp [mergesOf, h] at h2
    · rw [if_neg h, applyItems_eq full is]
      simp only [outsOf, insOf, mergesOf, if_neg h, List.length_cons, Nat.add_zero, ne_eq, reduceCtorEq, not_false_eq_true, if_true]
      refine ite_some_congr fun hc => ?_
      · have := len_le_zero.1 hc.2.2.2
        simp [foldRedir, outsOf, insOf, mergesOf, this]
  | .outToErr :: is, r => by
    rw [applyItems]
    by_cases h : r.merge ≠ .none
    · rw [if_pos h, if_neg]
      rintro ⟨-, -, -, h2⟩
      simp [mergesOf, h] at h2
    · rw [if_neg h, applyItems_eq full is]
      simp only [outsOf, insOf, mergesOf, if_neg h, List.length_cons, Nat.add_zero, ne_eq, reduceCtorEq, not_false_eq_true, if_true]
      refine ite_some_congr fun hc => ?_
      · have := len_le_zero.1 hc.2.2.2
        simp [foldRedir, outsOf, insOf, mergesOf, this]

instance (s : List Char) : Decidable (NoSign s) :=
  decidable_of_iff ((∀ i, i < s.length → ¬ (Hit Sign s i ∧ OutQuotes s i)) ∧ quotesBefore s s.length % 2 = 0 ∧ Free s s.length)
    ⟨fun ⟨h1, h3, h4⟩ => ⟨fun i h => h1 i (Hit_lt h.1) h, h3, h4⟩, fun h => ⟨fun i _ => h.none i, h.even, h.free⟩⟩

/-! ### What is kept of a command -/

theorem nextParam_suffix {p : Char → Bool} (ex : List Char → Res (List Char)) (line : List Char)
    (hnext : ∀ line, (nextParam p ex line = .ok none) ∨
      ∃ w raw rest text, line = w ++ (raw ++ rest) ∧ (text = ['^'] → raw ≠ []) ∧
        nextParam p ex line = if text = ['^'] then nextParam p ex rest else ex text >>= fun t => pure (some (t, rest))) :
    ∀ t rest, nextParam p ex line = .ok (some (t, rest)) → rest <:+ line := by
  induction hn : line.length using Nat.strongRecOn generalizing line with
  | ind n ih =>
    subst hn
    intro t rest h
    rcases hnext line with h1 | ⟨w, raw, rest', text, h1, h2, h3⟩
    · rw [h1] at h; simp at h
    · have hsuf : rest' <:+ line := ⟨w ++ raw, by rw [h1, List.append_assoc]⟩
      rw [h3] at h
      by_cases ht : text = ['^']
      · rw [if_pos ht] at h
        have hl : rest'.length < line.length := by
          have := List.length_pos_iff.2 (h2 ht)
          rw [h1]; simp only [List.length_append]; omega
        exact (ih _ hl rest' rfl t rest h).trans hsuf
      · rw [if_neg ht] at h
        cases he : ex text with
        | ok u =>
          rw [he, Res.ok_bind, Res.pure_eq] at h
          cases h
          exact hsuf
        | ub => rw [he, Res.ub_bind] at h; cases h
        | hang => rw [he, Res.hang_bind] at h; cases h

theorem redirToken_suffix {s t : List Char} (h : redirToken s = some t) : t <:+ s := by
  unfold redirToken at h
  cases hs : searchOutQuotes isRedir s with
  | none => rw [hs] at h; simp at h
  | some i => rw [hs] at h; simp only [Option.map_some, Option.some.injEq] at h; subst h; exact List.drop_suffix _ _

/-- Going on after a token in text kept from it on. -/
theorem sublist_step {ch tok rest x : List Char} (hs : tok <:+ ch) (hr : rest <:+ tok) (hx : x.Sublist rest) : (upTo ch tok ++ x).Sublist ch := by
  obtain ⟨u, rfl⟩ := hs
  rw [upTo_append]
  exact (List.Sublist.refl u).append (hx.trans hr.sublist)

theorem sublist_digit {ch t x : List Char} {c : Char} (hs : (c :: t) <:+ ch) (hx : x.Sublist t) : (upTo ch (c :: t) ++ c :: x).Sublist ch := by
  obtain ⟨u, rfl⟩ := hs
  rw [upTo_append]
  exact (List.Sublist.refl u).append (hx.cons_cons c)

end PBat
