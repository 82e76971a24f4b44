import Verif.Lemmas.Dump
import Verif.Lemmas.If
import Verif.Lemmas.Def
import Verif.Spec.Env
/-
C86: the program DUMP.
-/
namespace PBat
open Spec

theorem kind_context {i : Nat} {name : List Char} {k : Nat} {sg : Bool} (hi : dumpKinds[i]? = some (name, k, sg)) (hex : Bool) :
    (fillContext i hex).size = k ∧ 1 ≤ k ∧ 1 ≤ (fillContext i hex).n ∧ dumpTypes[i]? = some (name, k, decWidth i) := by
  match i, hi with
  | 0, hi => cases hi; cases hex <;> decide
  | 1, hi => cases hi; cases hex <;> decide
  | 2, hi => cases hi; cases hex <;> decide
  | 3, hi => cases hi; cases hex <;> decide
  | 4, hi => cases hi; cases hex <;> decide
  | 5, hi => cases hi; cases hex <;> decide
  | 6, hi => cases hi; cases hex <;> decide
  | j + 7, hi =>
    have : dumpKinds[j + 7]? = none := List.getElem?_eq_none (by show 7 ≤ j + 7; omega)
    rw [this] at hi; cases hi

/-- Rows of `n` elements of `k` bytes. -/
def RowsOf (n k : Nat) (rows : List (List (List Nat))) : Prop :=
  ∀ es ∈ rows, es.length = n ∧ ∀ e ∈ es, e.length = k ∧ ∀ b ∈ e, b < 256

/-- No element is shown in hexadecimal as a negative number of one or two bytes. -/
def NoNegative (hex sg : Bool) (k : Nat) (es : List (List Nat)) : Prop :=
  hex = true → sg = true → k < 4 → ∀ e ∈ es, littleEndian e < 2 ^ (8 * k - 1)

theorem fullChars_length (bs : List Nat) : (fullChars bs).length = bs.length + 1 := by simp [fullChars]

/-- The loop on rows, whatever follows them. -/
theorem dumpLoop_rows {i : Nat} {name : List Char} {k : Nat} {sg : Bool} (hi : dumpKinds[i]? = some (name, k, sg)) (hex : Bool)
    (rows : List (List (List Nat))) (hr : RowsOf (fillContext i hex).n k rows) (hh : ∀ es ∈ rows, NoNegative hex sg k es) (more : List (Option (List Nat)))
    (a : Nat) (chars : List (Option Nat)) (hc : chars.length = (fillContext i hex).n * k + 1) :
    ∃ out, DumpRows hex k sg (decWidth i) a rows out ∧
      dumpLoop (fillContext i hex) a chars (rows.map (fun es => some es.flatten) ++ more) =
        (dumpLoop (fillContext i hex) (a + rows.length * ((fillContext i hex).n * k))
          ((rows.getLast?.map fun es => fullChars es.flatten).getD chars) more).bind fun r => .ok (out ++ r) := by
  obtain ⟨hs, hk, -, -⟩ := kind_context hi hex
  induction rows generalizing a chars with
  | nil =>
    refine ⟨[], .nil, ?_⟩
    simp only [List.map_nil, List.nil_append, List.length_nil, Nat.zero_mul, Nat.add_zero, List.getLast?_nil, Option.map_none, Option.getD_none]
    cases dumpLoop (fillContext i hex) a chars more <;> rfl
  | cons es rows ih =>
    obtain ⟨hn, he⟩ := hr es (by simp)
    obtain ⟨line, h1, h2⟩ := dumpRow_full hi hex hs hk es hn (fun e h => (he e h).1) (fun e h => (he e h).2) (hh es (by simp)) a chars hc
    have hfl : es.flatten.length = (fillContext i hex).n * k := by rw [flatten_length fun e h => (he e h).1, hn]
    obtain ⟨out, h3, h4⟩ := ih (fun x hx => hr x (by simp [hx])) (fun x hx => hh x (by simp [hx])) (a + (fillContext i hex).n * k) (fullChars es.flatten)
      (by rw [fullChars_length, hfl])
    refine ⟨line ++ out, .cons h2 (by rw [hfl]; exact h3), ?_⟩
    rw [List.map_cons, List.cons_append, dumpLoop, h1, Res.ok_bind, hs, h4]
    have e1 : a + (fillContext i hex).n * k + rows.length * ((fillContext i hex).n * k) = a + (es :: rows).length * ((fillContext i hex).n * k) := by
      rw [List.length_cons, Nat.succ_mul]; omega
    have e2 : ((rows.getLast?.map fun es => fullChars es.flatten).getD (fullChars es.flatten)) =
        (((es :: rows).getLast?.map fun es => fullChars es.flatten).getD chars) := by
      cases rows with
      | nil => rfl
      | cons r rs => simp [List.getLast?_cons]
    rw [e1, e2]
    cases dumpLoop (fillContext i hex) (a + (es :: rows).length * ((fillContext i hex).n * k))
      (((es :: rows).getLast?.map fun es => fullChars es.flatten).getD chars) more with
    | ub => rfl
    | hang => rfl
    | ok r => simp [Res.bind, Bind.bind]

/-- A file of whole rows is shown row by row: its place, its elements in order and its characters.  Partial: whole rows (`C86_last_partial`, `C86_short`); no
negative numbers of one or two bytes in hexadecimal (`C86_negative`); integral types other than `ull` (`C86_float`). -/
theorem C86_rows_partial {i : Nat} {name : List Char} {k : Nat} {sg : Bool} (hi : dumpKinds[i]? = some (name, k, sg)) (hex : Bool)
    (rows : List (List (List Nat))) (hr : RowsOf (fillContext i hex).n k rows) (hh : ∀ es ∈ rows, NoNegative hex sg k es) :
    ∃ out, dumpFd (fillContext i hex) (rows.map fun es => some es.flatten) = .ok out ∧ DumpRows hex k sg (decWidth i) 0 rows out := by
  obtain ⟨hs, hk, -, -⟩ := kind_context hi hex
  obtain ⟨out, h1, h2⟩ := dumpLoop_rows hi hex rows hr hh [] 0 (List.replicate ((fillContext i hex).n * (fillContext i hex).size + 1) none) (by simp [hs])
  refine ⟨out, ?_, h1⟩
  rw [List.append_nil] at h2
  unfold dumpFd
  rw [h2]
  simp [dumpLoop, Res.bind]

/-- The last row of a file that has more than one: its elements, the last completed by zero bytes, and its characters, but after them a point and the characters
of the row before. -/
theorem C86_last_partial {i : Nat} {name : List Char} {k : Nat} {sg : Bool} (hi : dumpKinds[i]? = some (name, k, sg)) (hex : Bool)
    (rows : List (List (List Nat))) (prev es : List (List Nat)) (hr : RowsOf (fillContext i hex).n k (rows ++ [prev]))
    (hh : ∀ x ∈ rows ++ [prev], NoNegative hex sg k x) (he : ∀ e ∈ es, e.length = k ∧ ∀ b ∈ e, b < 256) (hn : es.length < (fillContext i hex).n)
    (hh2 : NoNegative hex sg k es) (bs : List Nat) (z : Nat) (hz : z < k) (hbs : bs ++ List.replicate z 0 = es.flatten) :
    ∃ out p t, dumpFd (fillContext i hex) ((rows ++ [prev]).map (fun es => some es.flatten) ++ [some bs]) =
        .ok (out ++ p ++ ' ' :: t ++ List.replicate (((fillContext i hex).n - es.length) * ((fillContext i hex).width + 1)) ' ' ++
          es.flatten.map byteChar ++ '.' :: (prev.flatten.drop (es.flatten.length + 1)).map byteChar ++ ['\n']) ∧
      DumpRows hex k sg (decWidth i) 0 (rows ++ [prev]) out ∧ AddressText ((rows.length + 1) * ((fillContext i hex).n * k)) p ∧
      Elements hex k sg (decWidth i) es t := by
  obtain ⟨hs, hk, -, -⟩ := kind_context hi hex
  obtain ⟨out, h1, h2⟩ := dumpLoop_rows hi hex (rows ++ [prev]) hr hh [some bs] 0 (List.replicate ((fillContext i hex).n * (fillContext i hex).size + 1) none)
    (by simp [hs])
  obtain ⟨hpn, hpe⟩ := hr prev (by simp)
  have hfl : prev.flatten.length = (fillContext i hex).n * k := by rw [flatten_length fun e h => (hpe e h).1, hpn]
  obtain ⟨line, chars', t, h3, h4, h5⟩ := dumpRow_last hi hex hs hk es hn (fun e h => (he e h).1) (fun e h => (he e h).2) hh2
    ((rows.length + 1) * ((fillContext i hex).n * k)) bs z hz hbs prev.flatten hfl
  refine ⟨out, _, t, ?_, h1, ptrText_address _, h4⟩
  unfold dumpFd
  rw [h2]
  have e1 : (((rows ++ [prev]).getLast?.map fun es => fullChars es.flatten).getD
      (List.replicate ((fillContext i hex).n * (fillContext i hex).size + 1) none)) = fullChars prev.flatten := by simp
  rw [e1, List.length_append, List.length_singleton, Nat.zero_add, dumpLoop, h3, Res.ok_bind, dumpLoop, h5]
  simp [Res.bind, Bind.bind]


/-! ### Different contents are shown differently -/

theorem digits_noblank {b : Nat} {t : List Char} {n : Nat} (h : DigitsOf b t n) : ' ' ∉ t := by
  intro hm
  have := List.mem_of_mem_take (h.1 _ hm)
  revert this; decide

theorem element_noblank {hex sg : Bool} {k w : Nat} {e : List Nat} {t : List Char} (h : ElementText hex k sg w e t) : ' ' ∉ t := by
  unfold ElementText at h
  split at h
  · exact digits_noblank h.2
  · obtain ⟨v, -, -, h1, h2⟩ := h
    rcases Int.lt_or_le v 0 with hv | hv
    · obtain ⟨ds, rfl, hd⟩ := h2 hv
      intro hm
      rcases List.mem_cons.1 hm with hm | hm
      · revert hm; decide
      · exact digits_noblank hd hm
    · exact digits_noblank (h1 hv)

theorem littleEndian_inj {a b : List Nat} (hl : a.length = b.length) (ha : ∀ x ∈ a, x < 256) (hb : ∀ x ∈ b, x < 256)
    (h : littleEndian a = littleEndian b) : a = b := by
  induction a generalizing b with
  | nil => cases b with
    | nil => rfl
    | cons y b => cases hl
  | cons x a ih =>
    cases b with
    | nil => cases hl
    | cons y b =>
      have h1 := ha x (by simp)
      have h2 := hb y (by simp)
      have h3 : x + 256 * littleEndian a = y + 256 * littleEndian b := h
      have h4 : x = y := by omega
      rw [h4, ih (by simpa using hl) (fun z hz => ha z (by simp [hz])) (fun z hz => hb z (by simp [hz])) (by omega)]

theorem value_inj {k : Nat} {sg : Bool} {a b : List Nat} {v : Int} (h1 : IsValue k sg a v) (h2 : IsValue k sg b v) : littleEndian a = littleEndian b := by
  have := h1.1.symm.trans h2.1
  omega

theorem digits_minus {b : Nat} {t : List Char} {n : Nat} (h : DigitsOf b t n) (ds : List Char) : t ≠ '-' :: ds := by
  rintro rfl
  have := List.mem_of_mem_take (h.1 '-' (by simp))
  revert this; decide

theorem element_inj {hex sg : Bool} {k w : Nat} {a b : List Nat} {t : List Char} (hl : a.length = b.length) (ha : ∀ x ∈ a, x < 256)
    (hb : ∀ x ∈ b, x < 256) (h1 : ElementText hex k sg w a t) (h2 : ElementText hex k sg w b t) : a = b := by
  refine littleEndian_inj hl ha hb ?_
  unfold ElementText at h1 h2
  split at h1
  · next h =>
    rw [if_pos h] at h2
    exact h1.2.2.symm.trans h2.2.2
  · next h =>
    rw [if_neg h] at h2
    obtain ⟨v, v1, -, v2, v3⟩ := h1
    obtain ⟨u, u1, -, u2, u3⟩ := h2
    have e : v = u := by
      rcases Int.lt_or_le v 0 with hv | hv
      · obtain ⟨ds, e1, d1⟩ := v3 hv
        rcases Int.lt_or_le u 0 with hu | hu
        · obtain ⟨ds', e2, d2⟩ := u3 hu
          have e3 : ds = ds' := by rw [e1] at e2; injection e2
          subst e3
          have := d1.2.symm.trans d2.2
          omega
        · exact absurd e1 (digits_minus (u2 hu) ds)
      · rcases Int.lt_or_le u 0 with hu | hu
        · obtain ⟨ds', e2, d2⟩ := u3 hu
          exact absurd e2 (digits_minus (v2 hv) ds')
        · have := (v2 hv).2.symm.trans (u2 hu).2
          omega
    subst e
    exact value_inj v1 u1

theorem blank_split {a b x y : List Char} (ha : ' ' ∉ a) (hb : ' ' ∉ b) (h : a ++ ' ' :: x = b ++ ' ' :: y) : a = b ∧ x = y := by
  induction a generalizing b with
  | nil =>
    cases b with
    | nil => exact ⟨rfl, by simpa using h⟩
    | cons c b =>
      injection h with h1 h2
      exact absurd (by rw [← h1]; simp) hb
  | cons d a ih =>
    cases b with
    | nil =>
      injection h with h1 h2
      exact absurd (by rw [h1]; simp) ha
    | cons c b =>
      injection h with h1 h2
      obtain ⟨h3, h4⟩ := ih (fun hm => ha (by simp [hm])) (fun hm => hb (by simp [hm])) h2
      exact ⟨by rw [h1, h3], h4⟩

theorem elements_inj {hex sg : Bool} {k w : Nat} {as bs : List (List Nat)} {t u x y : List Char} (hl : as.length = bs.length)
    (ha : ∀ e ∈ as, e.length = k ∧ ∀ b ∈ e, b < 256) (hb : ∀ e ∈ bs, e.length = k ∧ ∀ b ∈ e, b < 256)
    (h1 : Elements hex k sg w as t) (h2 : Elements hex k sg w bs u) (h : t ++ x = u ++ y) : as = bs ∧ x = y := by
  induction h1 generalizing bs u with
  | nil =>
    cases h2 with
    | nil => exact ⟨rfl, by simpa using h⟩
    | cons => cases hl
  | @cons e es t r ht _ ih =>
    cases h2 with
    | nil => cases hl
    | @cons e' es' t' r' ht' hr' =>
      rw [List.append_assoc, List.append_assoc, List.cons_append, List.cons_append] at h
      obtain ⟨h3, h4⟩ := blank_split (element_noblank ht) (element_noblank ht') h
      subst h3
      obtain ⟨h5, h6⟩ := ih (by simpa using hl) (fun z hz => ha z (by simp [hz])) (fun z hz => hb z (by simp [hz])) hr' h4
      have h7 := element_inj ((ha e (by simp)).1.trans (hb e' (by simp)).1.symm) (ha e (by simp)).2 (hb e' (by simp)).2 ht ht'
      exact ⟨by rw [h5, h7], h6⟩

theorem address_noblank {a : Nat} {p : List Char} (h : AddressText a p) : ' ' ∉ p := by
  unfold AddressText at h
  split at h
  · subst h; decide
  · obtain ⟨ds, rfl, hd⟩ := h
    intro hm
    have : ' ' ∈ ds := by simpa using hm
    exact digits_noblank hd this

/-- Different contents of whole rows are shown differently: nothing is lost. -/
theorem C86_nothing_lost_partial {i : Nat} {name : List Char} {k : Nat} {sg : Bool} (hi : dumpKinds[i]? = some (name, k, sg)) (hex : Bool)
    (rows rows' : List (List (List Nat))) (hr : RowsOf (fillContext i hex).n k rows) (hr' : RowsOf (fillContext i hex).n k rows')
    (hh : ∀ es ∈ rows, NoNegative hex sg k es) (hh' : ∀ es ∈ rows', NoNegative hex sg k es)
    (h : dumpFd (fillContext i hex) (rows.map fun es => some es.flatten) = dumpFd (fillContext i hex) (rows'.map fun es => some es.flatten)) :
    rows = rows' := by
  obtain ⟨out, h1, h2⟩ := C86_rows_partial hi hex rows hr hh
  obtain ⟨out', h3, h4⟩ := C86_rows_partial hi hex rows' hr' hh'
  rw [h1, h3] at h
  injection h with h
  subst h
  clear h1 h3 hh hh'
  generalize 0 = a at h2 h4
  have hend : ∀ {a : Nat} {es : List (List Nat)} {rows : List (List (List Nat))} {o : List Char},
      DumpRows hex k sg (decWidth i) a (es :: rows) o → o ≠ [] := by
    intro a es rows o h
    cases h with
    | cons h _ =>
      obtain ⟨p, t, -, -, rfl⟩ := h
      simp
  induction h2 generalizing rows' with
  | nil =>
    cases rows' with
    | nil => rfl
    | cons es rs => exact absurd rfl (hend h4)
  | @cons a es rs line o hl h2 ih =>
    cases rows' with
    | nil =>
      exfalso
      generalize hw : line ++ o = whole at h4
      cases h4
      exact hend (.cons hl h2) hw
    | cons es' rs' =>
      generalize hw : line ++ o = whole at h4
      cases h4 with
      | @cons _ _ _ line' o' hl' h4 =>
        obtain ⟨p, t, p1, p2, rfl⟩ := hl
        obtain ⟨q, u, q1, q2, rfl⟩ := hl'
        simp only [List.append_assoc, List.cons_append] at hw
        obtain ⟨e1, e2⟩ := blank_split (address_noblank p1) (address_noblank q1) hw
        obtain ⟨hn, he⟩ := hr es (by simp)
        obtain ⟨hn', he'⟩ := hr' es' (by simp)
        obtain ⟨e3, e4⟩ := elements_inj (hn.trans hn'.symm) he he' p2 q2 e2
        subst e3
        have e5 : o = o' := by simpa using e4
        subst e5
        rw [ih rs' (fun x hx => hr x (List.mem_cons_of_mem _ hx)) (fun x hx => hr' x (List.mem_cons_of_mem _ hx)) h4]

/-! ### Arguments -/

theorem kind_fold {i : Nat} {name : List Char} {k : Nat} {sg : Bool} (hi : dumpKinds[i]? = some (name, k, sg)) :
    fold name = name ∧ name.head? ≠ some ':' ∧ getType name = some i := by
  match i, hi with
  | 0, hi => cases hi; decide +kernel
  | 1, hi => cases hi; decide +kernel
  | 2, hi => cases hi; decide +kernel
  | 3, hi => cases hi; decide +kernel
  | 4, hi => cases hi; decide +kernel
  | 5, hi => cases hi; decide +kernel
  | 6, hi => cases hi; decide +kernel
  | j + 7, hi =>
    have : dumpKinds[j + 7]? = none := List.getElem?_eq_none (by show 7 ≤ j + 7; omega)
    rw [this] at hi; cases hi

theorem getType_fold {w v : List Char} (h : fold w = fold v) : getType w = getType v := by
  unfold getType
  congr 1
  funext d
  rw [Bool.eq_iff_iff, beq_iff_eq, beq_iff_eq, stricmp_zero, stricmp_zero]
  show fold w = fold d.1 ↔ fold v = fold d.1
  rw [h]

theorem dumpOption_word {x : DumpItem} {a : List Char} (h : DumpWord x a) (t : Nat) (hex : Bool) :
    dumpOption t hex a = .ok (match x with
      | .type i => .go i hex
      | .hex => .go t true
      | .file _ => .file) := by
  cases h with
  | @type i name k sg c colon w hi hc hcol hw =>
    have hp : prefixI ['/', 'T'] ('/' :: c :: (colon ++ w)) = true := by
      have h1 : ('T'.toLower == c.toLower) = true := by rw [hc]; decide
      show (('/'.toLower == '/'.toLower) && (('T'.toLower == c.toLower) && true)) = true
      rw [h1]; decide
    obtain ⟨h1, h2, h3⟩ := kind_fold hi
    have hw2 : w.head? ≠ some ':' := by
      intro hh
      cases w with
      | nil => cases hh
      | cons d w =>
        have : d = ':' := by simpa using hh
        subst this
        rw [← hw] at h2
        exact h2 (by simp [fold])
    have hg : getType (if ((('/' :: c :: (colon ++ w)).drop 2).head? = some ':') then ('/' :: c :: (colon ++ w)).drop 3 else ('/' :: c :: (colon ++ w)).drop 2) = some i := by
      rw [← h3, ← getType_fold (hw.trans h1.symm)]
      rcases hcol with rfl | rfl
      · rw [if_neg (by simpa using hw2)]; rfl
      · rw [if_pos (by rfl)]; rfl
    unfold dumpOption
    rw [if_pos hp, hg]
  | @hex c hc =>
    have hT : ¬ prefixI ['/', 'T'] ['/', c] = true := by
      show ¬ (('/'.toLower == '/'.toLower) && (('T'.toLower == c.toLower) && true)) = true
      rw [hc]; decide
    have hH : stricmp ['/', c] ['/', 'H'] = 0 := by
      rw [stricmp_zero]
      show ['/'.toLower, c.toLower] = ['/'.toLower, 'H'.toLower]
      rw [hc]; decide
    unfold dumpOption
    rw [if_neg hT, if_pos hH]
  | file hn =>
    have hp : ∀ c, ¬ prefixI ['/', c] a = true := by
      intro c hc
      cases a with
      | nil => simp [prefixI] at hc
      | cons d r =>
        have h1 : '/'.toLower == d.toLower := by
          have : (('/'.toLower == d.toLower) && prefixI [c] r) = true := hc
          exact (Bool.and_eq_true_iff.1 this).1
        exact hn (by rw [toLower_slash (c := d) (by have := beq_iff_eq.1 h1; rw [← this]; decide)]; rfl)
    have hs : ∀ c, ¬ stricmp a ['/', c] = 0 := by
      intro c hc
      rw [stricmp_zero] at hc
      cases a with
      | nil => cases hc
      | cons d r =>
        have : d.toLower :: r.map Char.toLower = '/'.toLower :: _ := hc
        injection this with h1 h2
        exact hn (by rw [toLower_slash (c := d) (by rw [h1]; decide)]; rfl)
    unfold dumpOption
    rw [if_neg (hp _), if_neg (hs _), if_neg (hp _), if_neg (hs _)]

/-- Every file is there and can be shown. -/
def DumpFiles (files : List Char → Option (List (Option (List Nat)))) (listing : Nat × Bool → List Char → List Char) (m : Nat × Bool) (xs : List DumpItem) : Prop :=
  ∀ pre name post, xs = pre ++ .file name :: post →
    ∃ reads, files name = some reads ∧ dumpFd (fillContext (dumpMode m pre).1 (dumpMode m pre).2) reads = .ok (listing (dumpMode m pre) name)

/-- The number of files. -/
def fileCount (xs : List DumpItem) : Nat := xs.countP fun | .file _ => true | _ => false

theorem dumpArgs_words {files : List Char → Option (List (Option (List Nat)))} {input : List (Option (List Nat))} {listing : Nat × Bool → List Char → List Char}
    {xs : List DumpItem} {args : List (List Char)} (h : DumpWords xs args) (m : Nat × Bool) (hf : DumpFiles files listing m xs) (n : Nat) (rest : List (List Char)) :
    dumpArgs files input m.1 m.2 n (args ++ rest) =
      (dumpArgs files input (dumpMode m xs).1 (dumpMode m xs).2 (n + fileCount xs) rest).bind fun r => .ok (dumpOutput listing m xs ++ r.1, r.2) := by
  induction h generalizing m n with
  | nil =>
    show dumpArgs files input m.1 m.2 n rest = (dumpArgs files input m.1 m.2 n rest).bind fun r => .ok ([] ++ r.1, r.2)
    cases dumpArgs files input m.1 m.2 n rest <;> rfl
  | @cons x xs a as hx _ ih =>
    rw [List.cons_append, dumpArgs, dumpOption_word hx, Res.ok_bind]
    cases x with
    | type i => exact ih (i, m.2) (fun pre name post e => hf (.type i :: pre) name post (by rw [e]; rfl)) n
    | hex => exact ih (m.1, true) (fun pre name post e => hf (.hex :: pre) name post (by rw [e]; rfl)) n
    | file name =>
      have ha : a = name := by cases hx; rfl
      subst ha
      obtain ⟨reads, h1, h2⟩ := hf [] a xs rfl
      have h3 : dumpFd (fillContext m.1 m.2) reads = .ok (listing m a) := h2
      have h4 := ih m (fun pre name post e => hf (.file a :: pre) name post (by rw [e]; rfl)) (n + 1)
      have h5 : n + fileCount (.file a :: xs) = n + 1 + fileCount xs := by simp [fileCount]; omega
      simp only [h1, h3, Res.ok_bind, h4]
      rw [h5]
      show _ = (dumpArgs files input (dumpMode m xs).1 (dumpMode m xs).2 (n + 1 + fileCount xs) rest).bind fun r => _
      cases dumpArgs files input (dumpMode m xs).1 (dumpMode m xs).2 (n + 1 + fileCount xs) rest with
      | ub => rfl
      | hang => rfl
      | ok r =>
        show Res.ok _ = Res.ok _
        simp [dumpOutput]

/-- The files are shown in order, each after its name and as the options before it ask.  Partial: names do not begin with a slash (`C86_absolute`, `C86_format`);
types `ull`, `f` and `d` (`C86_float`); `/B` (`C86_format`). -/
theorem C86_files_partial {files : List Char → Option (List (Option (List Nat)))} {input : List (Option (List Nat))} {listing : Nat × Bool → List Char → List Char}
    {xs : List DumpItem} {args : List (List Char)} (h : DumpWords xs args) (hf : DumpFiles files listing (0, false) xs) (name : List Char) (hn : DumpItem.file name ∈ xs) :
    dumpMain files input args = .ok (dumpOutput listing (0, false) xs, 0) := by
  have h1 := dumpArgs_words (input := input) h (0, false) hf 0 []
  have hc : ¬ 0 + fileCount xs = 0 := by
    have : 0 < fileCount xs := List.countP_pos_iff.2 ⟨_, hn, rfl⟩
    omega
  rw [List.append_nil] at h1
  unfold dumpMain
  rw [h1, dumpArgs, if_neg hc]
  simp [Res.bind]

/-- Without a file the standard input is shown, without a name. -/
theorem C86_input_partial {files : List Char → Option (List (Option (List Nat)))} {input : List (Option (List Nat))}
    {xs : List DumpItem} {args : List (List Char)} (h : DumpWords xs args) (hn : ∀ name, DumpItem.file name ∉ xs) (out : List Char)
    (ho : dumpFd (fillContext (dumpMode (0, false) xs).1 (dumpMode (0, false) xs).2) input = .ok out) : dumpMain files input args = .ok (out, 0) := by
  have hf : DumpFiles files (fun _ _ => []) (0, false) xs := fun pre name post e => absurd (by rw [e]; simp) (hn name)
  have h1 := dumpArgs_words (input := input) h (0, false) hf 0 []
  have hc : 0 + fileCount xs = 0 := by
    rw [Nat.zero_add]
    refine List.countP_eq_zero.2 fun x hx => ?_
    cases x with
    | file name => exact absurd hx (hn name)
    | type i => simp
    | hex => simp
  have hd : ∀ m, dumpOutput (fun _ _ => []) m xs = [] := by
    clear h hf h1 hc ho
    induction xs with
    | nil => intro m; rfl
    | cons x xs ih =>
      intro m
      have := ih (fun name hm => hn name (by simp [hm]))
      cases x with
      | file name => exact absurd (by simp) (hn name)
      | type i => exact this _
      | hex => exact this _
  rw [List.append_nil] at h1
  unfold dumpMain
  rw [h1, dumpArgs, if_pos hc, ho, hd]
  rfl

/-- What ends the program: a type that does not exist, a file that cannot be opened, and the demand for help.  The files before are shown. -/
theorem C86_stop_partial {files : List Char → Option (List (Option (List Nat)))} {input : List (Option (List Nat))} {listing : Nat × Bool → List Char → List Char}
    {xs : List DumpItem} {args : List (List Char)} (h : DumpWords xs args) (hf : DumpFiles files listing (0, false) xs) (rest : List (List Char)) :
    (∀ t w, t.toLower = 't' → w.head? ≠ some ':' → (∀ d ∈ dumpTypes, fold w ≠ d.1) →
      dumpMain files input (args ++ ('/' :: t :: ':' :: w) :: rest) = .ok (dumpOutput listing (0, false) xs, 1)) ∧
    (∀ name, name.head? ≠ some '/' → files name = none → dumpMain files input (args ++ name :: rest) = .ok (dumpOutput listing (0, false) xs, 2)) ∧
    dumpMain files input (args ++ ['/', '?'] :: rest) = .ok (dumpOutput listing (0, false) xs, 0) := by
  have h1 : ∀ a, dumpMain files input (args ++ a :: rest) = _ := fun a => dumpArgs_words (input := input) h (0, false) hf 0 (a :: rest)
  refine ⟨fun t w ht _ hw => ?_, fun name hn hm => ?_, ?_⟩
  · rw [h1, dumpArgs]
    have hp : prefixI ['/', 'T'] ('/' :: t :: ':' :: w) = true := by
      show (('/'.toLower == '/'.toLower) && (('T'.toLower == t.toLower) && true)) = true
      rw [ht]; decide
    have hg : getType (if ((('/' :: t :: ':' :: w).drop 2).head? = some ':') then ('/' :: t :: ':' :: w).drop 3 else ('/' :: t :: ':' :: w).drop 2) = none := by
      rw [if_pos (by rfl)]
      unfold getType
      rw [List.findIdx?_eq_none_iff]
      intro d hd
      have h2 : fold d.1 = d.1 := by revert d; decide +kernel
      have : ¬ stricmp w d.1 = 0 := by
        rw [stricmp_zero]
        show ¬ fold w = fold d.1
        rw [h2]
        exact hw d hd
      simpa using this
    have : dumpOption (dumpMode (0, false) xs).1 (dumpMode (0, false) xs).2 ('/' :: t :: ':' :: w) = .ok (.stop 1) := by
      unfold dumpOption
      rw [if_pos hp, hg]
    rw [this, Res.ok_bind]
    simp [Res.bind]
  · rw [h1, dumpArgs, dumpOption_word (.file hn), Res.ok_bind]
    simp [hm, Res.bind]
  · rw [h1, dumpArgs]
    have : dumpOption (dumpMode (0, false) xs).1 (dumpMode (0, false) xs).2 ['/', '?'] = .ok (.stop 0) := rfl
    rw [this, Res.ok_bind]
    simp [Res.bind]

/-! ### What goes wrong -/

theorem dumpValue_hang (c : DumpCtx) (bs : List Nat) : dumpValue c bs ≠ .hang := by
  unfold dumpValue
  split <;> simp

theorem dumpValues_hang (c : DumpCtx) (k : Nat) (data : List Nat) : dumpValues c k data ≠ .hang := by
  induction k generalizing data with
  | zero => simp [dumpValues]
  | succ k ih =>
    rw [dumpValues]
    have h1 := dumpValue_hang c (data.take c.size)
    have h2 := ih (data.drop c.size)
    cases h : dumpValue c (data.take c.size) with
    | ub => simp [Bind.bind, Res.bind]
    | hang => exact absurd h h1
    | ok t =>
      rw [Res.ok_bind]
      cases h' : dumpValues c k (data.drop c.size) with
      | ub => simp [Bind.bind, Res.bind]
      | hang => exact absurd h' h2
      | ok t => simp [Bind.bind, Res.bind]

theorem dumpDots_cases (l : List (Option Nat)) : dumpDots l = .ub ∨ ∃ r, dumpDots l = .ok r ∧ ∀ x ∈ r, ∃ b, x = some b ∧ b ≠ 0 := by
  induction l with
  | nil => exact .inr ⟨[], rfl, by simp⟩
  | cons x l ih =>
    cases x with
    | none => exact .inl rfl
    | some b =>
      rw [dumpDots]
      rcases ih with h | ⟨r, h, hr⟩
      · left; rw [h]; rfl
      · right
        refine ⟨some (dumpChar b) :: r, by rw [h]; rfl, fun x hx => ?_⟩
        rcases List.mem_cons.1 hx with rfl | hx
        · refine ⟨_, rfl, ?_⟩
          unfold dumpChar
          split <;> omega
        · exact hr x hx

theorem putChars_none {l : List (Option Nat)} (h : ∀ x ∈ l, ∃ b, x = some b ∧ b ≠ 0) (r : List (Option Nat)) : putChars (l ++ none :: r) = .ub := by
  induction l with
  | nil => rfl
  | cons x l ih =>
    obtain ⟨b, rfl, hb⟩ := h x (by simp)
    obtain ⟨b, rfl⟩ := Nat.exists_eq_succ_of_ne_zero hb
    show (putChars (l ++ none :: r)).bind _ = _
    rw [ih fun x hx => h x (by simp [hx])]
    rfl

/-- VIOLATION: a file shorter than a row by an element or more, whatever is in it, is not shown: `chars` is written without an end, as the zero after the
characters is made a point and nothing follows it. -/
theorem C86_short {i : Nat} {name : List Char} {k : Nat} {sg : Bool} (hi : dumpKinds[i]? = some (name, k, sg)) (hex : Bool) (bs : List Nat)
    (_hb : bs ≠ []) (h : bs.length + k ≤ (fillContext i hex).n * k) (rs : List (Option (List Nat))) : dumpFd (fillContext i hex) (some bs :: rs) = .ub := by
  obtain ⟨hs, hk, -, -⟩ := kind_context hi hex
  have hrow : dumpRow (fillContext i hex) 0 (List.replicate ((fillContext i hex).n * (fillContext i hex).size + 1) none) bs = .ub := by
    unfold dumpRow
    rw [hs]
    generalize hn : (fillContext i hex).n * k = size at h
    have hc : ∃ count, (if bs.length < size ∧ bs.length % k ≠ 0 then bs.length + (k - bs.length % k) else bs.length) = count ∧ count < size := by
      refine ⟨_, rfl, ?_⟩
      split
      · next h1 =>
        have := Nat.mod_lt bs.length hk
        omega
      · omega
    obtain ⟨count, hc, hlt⟩ := hc
    simp only [hc]
    generalize hdata : bs ++ List.replicate (size - bs.length) 0 = data
    have hdl : data.length = size := by rw [← hdata]; simp; omega
    cases hv : dumpValues (fillContext i hex) (count / k) data with
    | ub => rfl
    | hang => exact absurd hv (dumpValues_hang _ _ _)
    | ok vs =>
      rw [Res.ok_bind]
      generalize hcop : (data.take count).map some ++ some 0 :: List.drop (count + 1) (List.replicate (size + 1) none) = copied
      have hd : copied.drop size = [none] := by
        have h1 : ((data.take count).map some ++ [some 0]).length = count + 1 := by simp; omega
        have h2 : copied = ((data.take count).map some ++ [some 0]) ++ List.replicate (size - count) none := by
          rw [← hcop, List.drop_replicate, List.append_assoc]
          have : size + 1 - (count + 1) = size - count := by omega
          rw [this]; rfl
        rw [h2, List.drop_append, h1, List.drop_eq_nil_of_le (by omega), List.drop_replicate]
        have : size - count - (size - (count + 1)) = 1 := by omega
        rw [this]; rfl
      rcases dumpDots_cases (copied.take size) with h1 | ⟨r, h1, h2⟩
      · rw [h1]; rfl
      · rw [h1, Res.ok_bind, hd, putChars_none h2]
        rfl
  unfold dumpFd
  rw [dumpLoop, hrow]
  rfl

/-- VIOLATION: an argument that begins with `/B`, in small or capital letters, is read beyond its end, and so is a name such as `/bin/sh`. -/
theorem C86_format (files : List Char → Option (List (Option (List Nat)))) (input : List (Option (List Nat))) (b : Char) (hb : b.toLower = 'b') (f : List Char)
    (rest : List (List Char)) : dumpMain files input (('/' :: b :: f) :: rest) = .ub := by
  have hB : prefixI ['/', 'B'] ('/' :: b :: f) = true := by
    show (('/'.toLower == '/'.toLower) && (('B'.toLower == b.toLower) && true)) = true
    rw [hb]; decide
  have hT : ¬ prefixI ['/', 'T'] ('/' :: b :: f) = true := by
    show ¬ (('/'.toLower == '/'.toLower) && (('T'.toLower == b.toLower) && true)) = true
    rw [hb]; decide
  have hH : ¬ stricmp ('/' :: b :: f) ['/', 'H'] = 0 := by
    rw [stricmp_zero]
    intro h
    have : '/'.toLower :: b.toLower :: f.map Char.toLower = ['/'.toLower, 'H'.toLower] := h
    rw [hb] at this
    injection this with _ h2
    injection h2 with h3 _
    revert h3; decide
  unfold dumpMain
  rw [dumpArgs]
  have : dumpOption 0 false ('/' :: b :: f) = .ub := by
    unfold dumpOption
    rw [if_neg hT, if_neg hH, if_pos hB]
  rw [this]
  rfl

/-- VIOLATION: a file the name of which begins with `/t`, such as those of `/tmp`, is not shown: what follows is taken for a type. -/
theorem C86_absolute (files : List Char → Option (List (Option (List Nat)))) (input : List (Option (List Nat))) (name : List Char) (hn : '/' ∈ name) (t : Char)
    (ht : t.toLower = 't') (rest : List (List Char)) : dumpMain files input (('/' :: t :: name) :: rest) = .ok ([], 1) := by
  have hp : prefixI ['/', 'T'] ('/' :: t :: name) = true := by
    show (('/'.toLower == '/'.toLower) && (('T'.toLower == t.toLower) && true)) = true
    rw [ht]; decide
  have hg : ∀ w, '/' ∈ w → getType w = none := by
    intro w hw
    unfold getType
    rw [List.findIdx?_eq_none_iff]
    intro d hd
    have h2 : fold d.1 = d.1 ∧ '/' ∉ d.1 := by revert d; decide +kernel
    have : ¬ stricmp w d.1 = 0 := by
      rw [stricmp_zero]
      intro h
      have h3 : '/' ∈ fold w := List.mem_map.2 ⟨'/', hw, by decide⟩
      rw [show fold w = fold d.1 from h, h2.1] at h3
      exact h2.2 h3
    simpa using this
  have hd : ∀ w : List Char, '/' ∈ w → '/' ∈ (if w.head? = some ':' then w.drop 1 else w) := by
    intro w hw
    split
    · next h =>
      cases w with
      | nil => cases hw
      | cons c w =>
        have : c = ':' := by simpa using h
        subst this
        rcases List.mem_cons.1 hw with h | h
        · exact absurd h (by decide)
        · exact h
    · exact hw
  unfold dumpMain
  rw [dumpArgs]
  have : dumpOption 0 false ('/' :: t :: name) = .ok (.stop 1) := by
    unfold dumpOption
    rw [if_pos hp]
    have := hg _ (hd name hn)
    simp only [List.drop_succ_cons, List.drop_zero] at this ⊢
    rw [this]
  rw [this]
  rfl

/-- VIOLATION: the types `ull` and `f` show nothing that means anything. -/
theorem C86_float (i : Nat) (hi : i = 7 ∨ i = 8) (hex : Bool) (bs : List Nat) (hb : 8 ≤ bs.length) (rs : List (Option (List Nat))) :
    dumpFd (fillContext i hex) (some bs :: rs) = .ub := by
  have hrow : ∀ c : DumpCtx, c.type = 7 ∨ c.type = 8 → 0 < c.size → c.size ≤ 8 → ∀ a chars, dumpRow c a chars bs = .ub := by
    intro c hc h0 h8 a chars
    unfold dumpRow
    have hk : ∃ k, (if bs.length < c.n * c.size ∧ bs.length % c.size ≠ 0 then bs.length + (c.size - bs.length % c.size) else bs.length) / c.size = k + 1 := by
      have : 0 < (if bs.length < c.n * c.size ∧ bs.length % c.size ≠ 0 then bs.length + (c.size - bs.length % c.size) else bs.length) / c.size := by
        refine Nat.div_pos ?_ h0
        split <;> omega
      exact ⟨_, (Nat.succ_pred_eq_of_pos this).symm⟩
    obtain ⟨k, hk⟩ := hk
    simp only [hk]
    have hv : ∀ data, dumpValues c (k + 1) data = .ub := by
      intro data
      rw [dumpValues]
      have : dumpValue c (data.take c.size) = .ub := by
        unfold dumpValue
        rcases hc with hc | hc <;> simp only [hc]
      rw [this]; rfl
    rw [hv]; rfl
  unfold dumpFd
  rw [dumpLoop, hrow]
  · rfl
  · exact hi
  · rcases hi with rfl | rfl <;> cases hex <;> decide
  · rcases hi with rfl | rfl <;> cases hex <;> decide

/-- VIOLATION: the type `d` shows no number: different numbers are shown the same, by nothing. -/
theorem C86_double : dumpFd (fillContext 9 false) [some [0, 0, 0, 0, 0, 0, 240, 191]] = .ok "(nil)  ........\n".toList ∧
    dumpFd (fillContext 9 false) [some [0, 0, 0, 0, 0, 0, 8, 1]] = .ok "(nil)  ........\n".toList := by decide +kernel

/-- VIOLATION: in hexadecimal a byte from 128 on is shown, by default, with eight digits that stand for another number. -/
theorem C86_negative (b : Nat) (h1 : 128 ≤ b) (h2 : b < 256) : ∃ t, dumpValue (fillContext 0 true) [b] = .ok t ∧ t.length = 8 ∧ DigitsOf 16 t (2 ^ 32 - 256 + b) := by
  have h : ∀ b : Fin 256, 128 ≤ b.val → ∃ t, dumpValue (fillContext 0 true) [b.val] = .ok t ∧ t.length = 8 ∧ (∀ c ∈ t, c ∈ hexDigits.take 16) ∧
      valueIn 16 t = 2 ^ 32 - 256 + b.val := by
    intro b hb
    refine ⟨zeroPad 2 (hexText (leInt 1 [b.val] % 2 ^ 32).toNat), rfl, ?_⟩
    revert b
    decide +kernel
  exact h ⟨b, h2⟩ h1

/-- VIOLATION: what comes in pieces, as through a pipe, gets wrong places: the bytes from the twentieth on are said to be at 32. -/
theorem C86_pipe : dumpFd (fillContext 5 false) [some (List.replicate 16 32), some [65, 66, 67, 68], some (List.replicate 16 33)] = .ok
    ("(nil) 0538976288 0538976288 0538976288 0538976288                 \n".toList ++
     "0x10 1145258561                                  ABCD.           \n".toList ++
     "0x20 0555819297 0555819297 0555819297 0555819297 !!!!!!!!!!!!!!!!\n".toList) := by decide +kernel

/-- VIOLATION: a file that is opened but cannot be read, such as a directory, has undefined behaviour. -/
theorem C86_error (files : List Char → Option (List (Option (List Nat)))) (input : List (Option (List Nat))) (name : List Char) (hn : name.head? ≠ some '/')
    (rs : List (Option (List Nat))) (hf : files name = some (none :: rs)) (rest : List (List Char)) : dumpMain files input (name :: rest) = .ub := by
  unfold dumpMain
  rw [dumpArgs, dumpOption_word (.file hn), Res.ok_bind]
  simp only [hf]
  rfl

/-- VIOLATION: without options the digits are decimal; the manual says that the default is `/T:C /H`. -/
theorem C86_default (files : List Char → Option (List (Option (List Nat)))) (input : List (Option (List Nat))) (name : List Char) (hn : name.head? ≠ some '/')
    (hf : files name = some [some (List.replicate 10 65)]) :
    dumpMain files input [name] =
      .ok (name ++ " -----------------\n(nil) 0065 0065 0065 0065 0065 0065 0065 0065 0065 0065 AAAAAAAAAA\n".toList, 0) := by
  unfold dumpMain
  rw [dumpArgs, dumpOption_word (.file hn), Res.ok_bind]
  have : dumpFd (fillContext 0 false) [some (List.replicate 10 65)] =
      .ok "(nil) 0065 0065 0065 0065 0065 0065 0065 0065 0065 0065 AAAAAAAAAA\n".toList := by decide +kernel
  simp only [hf, this, Res.ok_bind]
  rw [dumpArgs, if_neg (by decide), Res.ok_bind]
  simp

/-! ### Examples -/

/-- A file of two rows of `ui`. -/
def sampleRows : List (List (List Nat)) := [List.replicate 4 [1, 2, 0, 0], List.replicate 4 [65, 66, 67, 200]]

theorem sampleRows_ok : RowsOf (fillContext 5 false).n 4 sampleRows := by
  intro es hes
  have : es = List.replicate 4 [1, 2, 0, 0] ∨ es = List.replicate 4 [65, 66, 67, 200] := by simpa [sampleRows] using hes
  rcases this with rfl | rfl <;> refine ⟨rfl, fun e he => ?_⟩ <;> rw [List.eq_of_mem_replicate he] <;> decide

example : ∃ out, dumpFd (fillContext 5 false) (sampleRows.map fun es => some es.flatten) = .ok out ∧ DumpRows false 4 false (decWidth 5) 0 sampleRows out :=
  C86_rows_partial (i := 5) rfl false sampleRows sampleRows_ok (fun _ _ h => by cases h)

example : dumpFd (fillContext 5 false) (sampleRows.map fun es => some es.flatten) = .ok
    ("(nil) 0000000513 0000000513 0000000513 0000000513 ................\n".toList ++
     "0x10 3359851073 3359851073 3359851073 3359851073 ABC.ABC.ABC.ABC.\n".toList) := by decide +kernel

/-- Two signed types: the bytes 255 are shown as -1, and in hexadecimal those of `ll` by their digits. -/
example : dumpFd (fillContext 6 false) [some (List.replicate 16 255)] = .ok "(nil) -0000000000000000001 -0000000000000000001 ................\n".toList ∧
    dumpFd (fillContext 6 true) [some (List.replicate 16 255)] = .ok "(nil) ffffffffffffffff ffffffffffffffff ................\n".toList := by decide +kernel

example := C86_last_partial (i := 5) rfl false [List.replicate 4 [1, 2, 0, 0]] (List.replicate 4 [65, 66, 67, 200]) [[33, 34, 0, 0]] sampleRows_ok
  (fun _ _ h => by cases h) (by decide) (by decide) (fun h => by cases h) [33, 34] 2 (by decide) rfl

example := C86_nothing_lost_partial (i := 5) rfl false sampleRows sampleRows sampleRows_ok sampleRows_ok (fun _ _ h => by cases h) (fun _ _ h => by cases h)

example : DumpWords [.file ['a'], .type 5, .hex, .file ['b']] [['a'], ['/', 'T', ':', 'U', 'i'], ['/', 'h'], ['b']] :=
  .cons (.file (by decide)) (.cons (.type (w := ['U', 'i']) (colon := [':']) rfl (by decide) (.inr rfl) (by decide)) (.cons (.hex (by decide)) (.cons (.file (by decide)) .nil)))

/-- Two files of a row for each of the modes. -/
def sampleFiles (name : List Char) : Option (List (Option (List Nat))) :=
  if name = ['a'] then some [some (List.replicate 10 65)] else if name = ['b'] then some [some (List.replicate 16 66)] else none

example : dumpMain sampleFiles [] [['a'], ['/', 'T', ':', 'U', 'i'], ['/', 'h'], ['b']] = .ok
    ("a -----------------\n(nil) 0065 0065 0065 0065 0065 0065 0065 0065 0065 0065 AAAAAAAAAA\n".toList ++
     "b -----------------\n(nil) 42424242 42424242 42424242 42424242 BBBBBBBBBBBBBBBB\n".toList, 0) := by decide +kernel

example : dumpMain sampleFiles [] [['a'], ['c'], ['b']] = .ok
    ("a -----------------\n(nil) 0065 0065 0065 0065 0065 0065 0065 0065 0065 0065 AAAAAAAAAA\n".toList, 2) := by decide +kernel

example : dumpMain sampleFiles [some (List.replicate 10 66)] [] = .ok
    ("(nil) 0066 0066 0066 0066 0066 0066 0066 0066 0066 0066 BBBBBBBBBB\n".toList, 0) := by decide +kernel

example : dumpMain sampleFiles [] [['/', 't', ':', 'x']] = .ok ([], 1) ∧ dumpMain sampleFiles [] [['/', '?']] = .ok ([], 0) := by decide +kernel

example : dumpFd (fillContext 0 false) [some [72, 105, 10]] = .ub := C86_short (i := 0) rfl false _ (by decide) (by decide) []
example : dumpMain sampleFiles [] ["/bin/sh".toList] = .ub := C86_format _ _ 'b' (by decide) _ _
example : dumpMain sampleFiles [] ["/tmp/x".toList] = .ok ([], 1) := C86_absolute _ _ "mp/x".toList (by decide) 't' (by decide) _

end PBat
