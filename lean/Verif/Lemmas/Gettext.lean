import Verif.Model.Gettext
import Verif.Spec.Gettext
import Verif.Lemmas.Eval
/-
Lemmas about the translations of messages.
-/
namespace PBat
open Spec

theorem readInt_at {buf : List Nat} {k v : Nat} (h : IntAt buf k v) (hv : v < 2147483648) : readInt buf k = some (v : Int) := by
  obtain ⟨a, b, c, d, rest, e, -, -, -, -, rfl⟩ := h
  rw [readInt, if_neg (by omega), Int.toNat_natCast, e]
  simp only
  rw [if_pos hv]

theorem intAt_lt {buf : List Nat} {k v : Nat} (h : IntAt buf k v) : k + 4 ≤ buf.length := by
  obtain ⟨a, b, c, d, rest, e, -⟩ := h
  have := congrArg List.length e
  simp at this
  omega

theorem textAt_lt {buf : List Nat} {k : Nat} {t : List Nat} (h : TextAt buf k t) : k < buf.length := by
  obtain ⟨⟨rest, e⟩, -⟩ := h
  have := congrArg List.length e
  simp at this
  omega

theorem moItems_table {buf : List Nat} (hlen : buf.length < 2147483648) (o : Nat) (ts : List (List Nat)) (i : Nat)
    (hsz : o + 8 * (i + ts.length) ≤ buf.length)
    (h : ∀ j t, ts[j]? = some t → ∃ off, IntAt buf (o + 8 * (i + j) + 4) off ∧ TextAt buf off t) :
    ∃ offs : List Nat, moItems buf o i ts.length = .ok (some (offs.map fun (x : Nat) => (x : Int))) ∧ offs.length = ts.length ∧
      ∀ (j : Nat) t off, ts[j]? = some t → offs[j]? = some off → TextAt buf off t := by
  induction ts generalizing i with
  | nil => exact ⟨[], rfl, rfl, by simp⟩
  | cons t ts ih =>
    obtain ⟨off, h1, h2⟩ := h 0 t rfl
    have hoff := textAt_lt h2
    simp only [List.length_cons] at hsz
    obtain ⟨offs, e, el, eo⟩ := ih (i + 1) (by omega) (fun j t hj => by
      have := h (j + 1) t (by simpa using hj)
      rw [show i + (j + 1) = i + 1 + j by omega] at this
      exact this)
    refine ⟨off :: offs, ?_, by simp [el], ?_⟩
    · rw [List.length_cons, moItems]
      have : ((o : Int) + 8 * (i : Int) + 4) = ((o + 8 * (i + 0) + 4 : Nat) : Int) := by push_cast; omega
      rw [this, readInt_at h1 (by omega)]
      simp only [Res.ofOption, Res.ok_bind]
      rw [if_neg (by omega), if_neg (by omega), if_neg (by omega), e]
      rfl
    · intro j t' o' hj ho
      cases j with
      | zero => simp at hj ho; subst hj; subst ho; exact h2
      | succ j => exact eo j t' o' (by simpa using hj) (by simpa using ho)

theorem moArray_table {buf : List Nat} (hlen : buf.length < 2147483648) (o : Nat) (ts : List (List Nat))
    (hsz : o + 8 * ts.length < buf.length) (h : TableAt buf o ts) :
    ∃ offs : List Nat, moArray buf ts.length o = .ok (some (offs.map fun (x : Nat) => (x : Int))) ∧ offs.length = ts.length ∧
      ∀ (j : Nat) t off, ts[j]? = some t → offs[j]? = some off → TextAt buf off t := by
  rw [moArray, if_neg (by omega)]
  exact moItems_table hlen o ts 0 (by omega) (fun j t hj => by simpa using h j t hj)

/-- What is loaded from a good file. -/
structure Loaded (m : MoDomain) (cat : List (List Nat × List Nat)) : Prop where
  strings : ∃ offs : List Nat, m.strings = (offs.map fun (x : Nat) => (x : Int)) ∧ offs.length = cat.length ∧
    ∀ (j : Nat) p off, cat[j]? = some p → offs[j]? = some off → TextAt m.buf off p.1
  translations : ∃ offs : List Nat, m.translations = (offs.map fun (x : Nat) => (x : Int)) ∧ offs.length = cat.length ∧
    ∀ (j : Nat) p off, cat[j]? = some p → offs[j]? = some off → TextAt m.buf off p.2
  sorted : cat.Pairwise (fun a b => a.1 < b.1)

/-- A file with all but the magic number. -/
def MoBody (buf : List Nat) (cat : List (List Nat × List Nat)) : Prop :=
  IntAt buf 8 cat.length ∧
  (∃ o, IntAt buf 12 o ∧ o + 8 * cat.length < buf.length ∧ TableAt buf o (cat.map (·.1))) ∧
  (∃ t, IntAt buf 16 t ∧ t + 8 * cat.length < buf.length ∧ TableAt buf t (cat.map (·.2))) ∧
  buf.length < 2147483648 ∧ cat.Pairwise (fun a b => a.1 < b.1)

theorem moLoad_body {buf : List Nat} {cat : List (List Nat × List Nat)} (h : MoBody buf cat) : ∃ m, moLoad buf = .ok (some m) ∧ Loaded m cat := by
  obtain ⟨h8, ⟨o, ho, hos, hot⟩, ⟨t, ht, hts, htt⟩, hlen, hsort⟩ := h
  have hl := intAt_lt ht
  obtain ⟨os, e1, l1, p1⟩ := moArray_table hlen o (cat.map (·.1)) (by simpa using hos) hot
  obtain ⟨ts, e2, l2, p2⟩ := moArray_table hlen t (cat.map (·.2)) (by simpa using hts) htt
  rw [List.length_map] at e1 e2 l1 l2
  refine ⟨⟨buf, os.map fun (x : Nat) => (x : Int), ts.map fun (x : Nat) => (x : Int)⟩, ?_, ?_, ?_, hsort⟩
  · rw [moLoad, moMagic, if_neg (by omega)]
    have r8 := readInt_at h8 (by omega)
    have r12 := readInt_at ho (by omega)
    have r16 := readInt_at ht (by omega)
    have hn : ((cat.length : Int) % 18446744073709551616).toNat = cat.length := by omega
    simp only [Res.ok_bind, if_true]
    rw [show (8 : Int) = ((8 : Nat) : Int) from rfl, r8, show (12 : Int) = ((12 : Nat) : Int) from rfl, r12]
    simp only [Res.ofOption, Res.ok_bind]
    rw [hn, e1]
    simp only [Res.ok_bind]
    rw [moSecond, show (16 : Int) = ((16 : Nat) : Int) from rfl, r16]
    simp only [Res.ofOption, Res.ok_bind]
    rw [e2]
    rfl
  · refine ⟨os, rfl, l1, fun j p off hj ho => p1 j p.1 off ?_ ho⟩
    rw [List.getElem?_map, hj]; rfl
  · refine ⟨ts, rfl, l2, fun j p off hj ho => p2 j p.2 off ?_ ho⟩
    rw [List.getElem?_map, hj]; rfl

theorem moLoad_file {buf : List Nat} {cat : List (List Nat × List Nat)} (h : MoFile buf cat) : ∃ m, moLoad buf = .ok (some m) ∧ Loaded m cat :=
  moLoad_body h.2

/-! ### Comparison and search -/

theorem cmpAt_text (msg t rest : List Nat) (hm : 0 ∉ msg) (ht : 0 ∉ t) : cmpAt msg (t ++ 0 :: rest) = .ok (compare msg t) := by
  induction msg generalizing t with
  | nil =>
    cases t with
    | nil => rfl
    | cons b t =>
      have : b ≠ 0 := by intro h; subst h; simp at ht
      simp [cmpAt, this]
  | cons k msg ih =>
    cases t with
    | nil => rfl
    | cons b t =>
      have hb : b ≠ 0 := by intro h; subst h; simp at ht
      simp only [List.mem_cons, not_or] at hm ht
      rw [List.cons_append, cmpAt, if_neg hb]
      by_cases hk : k = b
      · subst hk
        rw [if_pos rfl, ih t hm.2 ht.2, List.compare_cons_cons]
        simp
      · rw [if_neg hk, List.compare_cons_cons]
        by_cases hlt : k < b
        · rw [if_pos hlt, Nat.compare_eq_lt.2 hlt]; rfl
        · rw [if_neg hlt, Nat.compare_eq_gt.2 (by omega)]; rfl

theorem compare_bytes (a b : List Nat) : (compare a b = .lt ↔ a < b) ∧ (compare a b = .eq ↔ a = b) ∧ (compare a b = .gt ↔ b < a) := by
  induction a generalizing b with
  | nil =>
    cases b with
    | nil => simp
    | cons y b => simp
  | cons x a ih =>
    cases b with
    | nil => simp
    | cons y b =>
      rw [List.compare_cons_cons]
      obtain ⟨h1, h2, h3⟩ := ih b
      rcases Nat.lt_trichotomy x y with h | h | h
      · rw [Nat.compare_eq_lt.2 h]
        simp only [Ordering.then, List.cons_lt_cons_iff, List.cons.injEq, reduceCtorEq, false_iff, true_iff]
        exact ⟨.inl h, fun e => by omega, fun e => by omega⟩
      · subst h
        rw [Nat.compare_eq_eq.2 rfl]
        simp only [Ordering.then, List.cons_lt_cons_iff, List.cons.injEq, true_and, Nat.lt_irrefl, false_or]
        exact ⟨h1, h2, h3⟩
      · rw [Nat.compare_eq_gt.2 h]
        simp only [Ordering.then, List.cons_lt_cons_iff, List.cons.injEq, reduceCtorEq, false_iff, true_iff]
        exact ⟨fun e => by omega, fun e => by omega, .inl h⟩

/-- `bsearch` in a sorted array. -/
theorem bsearchIdx_spec (cmp : Nat → Res Ordering) (f : Nat → Ordering) (n : Nat) (hc : ∀ i, i < n → cmp i = .ok (f i))
    (hlt : ∀ i j, i < j → j < n → f i = .lt → f j = .lt) (hgt : ∀ i j, i < j → j < n → f j = .gt → f i = .gt) :
    (∃ i, bsearchIdx cmp 0 n = .ok (some i) ∧ i < n ∧ f i = .eq) ∨ (bsearchIdx cmp 0 n = .ok none ∧ ∀ i, i < n → f i ≠ .eq) := by
  have key : ∀ (k l u : Nat), u - l ≤ k → u ≤ n → (∀ i, i < l → i < n → f i = .gt) → (∀ i, u ≤ i → i < n → f i = .lt) →
      (∃ i, bsearchIdx cmp l u = .ok (some i) ∧ i < n ∧ f i = .eq) ∨ (bsearchIdx cmp l u = .ok none ∧ ∀ i, i < n → f i ≠ .eq) := by
    intro k
    induction k with
    | zero =>
      intro l u hk hu h1 h2
      rw [bsearchIdx, if_neg (by omega)]
      refine .inr ⟨rfl, fun i hi => ?_⟩
      by_cases hil : i < l
      · rw [h1 i hil hi]; simp
      · rw [h2 i (by omega) hi]; simp
    | succ k ih =>
      intro l u hk hu h1 h2
      by_cases hlu : l < u
      · rw [bsearchIdx, if_pos hlu, hc _ (by omega)]
        simp only [Res.ok_bind]
        cases hf : f ((l + u) / 2) with
        | lt =>
          refine ih l _ (by omega) (by omega) h1 (fun i hi hin => ?_)
          by_cases he : i = (l + u) / 2
          · rw [he, hf]
          · exact hlt _ _ (by omega) hin hf
        | gt =>
          refine ih _ u (by omega) hu (fun i hi hin => ?_) h2
          by_cases he : i = (l + u) / 2
          · rw [he, hf]
          · exact hgt i _ (by omega) (by omega) hf
        | eq => exact .inl ⟨_, rfl, by omega, hf⟩
      · rw [bsearchIdx, if_neg hlu]
        refine .inr ⟨rfl, fun i hi => ?_⟩
        by_cases hil : i < l
        · rw [h1 i hil hi]; simp
        · rw [h2 i (by omega) hi]; simp
  exact key n 0 n (by omega) (by omega) (by omega) (by omega)

theorem moText_text (t rest : List Nat) (h : 0 ∉ t) : moText (t ++ 0 :: rest) = .ok t := by
  induction t with
  | nil => rfl
  | cons b t ih =>
    simp only [List.mem_cons, not_or] at h
    rw [List.cons_append, moText, if_neg (by omega), ih h.2]
    rfl

theorem find_unique {α : Type} (l : List α) (p : α → Bool) (i : Nat) (a : α) (hi : l[i]? = some a) (hp : p a = true)
    (hu : ∀ j b, j < i → l[j]? = some b → p b = false) : l.find? p = some a := by
  induction l generalizing i with
  | nil => simp at hi
  | cons x l ih =>
    cases i with
    | zero => simp at hi; subst hi; simp [hp]
    | succ i =>
      rw [List.find?_cons, hu 0 x (by omega) rfl]
      exact ih i (by simpa using hi) (fun j b hj hb => hu (j + 1) b (by omega) (by simpa using hb))

theorem pairwise_at {α : Type} {R : α → α → Prop} {l : List α} (h : l.Pairwise R) (i j : Nat) (a b : α) (hij : i < j)
    (hi : l[i]? = some a) (hj : l[j]? = some b) : R a b := by
  rw [List.getElem?_eq_some_iff] at hi hj
  obtain ⟨hi, rfl⟩ := hi
  obtain ⟨hj, rfl⟩ := hj
  exact List.pairwise_iff_getElem.1 h i j hi hj hij

theorem moLookup_loaded {m : MoDomain} {cat : List (List Nat × List Nat)} (h : Loaded m cat) (msg : List Nat) (hm : 0 ∉ msg) :
    moLookup m msg = .ok (translation cat msg) := by
  obtain ⟨os, e1, l1, p1⟩ := h.strings
  obtain ⟨ts, e2, l2, p2⟩ := h.translations
  have hcmp : ∀ i (hi : i < cat.length), moCompare m msg i = .ok (compare msg cat[i].1) := by
    intro i hi
    obtain ⟨⟨rest, er⟩, hz⟩ := p1 i cat[i] (os[i]'(by omega)) (List.getElem?_eq_getElem hi) (List.getElem?_eq_getElem (by omega))
    rw [moCompare, e1, List.getElem?_map, List.getElem?_eq_getElem (by omega)]
    simp only [Option.map_some, Res.ofOption, Res.ok_bind, moPointer]
    rw [if_neg (by omega)]
    simp only [Int.toNat_natCast, Res.ok_bind]
    rw [er, cmpAt_text _ _ _ hm hz]
  let f : Nat → Ordering := fun i => compare msg ((cat[i]?.map (·.1)).getD [])
  have hf : ∀ i (hi : i < cat.length), f i = compare msg cat[i].1 := by
    intro i hi
    simp [f, List.getElem?_eq_getElem hi]
  have hlen : m.strings.length = cat.length := by rw [e1]; simpa using l1
  have hsorted : ∀ i j (hi : i < cat.length) (hj : j < cat.length), i < j → cat[i].1 < cat[j].1 := fun i j hi hj hij =>
    pairwise_at h.sorted i j _ _ hij (List.getElem?_eq_getElem hi) (List.getElem?_eq_getElem hj)
  rcases bsearchIdx_spec (moCompare m msg) f cat.length (fun i hi => by rw [hcmp i hi, hf i hi])
      (fun i j hij hj hfi => by
        rw [hf i (by omega), (compare_bytes _ _).1] at hfi
        rw [hf j hj, (compare_bytes _ _).1]
        exact List.lt_trans hfi (hsorted i j (by omega) hj hij))
      (fun i j hij hj hfj => by
        rw [hf j hj, (compare_bytes _ _).2.2] at hfj
        rw [hf i (by omega), (compare_bytes _ _).2.2]
        exact List.lt_trans (hsorted i j (by omega) hj hij) hfj) with ⟨i, e, hi, hfi⟩ | ⟨e, hne⟩
  · rw [hf i hi, (compare_bytes _ _).2.1] at hfi
    obtain ⟨⟨rest, er⟩, hz⟩ := p2 i cat[i] (ts[i]'(by omega)) (List.getElem?_eq_getElem hi) (List.getElem?_eq_getElem (by omega))
    rw [moLookup, hlen, e]
    simp only [Res.ok_bind]
    rw [e2, List.getElem?_map, List.getElem?_eq_getElem (by omega)]
    simp only [Option.map_some, Res.ofOption, Res.ok_bind, moPointer]
    rw [if_neg (by omega)]
    simp only [Int.toNat_natCast, Res.ok_bind]
    rw [er, moText_text _ _ hz, translation,
      find_unique cat _ i cat[i] (List.getElem?_eq_getElem hi) (by simp [hfi]) (fun j b hj hb => ?_)]
    · rfl
    · have hlt := pairwise_at h.sorted j i b cat[i] hj hb (List.getElem?_eq_getElem hi)
      rw [← hfi] at hlt
      have : b.1 ≠ msg := fun e => by rw [e] at hlt; exact List.lt_irrefl _ hlt
      simpa using this
  · rw [moLookup, hlen, e]
    simp only [Res.ok_bind]
    rw [translation, List.find?_eq_none.2 (fun p hp => ?_)]
    · rfl
    · obtain ⟨i, hi, rfl⟩ := List.getElem_of_mem hp
      have := hne i hi
      rw [hf i hi] at this
      intro he
      exact this ((compare_bytes _ _).2.1.2 (by simpa using he : cat[i].1 = msg).symm)

/-! ### Languages -/

/-- What is known about the table. -/
def langTable : Bool :=
  iso639.all (fun a => a.1.length ≤ 99) &&
  (iso639.zip (iso639.drop 1)).all fun p => compare (p.1.2.map Char.toNat) (p.2.2.map Char.toNat) != .gt && (p.1.2 != p.2.2 || p.1.1 == p.2.1)

theorem langTable_ok : langTable = true := by decide +kernel

theorem char_codes_inj {a b : List Char} (h : a.map Char.toNat = b.map Char.toNat) : a = b := by
  induction a generalizing b with
  | nil => cases b with
    | nil => rfl
    | cons y b => simp at h
  | cons x a ih =>
    cases b with
    | nil => simp at h
    | cons y b =>
      simp only [List.map_cons, List.cons.injEq] at h
      rw [ih h.2, Char.toNat_inj.1 h.1]

theorem lang_next (i : Nat) (hi : i + 1 < iso639.length) :
    ¬ iso639[i + 1].2.map Char.toNat < iso639[i].2.map Char.toNat ∧ (iso639[i].2 = iso639[i + 1].2 → iso639[i].1 = iso639[i + 1].1) := by
  have h := langTable_ok
  rw [langTable, Bool.and_eq_true] at h
  have := List.all_eq_true.1 h.2 (iso639[i], iso639[i + 1]) (by
    rw [List.mem_iff_getElem?]
    refine ⟨i, ?_⟩
    rw [List.getElem?_zip_eq_some]
    exact ⟨List.getElem?_eq_getElem _, by rw [List.getElem?_drop, Nat.add_comm 1 i]; exact List.getElem?_eq_getElem _⟩)
  simp only [Bool.and_eq_true, bne_iff_ne, ne_eq, Bool.or_eq_true, beq_iff_eq, (compare_bytes _ _).2.2] at this
  refine ⟨this.1, fun e => ?_⟩
  rcases this.2 with h | h
  · exact absurd e h
  · exact h

theorem lang_sorted (i j : Nat) (hij : i < j) (hj : j < iso639.length) :
    ¬ iso639[j].2.map Char.toNat < iso639[i].2.map Char.toNat ∧ (iso639[i].2 = iso639[j].2 → iso639[i].1 = iso639[j].1) := by
  induction j with
  | zero => omega
  | succ j ih =>
    have hn := lang_next j hj
    by_cases he : i = j
    · subst he; exact hn
    · obtain ⟨h1, h2⟩ := ih (by omega) (by omega)
      have h1' := List.not_lt.1 h1
      have hn' := List.not_lt.1 hn.1
      refine ⟨List.not_lt.2 (List.le_trans h1' hn'), fun e => ?_⟩
      have e1 : iso639[i].2.map Char.toNat = iso639[j].2.map Char.toNat :=
        List.le_antisymm h1' (by rw [e]; exact hn')
      have e2 := char_codes_inj e1
      rw [h2 e2, hn.2 (e2 ▸ e)]

theorem getLang_spec (loc : List Char) (h : loc.length ≤ 99) : getLang loc = .ok (languageOf iso639 loc) := by
  rw [getLang, List.take_of_length_le h, languageOf]
  generalize (loc.takeWhile (· ≠ '_')).map Char.toLower = l
  let f : Nat → Ordering := fun i => compare (l.map Char.toNat) (((iso639[i]?.map (·.2)).getD []).map Char.toNat)
  have hf : ∀ i (hi : i < iso639.length), f i = compare (l.map Char.toNat) (iso639[i].2.map Char.toNat) := by
    intro i hi
    simp [f, List.getElem?_eq_getElem hi]
  rcases bsearchIdx_spec (langCompare l) f iso639.length
      (fun i hi => by rw [hf i hi, langCompare, List.getElem?_eq_getElem hi]; rfl)
      (fun i j hij hj hfi => by
        rw [hf i (by omega), (compare_bytes _ _).1] at hfi
        rw [hf j hj, (compare_bytes _ _).1]
        exact Decidable.byContradiction fun hn =>
          List.lt_irrefl _ (List.lt_of_le_of_lt (List.le_trans (List.not_lt.1 (lang_sorted i j hij hj).1) (List.not_lt.1 hn)) hfi))
      (fun i j hij hj hfj => by
        rw [hf j hj, (compare_bytes _ _).2.2] at hfj
        rw [hf i (by omega), (compare_bytes _ _).2.2]
        exact List.lt_of_le_of_lt (List.not_lt.1 (lang_sorted i j hij hj).1) hfj) with ⟨i, e, hi, hfi⟩ | ⟨e, hne⟩
  · rw [hf i hi, (compare_bytes _ _).2.1] at hfi
    have hl := char_codes_inj hfi
    rw [e]
    simp only [Res.ok_bind]
    rw [List.getElem?_eq_getElem hi]
    simp only [Res.ofOption, Res.ok_bind]
    have hsome : (iso639.find? (·.2 == l)).isSome := by
      rw [List.find?_isSome]
      exact ⟨iso639[i], List.getElem_mem hi, by simp [hl]⟩
    obtain ⟨q, hq⟩ := Option.isSome_iff_exists.1 hsome
    obtain ⟨hq1, j, hj, rfl, -⟩ := List.find?_eq_some_iff_getElem.1 hq
    have hq2 : iso639[j].2 = l := by simpa using hq1
    have hcode : iso639[j].1 = iso639[i].1 := by
      rcases Nat.lt_trichotomy i j with h | h | h
      · exact ((lang_sorted i j h hj).2 (by rw [hq2, hl])).symm
      · subst h; rfl
      · exact (lang_sorted j i h hi).2 (by rw [hq2, hl])
    have hlen : iso639[i].1.length ≤ 99 := by
      have h := langTable_ok
      rw [langTable, Bool.and_eq_true] at h
      simpa using List.all_eq_true.1 h.1 _ (List.getElem_mem hi)
    rw [hq, List.take_of_length_le hlen]
    simp [hcode]
  · rw [e]
    simp only [Res.ok_bind]
    rw [List.find?_eq_none.2 (fun p hp => ?_)]
    · rfl
    · obtain ⟨i, hi, rfl⟩ := List.getElem_of_mem hp
      have := hne i hi
      rw [hf i hi] at this
      intro he
      have he : iso639[i].2 = l := by simpa using he
      exact this ((compare_bytes _ _).2.1.2 (by rw [he]))

/-! ### Paths -/

theorem domainPath_spec (g : Gettext) (loc : LocCat → List Char) (d : List Char) (cat : LocCat) (h : (loc cat).length ≤ 99) :
    domainPath g loc d cat = .ok (cataloguePath ((g.basedirs.find? (·.1 == d)).map (·.2)) (languageOf iso639 (loc cat)) cat.dir d) := by
  rw [domainPath, getLang_spec _ h]
  generalize languageOf iso639 (loc cat) = l
  simp only [Res.ok_bind]
  cases g.basedirs.find? (·.1 == d) with
  | none =>
    simp only [Option.map_none, cataloguePath, Option.getD_none, List.nil_append]
    rw [List.take_of_length_le (by simp; omega)]
    simp
  | some b =>
    simp only [Option.map_some, cataloguePath, Option.getD_some]
    rw [List.take_of_length_le (by simp; omega)]
    simp

theorem rebind_find (d dir e : List Char) (bs : List (List Char × List Char)) (h : (bs.find? (·.1 == d)).isSome) :
    ((rebind d dir bs).find? (·.1 == e)).map (·.2) = if e = d then some dir else (bs.find? (·.1 == e)).map (·.2) := by
  induction bs with
  | nil => simp at h
  | cons b bs ih =>
    rw [rebind]
    by_cases hb : b.1 = d
    · have : (b.1 == d) = true := by simpa using hb
      rw [if_pos this, List.find?_cons, List.find?_cons]
      by_cases he : e = d
      · subst he; simp [hb]
      · have : (b.1 == e) = false := by simpa [hb] using fun h => he h.symm
        simp [this, he]
    · have hb' : (b.1 == d) = false := by simpa using hb
      rw [if_neg (by simp [hb'])]
      rw [List.find?_cons, hb'] at h
      rw [List.find?_cons, List.find?_cons]
      by_cases he : b.1 = e
      · have h1 : (b.1 == e) = true := by simpa using he
        rw [h1]
        have : e ≠ d := fun h => hb (he.trans h)
        simp [this]
      · have h1 : (b.1 == e) = false := by simpa using he
        rw [h1]
        exact ih h

theorem bind_find (g : Gettext) (d dir e : List Char) (hd : d.length ≤ 99) :
    (((bindtextdomain g d dir).basedirs.find? (·.1 == e)).map (·.2)) = if e = d then some dir else (g.basedirs.find? (·.1 == e)).map (·.2) := by
  rw [bindtextdomain]
  simp only
  split
  · rename_i h
    exact rebind_find d dir e g.basedirs h
  · rename_i h
    rw [List.take_of_length_le hd, List.find?_cons]
    by_cases he : e = d
    · subst he; simp
    · have : (d == e) = false := by simpa using fun h => he h.symm
      simp [this, he]

/-- The files: none, or one with a catalogue. -/
def GoodFiles (fs : List Char → Option (List Nat)) (C : List Char → Option (List (List Nat × List Nat))) : Prop :=
  ∀ p, (fs p = none ∧ C p = none) ∨ ∃ buf cat, fs p = some buf ∧ C p = some cat ∧ MoFile buf cat

/-- The files loaded are the files. -/
def Cached (C : List Char → Option (List (List Nat × List Nat))) (g : Gettext) : Prop :=
  ∀ q ∈ g.domains, ∃ cat, C q.1 = some cat ∧ Loaded q.2 cat

theorem dcgettext_spec {fs : List Char → Option (List Nat)} {C : List Char → Option (List (List Nat × List Nat))} (hfs : GoodFiles fs C)
    {g : Gettext} (hg : Cached C g) (loc : LocCat → List Char) (d : List Char) (msg : List Nat) (hm : 0 ∉ msg) (cat : LocCat)
    (hl : (loc cat).length ≤ 99) :
    ∃ ds, dcgettext fs loc g d msg cat =
      .ok (((C (cataloguePath ((g.basedirs.find? (·.1 == d)).map (·.2)) (languageOf iso639 (loc cat)) cat.dir d)).map
        (translation · msg)).getD msg, { g with domains := ds }) ∧ Cached C { g with domains := ds } := by
  rw [dcgettext, domainPath_spec _ _ _ _ hl]
  generalize cataloguePath _ _ _ _ = path
  simp only [Res.ok_bind]
  cases hf : g.domains.find? (·.1 == path) with
  | some q =>
    have hq := List.find?_some hf
    obtain ⟨cat, hc, hload⟩ := hg q (List.mem_of_find?_eq_some hf)
    have hp : q.1 = path := by simpa using hq
    rw [hp] at hc
    simp only
    rw [moLookup_loaded hload msg hm, hc]
    exact ⟨g.domains, rfl, hg⟩
  | none =>
    simp only
    rcases hfs path with ⟨h1, h2⟩ | ⟨buf, cat, h1, h2, h3⟩
    · rw [h1, h2]
      exact ⟨g.domains, rfl, hg⟩
    · obtain ⟨m, e, hload⟩ := moLoad_file h3
      rw [h1, h2, loadDomain, e]
      simp only [Res.ok_bind]
      rw [moLookup_loaded hload msg hm]
      refine ⟨(path, m) :: g.domains, rfl, ?_⟩
      intro q hq
      rcases List.mem_cons.1 hq with rfl | hq
      · exact ⟨cat, h2, hload⟩
      · exact hg q hq

end PBat
