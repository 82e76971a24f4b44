import Verif.Spec.DirList
import Verif.Lemmas.Search
import Verif.Lemmas.Shift
import Verif.Lemmas.Num
import Verif.Lemmas.Setlocal
import Verif.Lemmas.Def
import Verif.Props.C34
import Verif.Props.C54
import Verif.Props.C55
/-
Lemmas about DIR.
-/
namespace PBat
open Spec

/-! ### Sizes -/

/-- `iLastPart` after `i` turns. -/
def sizePart (n : Nat) : Nat → Nat
  | 0 => 0
  | i + 1 => n / 1000 ^ i % 1000

theorem formatLoop_spec (n : Nat) : ∀ (k i : Nat), n / 1000 ^ i = k → (i ≠ 0 → n / 1000 ^ i ≠ 0) →
    ∃ j, formatLoop (n / 1000 ^ i) (sizePart n i) i = (n / 1000 ^ j, sizePart n j, j) ∧ n / 1000 ^ j < 1000 ∧ (j ≠ 0 → n / 1000 ^ j ≠ 0) := by
  intro k
  induction k using Nat.strongRecOn with
  | ind k ih =>
    intro i hk h0
    rw [formatLoop]
    by_cases h : 1000 ≤ n / 1000 ^ i
    · rw [if_pos h]
      have e : n / 1000 ^ i / 1000 = n / 1000 ^ (i + 1) := by rw [Nat.div_div_eq_div_mul, Nat.pow_succ]
      have h1 : n / 1000 ^ (i + 1) ≠ 0 := by rw [← e]; omega
      obtain ⟨j, h2⟩ := ih (n / 1000 ^ (i + 1)) (by rw [← e]; omega) (i + 1) rfl (fun _ => h1)
      refine ⟨j, ?_⟩
      rw [e]
      exact h2
    · rw [if_neg h]
      exact ⟨i, rfl, by omega, h0⟩

theorem sizeUnit_spec {i : Nat} (h : i < 4) : SizeUnit i (sizeUnit i) := by
  rcases (by omega : i = 0 ∨ i = 1 ∨ i = 2 ∨ i = 3) with rfl | rfl | rfl | rfl
  · exact .o
  · exact .ko
  · exact .mo
  · exact .go

theorem digit_text {d : Nat} (h : d < 10) : ∃ x, (toString d).toList = [x] := by
  have : ∀ d : Fin 10, ∃ x, (toString d.1).toList = [x] := by
    intro d
    match d with
    | 0 => exact ⟨'0', by decide⟩
    | 1 => exact ⟨'1', by decide⟩
    | 2 => exact ⟨'2', by decide⟩
    | 3 => exact ⟨'3', by decide⟩
    | 4 => exact ⟨'4', by decide⟩
    | 5 => exact ⟨'5', by decide⟩
    | 6 => exact ⟨'6', by decide⟩
    | 7 => exact ⟨'7', by decide⟩
    | 8 => exact ⟨'8', by decide⟩
    | 9 => exact ⟨'9', by decide⟩
  exact this ⟨d, h⟩

theorem two_digits {h : Nat} (hh : h < 100) : ∃ x y, (toString (h / 10)).toList = [x] ∧ (toString (h % 10)).toList = [y] ∧
    (if h < 10 then '0' :: natText h else natText h) = [x, y] := by
  obtain ⟨x, hx⟩ := digit_text (d := h / 10) (by omega)
  obtain ⟨y, hy⟩ := digit_text (d := h % 10) (by omega)
  refine ⟨x, y, hx, hy, ?_⟩
  rw [← natText_toString] at hx hy
  split
  · next hl =>
    have e0 : h / 10 = 0 := by omega
    have e1 : h % 10 = h := by omega
    rw [e0] at hx
    rw [e1] at hy
    rw [hy]
    have : natText 0 = ['0'] := by decide +kernel
    rw [this] at hx
    simp at hx
    rw [hx]
  · next hl =>
    rw [natText, if_neg hl, hx]
    rw [natText, if_pos (by omega)] at hy
    rw [hy]
    rfl

theorem natText_one {d : Nat} (h : d < 10) : (natText d).length = 1 := by rw [natText, if_pos h]; rfl

theorem natText_two {d : Nat} (h : 10 ≤ d) (h2 : d < 100) : (natText d).length = 2 := by
  rw [natText, if_neg (by omega), List.length_append, natText_one (by omega)]; rfl

theorem natText_three {d : Nat} (h : 100 ≤ d) (h2 : d < 1000) : (natText d).length = 3 := by
  rw [natText, if_neg (by omega), List.length_append, natText_two (by omega) (by omega)]; rfl

theorem sizeUnit_length (i : Nat) : (sizeUnit i).length ≤ 2 := by
  unfold sizeUnit
  split
  · simp
  · split
    · simp
    · split <;> simp

theorem thousand_small {n j : Nat} (hn : n < 2 ^ 32) (hj : j ≠ 0 → n / 1000 ^ j ≠ 0) : j < 4 := by
  refine Nat.lt_of_not_le fun h => hj (by omega) ?_
  apply Nat.div_eq_of_lt
  have : 1000 ^ 4 ≤ 1000 ^ j := Nat.pow_le_pow_right (by omega) h
  have : (2:Nat) ^ 32 < 1000 ^ 4 := by decide
  omega

theorem div_bounds (n : Nat) {p : Nat} (hp : 0 < p) : n / p * p ≤ n ∧ n < (n / p + 1) * p := by
  refine ⟨Nat.div_mul_le_self n p, ?_⟩
  rw [Nat.mul_comm]
  exact Nat.lt_mul_div_succ n hp

theorem formatFileSize_spec {n : Nat} (hn : n < 2 ^ 32) : SizeText n (formatFileSize 8 n) := by
  obtain ⟨j, h1, h2, h3⟩ := formatLoop_spec n (n / 1000 ^ 0) 0 rfl (by simp)
  have e0 : formatLoop n 0 0 = (n / 1000 ^ j, sizePart n j, j) := by
    rw [← h1, Nat.pow_zero, Nat.div_one]; rfl
  have hj := thousand_small hn h3
  have hu := sizeUnit_spec hj
  have hul := sizeUnit_length j
  obtain ⟨b1, b2⟩ := div_bounds n (p := 1000 ^ j) (Nat.pow_pos (by omega))
  unfold formatFileSize
  rw [e0]
  generalize hd : n / 1000 ^ j = d at *
  dsimp only
  by_cases c1 : 100 ≤ d
  · rw [if_pos c1, List.take_of_length_le]
    · rw [natText_toString]
      exact .hundreds hu c1 h2 b1 b2
    · have := natText_three c1 h2
      simp
      omega
  · rw [if_neg c1]
    by_cases c2 : 10 ≤ d
    · rw [if_pos c2, List.take_of_length_le]
      · rw [natText_toString]
        exact .tens hu c2 (by omega) b1 b2
      · have := natText_two c2 (by omega)
        simp
        omega
    · rw [if_neg c2]
      have hl : sizePart n j < 1000 := by
        cases j with
        | zero => simp [sizePart]
        | succ k => exact Nat.mod_lt _ (by omega)
      obtain ⟨x, y, hx, hy, ht⟩ := two_digits (h := sizePart n j / 10) (by omega)
      rw [ht, List.take_of_length_le]
      · rw [natText_toString]
        have key : (d * 100 + sizePart n j / 10) * 1000 ^ j ≤ n * 100 ∧ n * 100 < (d * 100 + sizePart n j / 10 + 1) * 1000 ^ j := by
          cases j with
          | zero =>
            simp only [sizePart, Nat.pow_zero, Nat.div_one] at hd ⊢
            omega
          | succ k =>
            obtain ⟨a1, a2⟩ := div_bounds n (p := 1000 ^ k) (Nat.pow_pos (by omega))
            have e1 : n / 1000 ^ k / 1000 = d := by rw [← hd, Nat.div_div_eq_div_mul, Nat.pow_succ]
            simp only [sizePart]
            generalize n / 1000 ^ k = m at *
            have e2 : d * 100 + m % 1000 / 10 = m / 10 := by omega
            rw [e2, Nat.pow_succ]
            generalize 1000 ^ k = q at *
            constructor
            · calc m / 10 * (q * 1000) = m / 10 * 10 * q * 100 := by
                    rw [show (1000:Nat) = 10 * 100 from rfl, ← Nat.mul_assoc, ← Nat.mul_assoc, Nat.mul_right_comm (m / 10) q 10]
                _ ≤ m * q * 100 := Nat.mul_le_mul_right _ (Nat.mul_le_mul_right _ (Nat.div_mul_le_self m 10))
                _ ≤ n * 100 := Nat.mul_le_mul_right _ a1
            · calc n * 100 < (m + 1) * q * 100 := Nat.mul_lt_mul_of_pos_right a2 (by omega)
                _ ≤ (m / 10 + 1) * 10 * q * 100 := Nat.mul_le_mul_right _ (Nat.mul_le_mul_right _ (by omega))
                _ = (m / 10 + 1) * (q * 1000) := by
                    rw [show (1000:Nat) = 10 * 100 from rfl, ← Nat.mul_assoc, ← Nat.mul_assoc, Nat.mul_right_comm (m / 10 + 1) q 10]
        have e3 : (toString d).toList ++ ',' :: [x, y] ++ ' ' :: sizeUnit j = (toString d).toList ++ ',' :: x :: y :: ' ' :: sizeUnit j := by simp
        rw [e3]
        exact .ones hu (by omega) (fun h => by have := h3 h; omega) (by omega) key.1 key.2 hx hy
      · have := natText_one (d := d) (by omega)
        simp
        omega

/-! ### Parameters -/

/-- The variables after the items. -/
def dirAfter (cur : List Char) (v : DirVars) : List DirItem → DirVars
  | [] => v
  | .bare :: is => dirAfter cur { v with simple := true, noStat := v.noStat || v.attr == 0#16, noPseudo := true } is
  | .deep :: is => dirAfter cur { v with recursive := true } is
  | .attr l :: is => dirAfter cur { v with attr := flagsOf l, noStat := false } is
  | .name n :: is =>
    dirAfter cur { v with name := if Rooted n then n else cur ++ '/' :: n, size := if Rooted n then 0 else cur.length + 1 } is

/-- Names that stand for files of the same name and fit in `FILENAME_MAX`. -/
def DirName (cur n : List Char) : Prop := device n = none ∧ ¬ PortLike n ∧ (fileOf cur n).length < 4096 ∧ n ≠ []

theorem attrText_head {t : List Char} {l : List (Attr × Bool)} (h : AttrText t l) : t.head? ≠ some ':' := by
  cases h with
  | nil => simp
  | @present c d a s l hl hc _ =>
    simp only [List.head?_cons, ne_eq, Option.some.injEq]
    rintro rfl
    cases hl <;> exact absurd hc (by decide)
  | absent => simp

theorem makeFlags {t : List Char} {l : List (Attr × Bool)} (h : AttrText t l) : makeFileAttributes t = flagsOf l := by
  unfold makeFileAttributes
  rw [makeAttrLoop_text h, BitVec.zero_or]

theorem prefix_a (b : Char) (t : List Char) (h : b.toLower = 'a') : prefixI ['/', 'a'] ('/' :: b :: t) = true := by
  rw [prefixI_iff]
  refine ⟨t.map Char.toLower, ?_⟩
  simp only [List.map_cons, h]
  rfl

theorem dirParam_item {cur : List Char} {v : DirVars} {t : List Char} {i : DirItem} (h : DirWord t i)
    (hn : ∀ n, i = .name n → v.name = [] ∧ DirName cur n) : dirParam cur v t = .ok (.go (dirAfter cur v [i])) := by
  cases h with
  | bare h =>
    unfold dirParam
    rw [if_neg (by rintro rfl; revert h; decide), if_pos ((stricmp_zero ['/', 'b'] t).2 h.symm)]
    rfl
  | deep h =>
    unfold dirParam
    rw [if_neg (by rintro rfl; revert h; decide), if_neg (fun e => by rw [stricmp_zero] at e; rw [← e] at h; revert h; decide),
      if_pos ((stricmp_zero ['/', 's'] t).2 h.symm)]
    rfl
  | @attr b t l hb ht =>
    unfold dirParam
    rw [if_neg (by intro e; injection e with _ e; injection e with e; subst e; revert hb; decide),
      if_neg (fun e => by rw [stricmp_zero] at e; injection e with _ e; injection e with e; rw [hb] at e; revert e; decide),
      if_neg (fun e => by rw [stricmp_zero] at e; injection e with _ e; injection e with e; rw [hb] at e; revert e; decide),
      if_pos (prefix_a b t hb)]
    simp only [List.drop_succ_cons, List.drop_zero]
    rw [if_neg (attrText_head ht), makeFlags ht]
    rfl
  | @attrColon b t l hb ht =>
    unfold dirParam
    rw [if_neg (by intro e; injection e with _ e; injection e with e; subst e; revert hb; decide),
      if_neg (fun e => by rw [stricmp_zero] at e; injection e with _ e; injection e with e; rw [hb] at e; revert e; decide),
      if_neg (fun e => by rw [stricmp_zero] at e; injection e with _ e; injection e with e; rw [hb] at e; revert e; decide),
      if_pos (prefix_a b _ hb)]
    simp only [List.drop_succ_cons, List.drop_zero, List.head?_cons, if_true]
    rw [makeFlags ht]
    rfl
  | name h1 h2 h3 h4 =>
    obtain ⟨hv, hd, hp, hl, -⟩ := hn t rfl
    unfold dirParam
    have hpre : ¬ prefixI ['/', 'a'] t = true := by
      rw [prefixI_iff]
      rintro ⟨r, e⟩
      cases t with
      | nil => simp at e
      | cons c t =>
        cases t with
        | nil => simp at e
        | cons d t =>
          simp only [List.map_cons] at e
          injection e with e1 e2
          injection e2 with e2 e3
          have hc : c = '/' := toLower_slash (e1.symm.trans (by decide))
          subst hc
          exact h4 d t rfl (e2.symm.trans (by decide))
    rw [if_neg h3, if_neg (fun e => h1 ((stricmp_zero _ _).1 e).symm), if_neg (fun e => h2 ((stricmp_zero _ _).1 e).symm), if_neg hpre,
      if_neg (by simp [hv]), (C54_file_partial cur t (.inr hp)).2.1 4096 hl, Res.ok_bind]
    simp only [absolute_iff, dirAfter, fileOf, hd]

/-- A second name. -/
theorem dirParam_second {cur : List Char} {v : DirVars} {t : List Char} (hv : v.name ≠ []) (h : DirWord t (.name t)) :
    dirParam cur v t = .ok (.refused 4) := by
  cases h with
  | name h1 h2 h3 h4 =>
    unfold dirParam
    have hpre : ¬ prefixI ['/', 'a'] t = true := by
      rw [prefixI_iff]
      rintro ⟨r, e⟩
      cases t with
      | nil => simp at e
      | cons c t =>
        cases t with
        | nil => simp at e
        | cons d t =>
          simp only [List.map_cons] at e
          injection e with e1 e2
          injection e2 with e2 e3
          have hc : c = '/' := toLower_slash (e1.symm.trans (by decide))
          subst hc
          exact h4 d t rfl (e2.symm.trans (by decide))
    rw [if_neg h3, if_neg (fun e => h1 ((stricmp_zero _ _).1 e).symm), if_neg (fun e => h2 ((stricmp_zero _ _).1 e).symm), if_neg hpre, if_pos hv]

theorem dirAfter_cons (cur : List Char) (v : DirVars) (i : DirItem) (is : List DirItem) :
    dirAfter cur v (i :: is) = dirAfter cur (dirAfter cur v [i]) is := by
  cases i <;> rfl

/-- A line of items with at most one name. -/
theorem dirRead_items (c : Ctx) (cur : List Char) {line : List Char} {as : List (List Char)} (hk : Kept line as) {is : List DirItem}
    (hw : DirWords as is) : ∀ (v : DirVars), (askedNames is = [] ∨ v.name = [] ∧ ∃ n, askedNames is = [n] ∧ DirName cur n) →
    dirRead c.ex cur v line = .ok (.go (dirAfter cur v is)) := by
  induction hw generalizing line with
  | nil =>
    intro v _
    rcases kept_next c hk with ⟨-, hn⟩ | ⟨a, as', t', e, -⟩
    · rw [dirRead, hn]; rfl
    · cases e
  | @cons a i as is ha _ ih =>
    intro v hv
    rcases kept_next c hk with ⟨e, -⟩ | ⟨a', as', t', e, hn, hk', hl⟩
    · cases e
    · cases e
      rw [dirRead, hn]
      simp only [if_pos hl]
      have key : (∀ n, i = .name n → v.name = [] ∧ DirName cur n) ∧
          (askedNames is = [] ∨ (dirAfter cur v [i]).name = [] ∧ ∃ n, askedNames is = [n] ∧ DirName cur n) := by
        cases i with
        | name n =>
          simp only [askedNames] at hv
          rcases hv with hv | ⟨h1, m, hv, h2⟩
          · cases hv
          · injection hv with e1 e2
            subst e1
            exact ⟨fun n' e => by cases e; exact ⟨h1, h2⟩, .inl e2⟩
        | bare => exact ⟨by simp, by simpa [askedNames, dirAfter] using hv⟩
        | deep => exact ⟨by simp, by simpa [askedNames, dirAfter] using hv⟩
        | attr l => exact ⟨by simp, by simpa [askedNames, dirAfter] using hv⟩
      rw [dirParam_item ha key.1]
      simp only
      rw [ih hk' _ key.2, dirAfter_cons cur v i is]


/-- The same for the beginning of a line. -/
theorem dirRead_prefix (c : Ctx) (cur : List Char) {line : List Char} {as rest : List (List Char)} (hk : Kept line (as ++ rest)) {is : List DirItem}
    (hw : DirWords as is) : ∀ (v : DirVars), (askedNames is = [] ∨ v.name = [] ∧ ∃ n, askedNames is = [n] ∧ DirName cur n) →
    ∃ line', Kept line' rest ∧ dirRead c.ex cur v line = dirRead c.ex cur (dirAfter cur v is) line' := by
  induction hw generalizing line with
  | nil =>
    intro v _
    exact ⟨line, hk, rfl⟩
  | @cons a i as is ha _ ih =>
    intro v hv
    rcases kept_next c hk with ⟨e, -⟩ | ⟨a', as', t', e, hn, hk', hl⟩
    · cases e
    · cases e
      rw [dirRead, hn]
      simp only [if_pos hl]
      have key : (∀ n, i = .name n → v.name = [] ∧ DirName cur n) ∧
          (askedNames is = [] ∨ (dirAfter cur v [i]).name = [] ∧ ∃ n, askedNames is = [n] ∧ DirName cur n) := by
        cases i with
        | name n =>
          simp only [askedNames] at hv
          rcases hv with hv | ⟨h1, m, hv, h2⟩
          · cases hv
          · injection hv with e1 e2
            subst e1
            exact ⟨fun n' e => by cases e; exact ⟨h1, h2⟩, .inl e2⟩
        | bare => exact ⟨by simp, by simpa [askedNames, dirAfter] using hv⟩
        | deep => exact ⟨by simp, by simpa [askedNames, dirAfter] using hv⟩
        | attr l => exact ⟨by simp, by simpa [askedNames, dirAfter] using hv⟩
      rw [dirParam_item ha key.1]
      simp only
      obtain ⟨l', h1, h2⟩ := ih hk' _ key.2
      exact ⟨l', h1, by rw [h2, dirAfter_cons cur v i is]⟩


/-- What the variables are after the items. -/
theorem dirAfter_fields (cur : List Char) (is : List DirItem) : ∀ v : DirVars,
    ((dirAfter cur v is).simple = true ↔ v.simple = true ∨ DirItem.bare ∈ is) ∧
    ((dirAfter cur v is).noPseudo = true ↔ v.noPseudo = true ∨ DirItem.bare ∈ is) ∧
    ((dirAfter cur v is).recursive = true ↔ v.recursive = true ∨ DirItem.deep ∈ is) := by
  induction is with
  | nil => intro v; simp [dirAfter]
  | cons i is ih =>
    intro v
    rw [dirAfter_cons]
    obtain ⟨h1, h2, h3⟩ := ih (dirAfter cur v [i])
    rw [h1, h2, h3]
    cases i <;> simp [dirAfter]

theorem askedAttr_cons (l : List (Attr × Bool)) (is : List DirItem) :
    askedAttr (.attr l :: is) = if is.any isAttrItem then askedAttr is else l := by
  rfl

theorem dirAfter_attr (cur : List Char) (is : List DirItem) : ∀ v : DirVars, (v.noStat = true → v.attr = 0#16 ∧ v.simple = true) →
    (dirAfter cur v is).attr = (if is.any isAttrItem then flagsOf (askedAttr is) else v.attr) ∧
    ((dirAfter cur v is).noStat = true → (dirAfter cur v is).attr = 0#16 ∧ (dirAfter cur v is).simple = true) := by
  induction is with
  | nil => intro v hv; exact ⟨rfl, hv⟩
  | cons i is ih =>
    intro v hv
    rw [dirAfter_cons]
    cases i with
    | bare =>
      have := ih (dirAfter cur v [.bare]) (by simp only [dirAfter]; intro h; simp at h; refine ⟨?_, trivial⟩; rcases h with h | h
                                              · exact (hv h).1
                                              · exact h)
      simpa [isAttrItem, askedAttr, dirAfter] using this
    | deep =>
      have := ih (dirAfter cur v [.deep]) (by simpa [dirAfter] using hv)
      simpa [isAttrItem, askedAttr, dirAfter] using this
    | name n =>
      have := ih (dirAfter cur v [.name n]) (by simpa [dirAfter] using hv)
      simpa [isAttrItem, askedAttr, dirAfter] using this
    | attr l =>
      have := ih (dirAfter cur v [.attr l]) (by simp [dirAfter])
      refine ⟨?_, this.2⟩
      rw [this.1, askedAttr_cons]
      cases is.any isAttrItem <;> simp [isAttrItem, dirAfter]

theorem askedAttr_none {is : List DirItem} (h : is.any isAttrItem = false) : askedAttr is = [] := by
  induction is with
  | nil => rfl
  | cons i is ih =>
    simp only [List.any_cons, Bool.or_eq_false_iff] at h
    cases i with
    | attr l => simp [isAttrItem] at h
    | bare => exact ih h.2
    | deep => exact ih h.2
    | name n => exact ih h.2

theorem dirAfter_flags (cur : List Char) (is : List DirItem) : (dirAfter cur {} is).attr = flagsOf (askedAttr is) := by
  rw [(dirAfter_attr cur is {} (by simp)).1]
  cases h : is.any isAttrItem with
  | true => rfl
  | false => rw [askedAttr_none h]; rfl

theorem dirAfter_nostat (cur : List Char) (is : List DirItem) (h : is.any isAttrItem = false) : ∀ v : DirVars, v.attr = 0#16 →
    (v.noStat = true ∨ DirItem.bare ∈ is) → (dirAfter cur v is).noStat = true := by
  induction is with
  | nil => intro v _ h; simpa [dirAfter] using h
  | cons i is ih =>
    intro v ha hv
    simp only [List.any_cons, Bool.or_eq_false_iff] at h
    rw [dirAfter_cons]
    cases i with
    | attr l => simp [isAttrItem] at h
    | bare => exact ih h.2 _ ha (.inl (by simp [dirAfter, ha]))
    | deep => exact ih h.2 _ ha (by simpa [dirAfter] using hv)
    | name n => exact ih h.2 _ ha (by simpa [dirAfter] using hv)

theorem dirAfter_noname (cur : List Char) (is : List DirItem) (h : askedNames is = []) : ∀ v : DirVars,
    (dirAfter cur v is).name = v.name ∧ (dirAfter cur v is).size = v.size := by
  induction is with
  | nil => intro v; exact ⟨rfl, rfl⟩
  | cons i is ih =>
    intro v
    rw [dirAfter_cons]
    cases i with
    | attr l => exact ih h _
    | bare => exact ih h _
    | deep => exact ih h _
    | name n => simp [askedNames] at h

theorem dirAfter_name (cur : List Char) (is : List DirItem) (n : List Char) (h : askedNames is = [n]) : ∀ v : DirVars,
    (dirAfter cur v is).name = (if Rooted n then n else cur ++ '/' :: n) ∧ (dirAfter cur v is).size = (if Rooted n then 0 else cur.length + 1) := by
  induction is with
  | nil => simp [askedNames] at h
  | cons i is ih =>
    intro v
    rw [dirAfter_cons]
    cases i with
    | attr l => exact ih h _
    | bare => exact ih h _
    | deep => exact ih h _
    | name m =>
      simp only [askedNames] at h
      injection h with e1 e2
      subst e1
      exact dirAfter_noname cur is e2 _

/-! ### The files found are below the current directory -/

/-- Beginning with the name of a directory. -/
def InBase (b x : List Char) : Prop := ∃ r, x = joinPath (some b) r

theorem joinPath_joinPath (b e r : List Char) : ∃ r', joinPath (some (joinPath (some b) e)) r = joinPath (some b) r' := by
  have step : ∀ x, ∃ r', joinPath (some b) e ++ x = joinPath (some b) r' := by
    intro x
    refine ⟨e ++ x, ?_⟩
    simp only [joinPath]
    split <;> simp
  rw [show joinPath (some (joinPath (some b) e)) r =
    if (joinPath (some b) e).getLast? = some '/' then joinPath (some b) e ++ r else joinPath (some b) e ++ '/' :: r from rfl]
  split
  · exact step r
  · exact step ('/' :: r)

theorem InBase.trans {b e x : List Char} (h : InBase (joinPath (some b) e) x) : InBase b x := by
  obtain ⟨r, rfl⟩ := h
  exact joinPath_joinPath b e r

theorem mem_snoc {Q : List Char → Prop} {l : List (List Char)} {y : List Char} (h : ∀ x ∈ l, Q x) (hy : Q y) : ∀ x ∈ l ++ [y], Q x := by
  intro x hx
  rcases List.mem_append.1 hx with hx | hx
  · exact h x hx
  · rw [List.mem_singleton.1 hx]; exact hy

theorem scanDir_base (fs : FileSys) (fl : SearchFlags) (sub : List Char → List Char → List (List Char) → Res (List (List Char)))
    (b item : List Char) (up : Option (List Char)) (Q : List Char → Prop) (hQ : ∀ x, InBase b x → Q x)
    (hsub : ∀ e u r res, sub (joinPath (some b) e) u r = .ok res → (∀ x ∈ r, Q x) → ∀ x ∈ res, Q x) (es : List (List Char)) :
    ∀ ret res, scanDir fs fl sub (some b) item up es ret = .ok res → (∀ x ∈ ret, Q x) → ∀ x ∈ res, Q x := by
  have hj : ∀ e, Q (joinPath (some b) e) := fun e => hQ _ ⟨e, rfl⟩
  cases up with
  | none =>
    induction es with
    | nil => intro ret res h hr; rw [scanDir] at h; cases h; exact hr
    | cons e es ih =>
      intro ret res h hr
      rw [scanDir] at h
      split at h
      · exact ih _ _ h hr
      · split at h
        · split at h
          · split at h
            · cases h; exact mem_snoc hr (hj e)
            · exact ih _ _ h (mem_snoc hr (hj e))
          · split at h
            · cases h; exact mem_snoc hr (hj e)
            · have h1 : ∀ x ∈ (if fl.callback then ret ++ [joinPath (some b) e] else ret), Q x := by
                split
                · exact mem_snoc hr (hj e)
                · exact hr
              generalize (if fl.callback then ret ++ [joinPath (some b) e] else ret) = ret1 at h h1
              have tail : ∀ ret2, (∀ x ∈ ret2, Q x) → (if (fl.recursive && !isPseudo e && fl.first && !ret2.isEmpty) = true then Res.ok ret2
                  else if fl.callback = true then scanDir fs fl sub (some b) item none es ret2
                  else if fl.first = true then Res.ok (ret2 ++ [joinPath (some b) e])
                  else scanDir fs fl sub (some b) item none es (ret2 ++ [joinPath (some b) e])) = .ok res → ∀ x ∈ res, Q x := by
                intro ret2 h3 h
                split at h
                · cases h; exact h3
                · split at h
                  · exact ih _ _ h h3
                  · split at h
                    · cases h; exact mem_snoc h3 (hj e)
                    · exact ih _ _ h (mem_snoc h3 (hj e))
              simp only at h
              split at h
              · rw [res_bind_eq_ok] at h
                obtain ⟨ret2, h2, h⟩ := h
                exact tail ret2 (hsub _ _ _ _ h2 h1) h
              · rw [Res.ok_bind] at h
                exact tail ret1 h1 h
        · split at h
          · rw [res_bind_eq_ok] at h
            obtain ⟨ret1, h2, h⟩ := h
            exact ih _ _ h (hsub _ _ _ _ h2 hr)
          · exact ih _ _ h hr
  | some u =>
    induction es with
    | nil => intro ret res h hr; rw [scanDir] at h; cases h; exact hr
    | cons e es ih =>
      intro ret res h hr
      rw [scanDir] at h
      split at h
      · exact ih _ _ h hr
      · split at h
        · split at h
          · exact ih _ _ h hr
          · rw [res_bind_eq_ok] at h
            obtain ⟨ret1, h2, h⟩ := h
            have h3 := hsub _ _ _ _ h2 hr
            split at h
            · cases h; exact h3
            · exact ih _ _ h h3
        · split at h
          · rw [res_bind_eq_ok] at h
            obtain ⟨ret1, h2, h⟩ := h
            exact ih _ _ h (hsub _ _ _ _ h2 hr)
          · exact ih _ _ h hr

theorem searchIn_base (fs : FileSys) (fl : SearchFlags) (Q : List Char → Prop) : ∀ (n : Nat) (b : List Char) (pat : Option (List Char))
    (ret res : List (List Char)), searchIn fs fl n (some b) pat ret = .ok res → (∀ x, InBase b x → Q x) → (∀ x ∈ ret, Q x) → ∀ x ∈ res, Q x := by
  intro n
  induction n with
  | zero => intro b pat ret res h; rw [searchIn] at h; cases h
  | succ n ih =>
    intro b pat ret res h hQ hr
    have hj : ∀ e, Q (joinPath (some b) e) := fun e => hQ _ ⟨e, rfl⟩
    have hsub : ∀ e u r res, (if (fl.first && !r.isEmpty) = true then Res.ok r else searchIn fs fl n (some (joinPath (some b) e)) u r) = .ok res →
        (∀ x ∈ r, Q x) → ∀ x ∈ res, Q x := by
      intro e u r res h hr
      split at h
      · cases h; exact hr
      · exact ih _ _ _ _ h (fun x hx => hQ x hx.trans) hr
    have trivial_case : ∀ item, (do
        let ret1 := if fs.isReg (joinPath (some b) item) && true then ret ++ [joinPath (some b) item] else ret
        if fs.isDir (joinPath (some b) item) then do
          let ret2 := if fl.callback then ret1 ++ [joinPath (some b) item] else ret1
          let ret3 ← if fl.recursive then
              (if (fl.first && !ret2.isEmpty) = true then Res.ok ret2 else searchIn fs fl n (some (joinPath (some b) item)) none ret2) else Res.ok ret2
          .ok (if fl.callback then ret3 else ret3 ++ [joinPath (some b) item])
        else Res.ok ret1) = .ok res → ∀ x ∈ res, Q x := by
      intro item h
      simp only at h
      have h1 : ∀ x ∈ (if fs.isReg (joinPath (some b) item) && true then ret ++ [joinPath (some b) item] else ret), Q x := by
        split
        · exact mem_snoc hr (hj item)
        · exact hr
      generalize (if fs.isReg (joinPath (some b) item) && true then ret ++ [joinPath (some b) item] else ret) = ret1 at h h1
      split at h
      · have h2 : ∀ x ∈ (if fl.callback then ret1 ++ [joinPath (some b) item] else ret1), Q x := by
          split
          · exact mem_snoc h1 (hj item)
          · exact h1
        generalize (if fl.callback then ret1 ++ [joinPath (some b) item] else ret1) = ret2 at h h2
        have tail : ∀ ret3, (∀ x ∈ ret3, Q x) → ∀ x ∈ (if fl.callback = true then ret3 else ret3 ++ [joinPath (some b) item]), Q x := by
          intro ret3 h4
          split
          · exact h4
          · exact mem_snoc h4 (hj item)
        split at h
        · rw [res_bind_eq_ok] at h
          obtain ⟨ret3, h3, h⟩ := h
          cases h
          exact tail ret3 (hsub _ _ _ _ h3 h2)
        · rw [Res.ok_bind] at h
          cases h
          exact tail ret2 h2
      · cases h; exact h1
    cases pat with
    | none =>
      rw [searchIn] at h
      exact trivial_case ['*'] h
    | some u =>
      rw [searchIn] at h
      rcases nextLevel_cases u with ⟨h3, h4⟩ | ⟨h3, h4, h5⟩ | ⟨l, r, rfl, h3, h4, h5⟩ | ⟨t, r, rfl, h3, h4⟩
      · simp only [h4] at h
        exact trivial_case u h
      · simp only [h5, Bool.not_true, Bool.false_eq_true, if_false, Option.map_none] at h
        split at h
        · cases h; exact hr
        · exact scanDir_base fs fl _ b u none Q hQ (fun e u r res => hsub e (some u) r res) _ _ _ h hr
      · simp only [h5, Bool.not_true, Bool.false_eq_true, if_false, Option.map_some] at h
        split at h
        · cases h; exact hr
        · exact scanDir_base fs fl _ b l (some r) Q hQ (fun e u r res => hsub e (some u) r res) _ _ _ h hr
      · simp only [h4, Bool.not_false, if_true, Option.map_some, Option.isNone_some, Bool.and_false, Bool.false_eq_true, if_false] at h
        split at h
        · exact hsub _ _ _ _ h hr
        · cases h; exact hr


theorem nextLevel_after {c rel : List Char} (hc : ∀ d ∈ c, isWild d = false) (hw : rel.any isWild = true) :
    ∃ t r, nextLevel (c ++ '/' :: rel) = (some (t, r), false) ∧ (t = c ∨ ∃ s, t = c ++ '/' :: s) := by
  rcases wild_first rel with h | ⟨u, w, x, rfl, h1, h2⟩
  · rw [List.any_eq_true] at hw
    obtain ⟨d, hd, hw⟩ := hw
    rw [h d hd] at hw
    cases hw
  · rcases sep_last u with h | ⟨t, a, rfl, h⟩
    · have := (go_text [] none (t := c) hc).2 u w x h2 h h1
      refine ⟨c, u ++ w :: x, ?_, .inl rfl⟩
      unfold nextLevel
      rw [this]
      simp
    · have := (go_text [] none (t := c ++ '/' :: t) (by
        intro d hd
        rcases List.mem_append.1 hd with hd | hd
        · exact hc d hd
        · rcases List.mem_cons.1 hd with rfl | hd
          · decide
          · exact h2 d (by simp [hd]))).2 a w x (fun d hd => h2 d (by simp [hd])) h h1
      refine ⟨c ++ '/' :: t, a ++ w :: x, ?_, .inr ⟨t, rfl⟩⟩
      unfold nextLevel
      rw [show c ++ '/' :: (t ++ '/' :: a ++ w :: x) = c ++ '/' :: t ++ '/' :: (a ++ w :: x) by simp, this]
      simp

/-- A current directory: an absolute path that does not end with a separator and has no joker. -/
structure ListDir (cur : List Char) : Prop where
  rooted : Rooted cur
  last : cur.getLast? ≠ some '/'
  plain : ∀ d ∈ cur, isWild d = false

theorem searchTop_below (fs : FileSys) (fl : SearchFlags) (n : Nat) {cur rel : List Char} (hc : ListDir cur) {found : List (List Char)}
    (h : searchTop fs fl n (cur ++ '/' :: rel) = .ok found) : ∀ x ∈ found, ∃ r, x = cur ++ '/' :: r := by
  have hin : ∀ x, InBase (cur ++ '/' :: rel) x → ∃ r, x = cur ++ '/' :: r := by
    rintro x ⟨r, rfl⟩
    simp only [joinPath]
    split
    · exact ⟨rel ++ r, by simp⟩
    · exact ⟨rel ++ '/' :: r, by simp⟩
  have hp : ∃ r, cur ++ '/' :: rel = cur ++ '/' :: r := ⟨rel, rfl⟩
  unfold searchTop at h
  split at h
  · simp only at h
    have h0 : ∀ x ∈ (if (!fl.dirMode && fl.callback) = true then [cur ++ '/' :: rel] else []), ∃ r, x = cur ++ '/' :: r := by
      split
      · intro x hx; rw [List.mem_singleton.1 hx]; exact hp
      · simp
    have tail : ∀ ret1, (∀ x ∈ ret1, ∃ r, x = cur ++ '/' :: r) →
        ∀ x ∈ (if (!fl.dirMode && !fl.callback) = true then ret1 ++ [cur ++ '/' :: rel] else ret1), ∃ r, x = cur ++ '/' :: r := by
      intro ret1 h2
      split
      · exact mem_snoc h2 hp
      · exact h2
    generalize (if (!fl.dirMode && fl.callback) = true then [cur ++ '/' :: rel] else []) = ret at h h0
    split at h
    · rw [Res.ok_bind] at h
      cases h
      exact tail _ h0
    · rw [res_bind_eq_ok] at h
      obtain ⟨ret1, h1, h⟩ := h
      cases h
      exact tail _ (searchIn_base fs fl _ _ _ _ _ _ h1 hin h0)
  · split at h
    · cases h
      intro x hx; rw [List.mem_singleton.1 hx]; exact hp
    · split at h
      · cases h; simp
      · next hw =>
        obtain ⟨h1, h2⟩ := hc.rooted
        cases cur with
        | nil => cases h1
        | cons a c =>
          cases h1
          have hc1 : c ≠ [] := by rintro rfl; exact hc.last rfl
          have hcw : ∀ d ∈ c, isWild d = false := fun d hd => hc.plain d (by simp [hd])
          have hrel : rel.any isWild = true := by
            simp only [Bool.not_eq_true', Bool.not_eq_false] at hw
            rw [List.any_eq_true] at hw ⊢
            obtain ⟨d, hd, hw⟩ := hw
            rcases List.mem_append.1 hd with hd | hd
            · rw [hc.plain d hd] at hw; cases hw
            · rcases List.mem_cons.1 hd with rfl | hd
              · exact absurd hw (by decide)
              · exact ⟨d, hd, hw⟩
          have hroot : (('/' :: c) ++ '/' :: rel).head? = some '/' ∧ ((('/' :: c) ++ '/' :: rel).drop 1).head? ≠ some '/' := by
            refine ⟨rfl, ?_⟩
            cases c with
            | nil => exact absurd rfl hc1
            | cons b c => exact h2
          rw [if_pos hroot] at h
          cases n with
          | zero => rw [searchIn] at h; cases h
          | succ n =>
            obtain ⟨t, r, h3, h4⟩ := nextLevel_after hcw hrel
            rw [searchIn] at h
            simp only [List.cons_append, List.drop_succ_cons, List.drop_zero, h3, Bool.not_false, if_true, Option.map_some, Option.isNone_some,
              Bool.and_false, Bool.false_eq_true, if_false, List.isEmpty_nil, Bool.not_true] at h
            split at h
            · refine searchIn_base fs fl _ _ _ _ _ _ h ?_ (by simp)
              rintro x ⟨y, rfl⟩
              have e : joinPath (some ['/']) t = '/' :: t := rfl
              rw [e]
              simp only [joinPath]
              rcases h4 with rfl | ⟨s, rfl⟩
              · rw [if_neg hc.last]
                exact ⟨y, rfl⟩
              · split
                · exact ⟨s ++ y, by simp⟩
                · exact ⟨s ++ '/' :: y, by simp⟩
            · cases h; simp


/-! ### The lines -/

theorem flags_wanted {l : List (Attr × Bool)} (hg : GoodAttrs l) {t : List Char} (ht : AttrText t l) (f : FileStat) :
    checkFileAttributes (flagsOf l) f = decide (Wanted l f) := by
  rw [← makeFlags ht, Bool.eq_iff_iff, C34_filter_partial t l ht f hg.both hg.neg hg.hidden, decide_eq_true_iff]
  have e : ∀ a, fileHas f a = hasAttr f a := by intro a; cases a <;> rfl
  constructor
  · intro h x hx; rw [← e]; exact h x.1 x.2 hx
  · intro h a b hx; rw [e]; exact h (a, b) hx

theorem asked_text {as : List (List Char)} {is : List DirItem} (hw : DirWords as is) : ∃ t, AttrText t (askedAttr is) := by
  induction hw with
  | nil => exact ⟨[], .nil⟩
  | @cons a i as is ha _ ih =>
    cases ha with
    | bare _ => exact ih
    | deep _ => exact ih
    | name => exact ih
    | @attr b t l _ ht =>
      rw [askedAttr_cons]
      split
      · exact ih
      · exact ⟨t, ht⟩
    | @attrColon b t l _ ht =>
      rw [askedAttr_cons]
      split
      · exact ih
      · exact ⟨t, ht⟩

theorem dirSelect_none (info : List Char → Option DirInfo) (fs : List (List Char)) : dirSelect info 0#16 fs = .ok fs := by
  induction fs with
  | nil => rfl
  | cons f fs ih => simp [dirSelect, dirKeep, ih]

/-- The files selected, with what `stat` gives. -/
theorem dirSelect_wanted (info : List Char → Option DirInfo) (attr : BitVec 16) (p : FileStat → Bool)
    (hp : ∀ f, checkFileAttributes attr f = p f) (g : List Char → List Char) (es : List (List Char × DirInfo))
    (hi : attr ≠ 0#16 → ∀ e ∈ es, info (g e.1) = some e.2) :
    dirSelect info attr (es.map fun e => g e.1) = .ok ((es.filter fun e => p e.2.st).map fun e => g e.1) := by
  by_cases h0 : attr = 0#16
  · subst h0
    have : ∀ f, p f = true := fun f => by rw [← hp]; rfl
    rw [dirSelect_none, List.filter_eq_self.2 (fun e _ => this _)]
  · induction es with
    | nil => rfl
    | cons e es ih =>
      rw [List.map_cons, dirSelect, hi h0 e (by simp), dirKeep, if_neg h0]
      simp only [Res.ok_bind, hp, ih (fun h e he => hi h e (by simp [he]))]
      cases h : p e.2.st with
      | true => rw [List.filter_cons, h]; rfl
      | false => rw [List.filter_cons, h]; rfl

theorem dirLines_bare (w : DirSys) (v : DirVars) (hs : v.simple = true) (info : List Char → Option DirInfo) (g : List Char → List Char)
    (hg : ∀ s, dirShown v.size (g s) = .ok s) (ss : List (List Char)) :
    ∃ a b, dirLines w v info (ss.map g) = .ok (BareListing (if w.correct = true ∧ v.recursive = true then ss.map g else ss), a, b) := by
  induction ss with
  | nil => exact ⟨0, 0, by simp [dirLines, BareListing]⟩
  | cons s ss ih =>
    obtain ⟨a, b, ih⟩ := ih
    rw [List.map_cons, dirLines, ih]
    unfold dirLine
    rw [if_pos hs, hg]
    by_cases hc : w.correct = true ∧ v.recursive = true
    · refine ⟨if ((info (g s)).map (·.st.dir)).getD false then a else a + 1, if ((info (g s)).map (·.st.dir)).getD false then b + 1 else b, ?_⟩
      simp only [if_pos hc, hc.1, hc.2, Bool.and_self, if_true, Res.ok_bind]
      simp only [BareListing, List.flatMap_cons]
      rfl
    · have hc' : (w.correct && v.recursive) = false := by
        rw [Bool.eq_false_iff]
        simpa using hc
      refine ⟨if ((info (g s)).map (·.st.dir)).getD false then a else a + 1, if ((info (g s)).map (·.st.dir)).getD false then b + 1 else b, ?_⟩
      simp only [if_neg hc, hc', Bool.false_eq_true, if_false, Res.ok_bind, BareListing, List.flatMap_cons]

theorem dirColumns_row {i : DirInfo} (hi : i.st.dir = false → i.st.size < 2 ^ 32) (s : List Char) :
    LongRow i s (i.time ++ ' ' :: dirColumns i ++ '\t' :: s ++ ['\n']) := by
  unfold dirColumns
  cases h : i.st.dir with
  | true =>
    have := LongRow.dir (s := s) h
    simpa using this
  | false =>
    have hz := formatFileSize_spec (hi h)
    have := LongRow.file (s := s) h hz
    rw [if_neg (by simp), Nat.mod_eq_of_lt (hi h)]
    simpa using this

theorem dirLines_long (w : DirSys) (v : DirVars) (hs : v.simple = false) (info : List Char → Option DirInfo) (g : List Char → List Char)
    (hg : ∀ s, dirShown v.size (g s) = .ok s) (es : List (List Char × DirInfo)) (hi : ∀ e ∈ es, info (g e.1) = some e.2)
    (hz : ∀ e ∈ es, e.2.st.dir = false → e.2.st.size < 2 ^ 32) :
    ∃ x, LongRows es x ∧ dirLines w v info (es.map fun e => g e.1) =
      .ok (x, (es.filter fun e => !e.2.st.dir).length, (es.filter fun e => e.2.st.dir).length) := by
  induction es with
  | nil => exact ⟨[], .nil, rfl⟩
  | cons e es ih =>
    obtain ⟨x, h1, h2⟩ := ih (fun e he => hi e (by simp [he])) (fun e he => hz e (by simp [he]))
    rw [List.map_cons, dirLines, h2, hi e (by simp)]
    unfold dirLine
    rw [if_neg (by simp [hs]), hg]
    simp only [Res.ok_bind]
    refine ⟨_, .cons (dirColumns_row (hz e (by simp)) e.1) h1, ?_⟩
    cases hd : e.2.st.dir <;> simp [hd]

end PBat
