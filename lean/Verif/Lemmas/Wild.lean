import Verif.Model.Wild
import Verif.Spec.Wild
import Verif.Lemmas.Locals
import Verif.Lemmas.Setlocal
namespace PBat
open Spec

theorem toUpper_toNat (c : Char) :
    c.toUpper.toNat = if 97 ≤ c.toNat ∧ c.toNat ≤ 122 then c.toNat - 32 else c.toNat := by
  split
  · rename_i h
    have key : ∀ n, n < 123 → 97 ≤ n → (Char.ofNat n).toUpper.toNat = n - 32 := by decide
    have := key c.toNat (by omega) (by omega)
    rwa [Char.ofNat_toNat] at this
  · rename_i h
    have : c.toUpper = c := by
      unfold Char.toUpper
      split
      · rename_i hh
        exact absurd ⟨hh.1, hh.2⟩ h
      · rfl
    rw [this]

theorem upper_lower (c d : Char) : c.toUpper = d.toUpper ↔ c.toLower = d.toLower := by
  have hc := toUpper_toNat c
  have hd := toUpper_toNat d
  have lc := toLower_toNat c
  have ld := toLower_toNat d
  constructor
  · intro h
    rw [h] at hc
    apply toNat_inj
    rw [lc, ld]
    have : (if 97 ≤ c.toNat ∧ c.toNat ≤ 122 then c.toNat - 32 else c.toNat) = if 97 ≤ d.toNat ∧ d.toNat ≤ 122 then d.toNat - 32 else d.toNat := by
      rw [← hc, hd]
    split at this <;> split at this <;> split <;> split <;> omega
  · intro h
    rw [h] at lc
    apply toNat_inj
    rw [hc, hd]
    have : (if 65 ≤ c.toNat ∧ c.toNat ≤ 90 then c.toNat + 32 else c.toNat) = if 65 ≤ d.toNat ∧ d.toNat ≤ 90 then d.toNat + 32 else d.toNat := by
      rw [← lc, ld]
    split at this <;> split at this <;> split <;> split <;> omega

theorem sameChar_iff (ci : Bool) (c d : Char) : sameChar ci c d = true ↔ SameLetter ci c d := by
  unfold sameChar SameLetter
  cases ci with
  | false => simp
  | true =>
    simp only [if_true, beq_iff_eq, true_and, upper_lower]
    constructor
    · exact .inr
    · rintro (rfl | h)
      · rfl
      · exact h

theorem sameLetter_symm {ci : Bool} {c d : Char} (h : SameLetter ci c d) : SameLetter ci d c := by
  rcases h with h | ⟨h1, h2⟩
  · exact .inl h.symm
  · exact .inr ⟨h1, h2.symm⟩

theorem sameLetter_ascii {ci : Bool} {c d : Char} (h : SameLetter ci c d) (hc : c.toNat < 0x80) : d.toNat < 0x80 := by
  rcases h with rfl | ⟨-, h⟩
  · exact hc
  · have lc := toLower_toNat c
    have ld := toLower_toNat d
    rw [h] at lc
    rw [lc] at ld
    split at ld <;> split at ld <;> omega

/-- The texts of lists of characters. -/
def Glyphs (s : List (List Char)) : Prop := ∀ g ∈ s, Glyph g

theorem glyph_head {g : List Char} (h : Glyph g) : ∃ c l, g = c :: l ∧ followingByte c = false ∧ (∀ d ∈ l, followingByte d = true) ∧
    (c.toNat < 0x80 → l = []) := by
  rcases h with ⟨c, rfl, hc⟩ | ⟨c, l, rfl, hc, hl⟩
  · exact ⟨c, [], rfl, by simp [followingByte]; omega, by simp, fun _ => rfl⟩
  · refine ⟨c, l, rfl, by simp [followingByte]; omega, ?_, by omega⟩
    intro d hd
    have := hl d hd
    simp [followingByte, this]

theorem glyphs_head {s : List (List Char)} (h : Glyphs s) : ∀ c, s.flatten.head? = some c → followingByte c = false := by
  cases s with
  | nil => simp
  | cons g s =>
    obtain ⟨c, l, rfl, hc, -, -⟩ := glyph_head (h g (by simp))
    intro d hd
    simp at hd
    rw [← hd]; exact hc

theorem dropWhile_glyph {p : Char → Bool} {l r : List Char} (hl : ∀ d ∈ l, p d = true) (hr : ∀ c, r.head? = some c → p c = false) :
    (l ++ r).dropWhile p = r := by
  induction l with
  | nil =>
    cases r with
    | nil => rfl
    | cons c r => simp [List.dropWhile_cons, hr c rfl]
  | cons d l ih =>
    simp only [List.cons_append, List.dropWhile_cons, hl d (by simp), if_true]
    exact ih (fun x hx => hl x (by simp [hx]))

theorem nextChar_glyph {g : List Char} {s : List (List Char)} (hg : Glyph g) (hs : Glyphs s) : nextChar true (g ++ s.flatten) = s.flatten := by
  obtain ⟨c, l, rfl, hc, hl, ha⟩ := glyph_head hg
  show (if (true && decide (0x80 ≤ c.toNat)) = true then (l ++ s.flatten).dropWhile followingByte else l ++ s.flatten) = _
  by_cases h : 0x80 ≤ c.toNat
  · rw [if_pos (by simpa using h), dropWhile_glyph hl (glyphs_head hs)]
  · rw [if_neg (by simpa using h), ha (by omega), List.nil_append]

/-- A literal text at the beginning of a list of characters. -/
inductive LitAt (ci : Bool) : List Char → List (List Char) → List (List Char) → Prop
  | nil {s} : LitAt ci [] s s
  | cons {c d p s r} : SameLetter ci c d → LitAt ci p s r → LitAt ci (c :: p) ([d] :: s) r

theorem LitAt.glyphs {ci : Bool} {p : List Char} {s r : List (List Char)} (h : LitAt ci p s r) (hs : Glyphs s) : Glyphs r := by
  induction h with
  | nil => exact hs
  | cons _ _ ih => exact ih (fun g hg => hs g (by simp [hg]))

theorem LitAt.unique {ci : Bool} {p : List Char} {s r r' : List (List Char)} (h : LitAt ci p s r) (h' : LitAt ci p s r') : r = r' := by
  induction h with
  | nil => cases h'; rfl
  | cons _ _ ih => cases h' with | cons _ h' => exact ih h'

theorem LitAt.drop {ci : Bool} {p : List Char} {s r : List (List Char)} (h : LitAt ci p s r) : s.flatten.drop p.length = r.flatten := by
  induction h with
  | nil => rfl
  | cons _ _ ih => simpa using ih

theorem LitAt.suffix {ci : Bool} {p : List Char} {s r : List (List Char)} (h : LitAt ci p s r) : r <:+ s := by
  induction h with
  | nil => exact List.suffix_refl _
  | cons _ _ ih => exact List.IsSuffix.trans ih (List.suffix_cons _ _)

theorem LitAt.length {ci : Bool} {p : List Char} {s r : List (List Char)} (h : LitAt ci p s r) : s.length = p.length + r.length := by
  induction h with
  | nil => simp
  | cons _ _ ih => simp only [List.length_cons, ih]; omega

theorem hasPrefix_glyphs {ci : Bool} {p : List Char} (hp : ∀ c ∈ p, c.toNat < 0x80) {s : List (List Char)} (hs : Glyphs s) :
    hasPrefix ci p s.flatten = true ↔ ∃ r, LitAt ci p s r := by
  induction p generalizing s with
  | nil => exact ⟨fun _ => ⟨s, .nil⟩, fun _ => by cases s.flatten <;> rfl⟩
  | cons c p ih =>
    cases s with
    | nil =>
      constructor
      · intro h; simp [hasPrefix] at h
      · rintro ⟨r, h⟩; cases h
    | cons g s =>
      obtain ⟨d, l, rfl, -, -, ha⟩ := glyph_head (hs g (by simp))
      have hs' : Glyphs s := fun g hg => hs g (by simp [hg])
      show (sameChar ci d c && hasPrefix ci p (l ++ s.flatten)) = true ↔ _
      rw [Bool.and_eq_true, sameChar_iff]
      constructor
      · rintro ⟨h1, h2⟩
        rw [ha (sameLetter_ascii (sameLetter_symm h1) (hp c (by simp)))] at h2 ⊢
        obtain ⟨r, hr⟩ := (ih (fun x hx => hp x (by simp [hx])) hs').1 h2
        exact ⟨r, .cons (sameLetter_symm h1) hr⟩
      · rintro ⟨r, h⟩
        cases h with
        | cons h1 h2 => exact ⟨sameLetter_symm h1, (ih (fun x hx => hp x (by simp [hx])) hs').2 ⟨r, h2⟩⟩

theorem hasPrefix_inside {ci : Bool} {c : Char} {p : List Char} (hc : c.toNat < 0x80) {d : Char} {m : List Char} (hd : followingByte d = true) :
    hasPrefix ci (c :: p) (d :: m) = false := by
  rw [← Bool.not_eq_true]
  intro h
  simp only [hasPrefix, Bool.and_eq_true, sameChar_iff] at h
  have := sameLetter_ascii (sameLetter_symm h.1) hc
  simp [followingByte] at hd
  omega

theorem seek_inside {ci : Bool} {c : Char} {p : List Char} (hc : c.toNat < 0x80) {l m : List Char} (hl : ∀ d ∈ l, followingByte d = true) :
    seekPattern ci (c :: p) (l ++ m) = seekPattern ci (c :: p) m := by
  induction l with
  | nil => rfl
  | cons d l ih =>
    simp only [List.cons_append, seekPattern]
    rw [if_neg (by rw [hasPrefix_inside hc (hl d (by simp))]; simp), ih (fun x hx => hl x (by simp [hx]))]

/-- The first place where a literal text occurs. -/
theorem seek_glyphs {ci : Bool} {p : List Char} (hne : p ≠ []) (hp : ∀ c ∈ p, c.toNat < 0x80) {s : List (List Char)} (hs : Glyphs s) :
    (seekPattern ci p s.flatten = none ∧ ∀ a b r, s = a ++ b → ¬ LitAt ci p b r) ∨
    ∃ a b r, s = a ++ b ∧ LitAt ci p b r ∧ seekPattern ci p s.flatten = some b.flatten ∧
      ∀ a' b' r', s = a' ++ b' → LitAt ci p b' r' → ∃ x, r = x ++ r' := by
  cases p with
  | nil => exact absurd rfl hne
  | cons c p =>
  induction s with
  | nil =>
    refine .inl ⟨rfl, ?_⟩
    intro a b r h hl
    have : b = [] := by simpa using (List.nil_eq_append_iff.1 h).2
    subst this
    cases hl
  | cons g s ih =>
    have hs' : Glyphs s := fun g hg => hs g (by simp [hg])
    have hpre := hasPrefix_glyphs (ci := ci) hp hs
    obtain ⟨d, l, hg, hfd, hfl, ha⟩ := glyph_head (hs g (by simp))
    have hstep : seekPattern ci (c :: p) (g :: s).flatten =
        if hasPrefix ci (c :: p) (g :: s).flatten then some (g :: s).flatten else seekPattern ci (c :: p) s.flatten := by
      subst hg
      simp only [List.flatten_cons, List.cons_append, seekPattern]
      rw [seek_inside (hp c (by simp)) hfl]
    by_cases h : hasPrefix ci (c :: p) (g :: s).flatten = true
    · obtain ⟨r, hr⟩ := hpre.1 h
      refine .inr ⟨[], g :: s, r, rfl, hr, by rw [hstep, if_pos h], ?_⟩
      intro a' b' r' he hl'
      cases a' with
      | nil =>
        simp only [List.nil_append] at he
        subst he
        exact ⟨[], by rw [hr.unique hl']; rfl⟩
      | cons g' a' =>
        simp only [List.cons_append, List.cons.injEq] at he
        have h1 := hr.length
        have h2 := hl'.length
        obtain ⟨_, he⟩ := he
        have hsuf1 : r <:+ g :: s := hr.suffix
        have hsuf2 : r' <:+ b' := hl'.suffix
        have hsuf3 : b' <:+ g :: s := ⟨g :: a', by rw [he]; rfl⟩
        have : r' <:+ r := List.suffix_of_suffix_length_le (hsuf2.trans hsuf3) hsuf1 (by
          have := hsuf3.length_le
          omega)
        obtain ⟨x, hx⟩ := this
        exact ⟨x, hx.symm⟩
    · rw [hstep, if_neg h]
      have hno : ∀ r, ¬ LitAt ci (c :: p) (g :: s) r := fun r hr => h (hpre.2 ⟨r, hr⟩)
      rcases ih hs' with ⟨h1, h2⟩ | ⟨a, b, r, h1, h2, h3, h4⟩
      · refine .inl ⟨h1, ?_⟩
        intro a b r he hl
        cases a with
        | nil => simp only [List.nil_append] at he; exact hno r (he ▸ hl)
        | cons g' a => simp only [List.cons_append, List.cons.injEq] at he; exact h2 a b r he.2 hl
      · refine .inr ⟨g :: a, b, r, by rw [h1]; rfl, h2, h3, ?_⟩
        intro a' b' r' he hl
        cases a' with
        | nil => simp only [List.nil_append] at he; exact absurd (he ▸ hl) (hno r')
        | cons g' a' => simp only [List.cons_append, List.cons.injEq] at he; exact h4 a' b' r' he.2 hl

theorem wild_star {ci : Bool} {p : List Char} {s : List (List Char)} : Wild ci ('*' :: p) s ↔ ∃ a b, s = a ++ b ∧ Wild ci p b := by
  constructor
  · intro h
    generalize hq : '*' :: p = q at h
    induction h with
    | nil => cases hq
    | @empty p' s h _ => cases hq; exact ⟨[], s, rfl, h⟩
    | @more p' g s h ih =>
      obtain ⟨a, b, rfl, hb⟩ := ih hq
      exact ⟨g :: a, b, rfl, hb⟩
    | one => cases hq
    | char h => cases hq; exact absurd rfl h
  · rintro ⟨a, b, rfl, hb⟩
    induction a with
    | nil => exact .empty hb
    | cons g a ih => exact .more ih

theorem wild_lit {ci : Bool} {l p : List Char} (hl : ∀ c ∈ l, c ≠ '*' ∧ c ≠ '?') {s : List (List Char)} :
    Wild ci (l ++ p) s ↔ ∃ r, LitAt ci l s r ∧ Wild ci p r := by
  induction l generalizing s with
  | nil => exact ⟨fun h => ⟨s, .nil, h⟩, fun ⟨r, h1, h2⟩ => by cases h1; exact h2⟩
  | cons c l ih =>
    have ih := fun {s} => ih (s := s) (fun x hx => hl x (by simp [hx]))
    constructor
    · intro h
      rw [List.cons_append] at h
      cases h with
      | empty => exact absurd rfl (hl '*' (by simp)).1
      | more => exact absurd rfl (hl '*' (by simp)).1
      | one => exact absurd rfl (hl '?' (by simp)).2
      | char _ _ h1 h2 =>
        obtain ⟨r, h3, h4⟩ := ih.1 h2
        exact ⟨r, .cons h1 h3, h4⟩
    · rintro ⟨r, h1, h2⟩
      cases h1 with
      | cons h3 h4 => exact .char (hl c (by simp)).1 (hl c (by simp)).2 h3 (ih.2 ⟨r, h4, h2⟩)

theorem wild_stars {ci : Bool} {st p : List Char} (hst : ∀ c ∈ st, c = '*') {s : List (List Char)} :
    Wild ci ('*' :: (st ++ p)) s ↔ Wild ci ('*' :: p) s := by
  induction st generalizing s with
  | nil => exact Iff.rfl
  | cons c st ih =>
    have hc : c = '*' := hst c (by simp)
    subst hc
    have ih := fun {s} => ih (s := s) (fun x hx => hst x (by simp [hx]))
    rw [wild_star]
    constructor
    · rintro ⟨a, b, rfl, hb⟩
      obtain ⟨a', b', rfl, hb'⟩ := wild_star.1 (ih.1 hb)
      exact wild_star.2 ⟨a ++ a', b', by simp, hb'⟩
    · intro h
      exact ⟨[], s, rfl, ih.2 h⟩

theorem wild_nil {ci : Bool} {p : List Char} (h : Wild ci p []) : ∀ c ∈ p, c = '*' := by
  generalize hs : ([] : List (List Char)) = s at h
  induction h with
  | nil => simp
  | empty _ ih => intro c hc; rcases List.mem_cons.1 hc with rfl | hc; rfl; exact ih hs c hc
  | more => cases hs
  | one => cases hs
  | char => cases hs

theorem hasPrefix_all {ci : Bool} {p m : List Char} : (hasPrefix ci p m = true ∧ m.length = p.length) ↔ if ci then fold m = fold p else m = p := by
  induction p generalizing m with
  | nil =>
    cases m with
    | nil => simp [hasPrefix, fold]
    | cons d m => simp [fold]
  | cons c p ih =>
    cases m with
    | nil => simp [hasPrefix, fold]
    | cons d m =>
      have ih := ih (m := m)
      simp only [hasPrefix, Bool.and_eq_true, List.length_cons, Nat.add_right_cancel_iff, and_assoc, ih, sameChar_iff]
      cases ci with
      | false => simp [SameLetter]
      | true =>
        simp only [if_true, fold, List.map_cons, List.cons.injEq, SameLetter, true_and]
        constructor
        · rintro ⟨h1, h2⟩
          refine ⟨?_, h2⟩
          rcases h1 with rfl | h1
          · rfl
          · exact h1
        · rintro ⟨h1, h2⟩; exact ⟨.inr h1, h2⟩

theorem endWith_prefix (ci : Bool) (m p : List Char) :
    endWith ci m p = true ↔ p.length ≤ m.length ∧ hasPrefix ci p (m.drop (m.length - p.length)) = true := by
  unfold endWith
  by_cases h : m.length < p.length
  · rw [if_pos h]; simp; omega
  · rw [if_neg h]
    have hl : (m.drop (m.length - p.length)).length = p.length := by simp; omega
    have key := hasPrefix_all (ci := ci) (p := p) (m := m.drop (m.length - p.length))
    cases ci with
    | false =>
      simp only [Bool.false_eq_true, if_false] at key ⊢
      rw [beq_iff_eq, strcmp_zero, ← key]
      exact ⟨fun h1 => ⟨by omega, h1.1⟩, fun h1 => ⟨h1.2, hl⟩⟩
    | true =>
      simp only [if_true] at key ⊢
      rw [beq_iff_eq, stricmp_zero, ← key]
      exact ⟨fun h1 => ⟨by omega, h1.1⟩, fun h1 => ⟨h1.2, hl⟩⟩

/-- The text ends with a literal text. -/
theorem endWith_glyphs {ci : Bool} {p : List Char} (hne : p ≠ []) (hp : ∀ c ∈ p, c.toNat < 0x80) {s : List (List Char)} (hs : Glyphs s) :
    endWith ci s.flatten p = true ↔ ∃ a b, s = a ++ b ∧ LitAt ci p b [] := by
  rw [endWith_prefix]
  cases p with
  | nil => exact absurd rfl hne
  | cons c p =>
  constructor
  · rintro ⟨h1, h2⟩
    induction s with
    | nil => simp at h1
    | cons g s ih =>
      have hs' : Glyphs s := fun g hg => hs g (by simp [hg])
      by_cases hlt : (c :: p).length ≤ s.flatten.length
      · have hd : (g :: s).flatten.drop ((g :: s).flatten.length - (c :: p).length) = s.flatten.drop (s.flatten.length - (c :: p).length) := by
          rw [List.flatten_cons, List.length_append, show g.length + s.flatten.length - (c :: p).length = g.length + (s.flatten.length - (c :: p).length) by omega,
            List.drop_append, List.drop_eq_nil_of_le (by omega), List.nil_append]
          congr 1
          omega
        rw [hd] at h2
        obtain ⟨a, b, rfl, hb⟩ := ih hs' hlt h2
        exact ⟨g :: a, b, rfl, hb⟩
      · obtain ⟨d, l, hg, hfd, hfl, ha⟩ := glyph_head (hs g (by simp))
        have hk : (g :: s).flatten.length - (c :: p).length < g.length := by
          rw [List.flatten_cons, List.length_append] at h1 ⊢
          omega
        generalize hkk : (g :: s).flatten.length - (c :: p).length = k at hk h2
        rw [List.flatten_cons, List.drop_append_of_le_length (by omega)] at h2
        cases k with
        | zero =>
          rw [List.drop_zero] at h2
          obtain ⟨r, hr⟩ := (hasPrefix_glyphs (s := g :: s) hp hs).1 h2
          have hlen := hr.drop
          have : (g :: s).flatten.length = (c :: p).length := by omega
          rw [List.drop_eq_nil_of_le (by omega)] at hlen
          have : r = [] := by
            cases r with
            | nil => rfl
            | cons g' r =>
              obtain ⟨_, _, rfl, _⟩ := glyph_head (hr.glyphs hs g' (by simp))
              simp at hlen
          subst this
          exact ⟨[], g :: s, rfl, hr⟩
        | succ k =>
          exfalso
          subst hg
          rw [List.drop_succ_cons] at h2
          have hlk : k < l.length := by simpa using hk
          rw [List.drop_eq_getElem_cons hlk, List.cons_append, hasPrefix_inside (hp c (by simp)) (hfl _ (List.getElem_mem hlk))] at h2
          cases h2
  · rintro ⟨a, b, rfl, hb⟩
    have hgb : Glyphs b := fun g hg => hs g (by simp [hg])
    have hlen : b.flatten.length = (c :: p).length := by
      have h1 : ∀ {p s r}, LitAt ci p s r → s.flatten.length = p.length + r.flatten.length := by
        intro p s r h
        induction h with
        | nil => simp
        | cons _ _ ih => simp only [List.flatten_cons, List.length_append, List.length_cons, List.length_nil, ih]; omega
      have := h1 hb
      simpa using this
    have hpre := (hasPrefix_glyphs (s := b) hp hgb).2 ⟨[], hb⟩
    rw [List.flatten_append, List.length_append]
    refine ⟨by omega, ?_⟩
    rw [show a.flatten.length + b.flatten.length - (c :: p).length = a.flatten.length by omega, List.drop_left]
    exact hpre

end PBat
