import Verif.Lemmas.Dir
import Verif.Lemmas.Args
import Verif.Lemmas.If
/-
Helper lemmas for `CD`.
-/
namespace PBat
open Spec

theorem parts_join (a b : List Char) : parts (a ++ '/' :: b) = parts a ++ parts b := by
  induction a with
  | nil => simp [parts]
  | cons c a ih =>
    simp only [List.cons_append, parts]
    split
    · rw [ih]; rfl
    · rw [ih]
      cases h : parts a with
      | nil => exact absurd h (parts_ne a)
      | cons p ps => simp

theorem walk_append (st a b : List (List Char)) : walkDirs st (a ++ b) = walkDirs (walkDirs st a) b := by
  induction a generalizing st with
  | nil => rfl
  | cons c a ih =>
    simp only [List.cons_append, walkDirs]
    split
    · exact ih st
    · split
      · exact ih _
      · exact ih _

theorem climbs_append (st a b : List (List Char)) : Climbs st (a ++ b) ↔ Climbs st a ∨ Climbs (walkDirs st a) b := by
  induction a generalizing st with
  | nil => simp [Climbs, walkDirs]
  | cons c a ih =>
    simp only [List.cons_append, walkDirs, Climbs]
    split
    · exact ih st
    · split
      · rw [ih, or_assoc]
      · exact ih _

/-- Appending a path to a canonical directory walks on from there. -/
theorem canonicalize_from {names : List (List Char)} (hn : ∀ c ∈ names, Name c) {cur : List Char}
    (hcur : cur = pathOf names ∨ (names = [] ∧ cur = ['/'])) (p : List Char) :
    canonicalize (cur ++ '/' :: p) = canonResult names.reverse p := by
  have key : ∀ r, (∃ z, parts r = z ++ parts p ∧ walkDirs [] z = names.reverse ∧ ¬ Climbs [] z) →
      canonResult [] r = canonResult names.reverse p := by
    rintro r ⟨z, h1, h2, h3⟩
    unfold canonResult
    rw [h1, walk_append, h2]
    have hc : Climbs [] (z ++ parts p) ↔ Climbs names.reverse (parts p) := by
      rw [climbs_append, h2]; simp [h3]
    simp only [hc]
    have hg : (z ++ parts p).getLast? = (parts p).getLast? := by
      rw [List.getLast?_append]
      cases hh : (parts p).getLast? with
      | none => exact absurd (List.getLast?_eq_none_iff.1 hh) (parts_ne p)
      | some x => rfl
    rw [hg]
  rcases hcur with rfl | ⟨rfl, rfl⟩
  · cases hnn : names with
    | nil =>
      simp only [pathOf, List.flatMap_nil, List.nil_append]
      rw [canonicalize_abs]
      rfl
    | cons c l =>
      obtain ⟨r, e, hw⟩ := walk_path names hn (by rw [hnn]; simp)
      rw [← hnn, e, List.cons_append, canonicalize_abs]
      apply key
      refine ⟨parts r, parts_join r p, ?_, (hw []).2⟩
      rw [(hw []).1]; simp
  · rw [List.cons_append, List.nil_append, canonicalize_abs]
    apply key
    refine ⟨[[]], by simp [parts], rfl, ?_⟩
    decide

theorem dropWhile_blanks {w s : List Char} (hw : ∀ c ∈ w, c = ' ' ∨ c = '\t') (hs : ∀ c, s.head? = some c → ¬ (c = ' ' ∨ c = '\t')) :
    (w ++ s).dropWhile (fun c => c == ' ' || c == '\t') = s := by
  induction w with
  | nil =>
    cases s with
    | nil => rfl
    | cons c s =>
      have := hs c rfl
      rw [List.nil_append, List.dropWhile_cons, if_neg]
      simpa using this
  | cons c w ih =>
    rw [List.cons_append, List.dropWhile_cons, if_pos]
    · exact ih fun x hx => hw x (by simp [hx])
    · simpa using hw c (by simp)

theorem cdCut_eq {q : Bool} {p w : List Char} (hp : p ≠ [])
    (hl : ∀ c, p.getLast? = some c → c ≠ ' ' ∧ c ≠ '\t' ∧ (q = true → c ≠ '"'))
    (hw : ∀ c ∈ w, c = ' ' ∨ c = '\t' ∨ (q = true ∧ c = '"')) : cdCut q (p ++ w) = p := by
  obtain ⟨u, x, rfl⟩ : ∃ u x, p = u ++ [x] := ⟨p.dropLast, p.getLast hp, (List.dropLast_concat_getLast hp).symm⟩
  obtain ⟨h1, h2, h3⟩ := hl x (by simp)
  have hx : (x == ' ' || x == '\t' || (q && x == '"')) = false := by
    cases q with
    | false => simp [h1, h2]
    | true => simp [h1, h2, h3 rfl]
  unfold cdCut
  simp only
  rw [if_neg]
  · have hrev : (u ++ [x] ++ w).reverse = w.reverse ++ x :: u.reverse := by simp
    rw [hrev]
    have hw' : ∀ c ∈ w.reverse, (c == ' ' || c == '\t' || (q && c == '"')) = true := by
      intro c hc
      rcases hw c (List.mem_reverse.1 hc) with rfl | rfl | ⟨rfl, rfl⟩ <;> simp
    generalize w.reverse = v at hw'
    have : (v ++ x :: u.reverse).dropWhile (fun c => c == ' ' || c == '\t' || (q && c == '"')) = x :: u.reverse := by
      induction v with
      | nil => rw [List.nil_append, List.dropWhile_cons, hx]; simp
      | cons c v ih =>
        rw [List.cons_append, List.dropWhile_cons, if_pos (hw' c (by simp))]
        exact ih fun y hy => hw' y (by simp [hy])
    rw [this]; simp
  · intro hall
    rw [List.all_eq_true] at hall
    have := hall x (by simp)
    rw [hx] at this
    exact absurd this (by simp)

end PBat
