import Verif.Lemmas.Replace
namespace PBat
open Spec

theorem prefixI_iff (p s : List Char) : prefixI p s = true ↔ p.map Char.toLower <+: s.map Char.toLower := by
  induction p generalizing s with
  | nil => simp [prefixI]
  | cons c cs ih =>
    cases s with
    | nil => simp [prefixI]
    | cons d ds => simp [prefixI, ih, List.cons_prefix_cons]

theorem occursI_cons_succ (pat : List Char) (c : Char) (cs : List Char) (i : Nat) :
    OccursAtI pat (c :: cs) (i + 1) ↔ OccursAtI pat cs i := by
  simp [OccursAtI, OccursAt]

theorem occursI_zero (p : Char) (ps : List Char) (c : Char) (cs : List Char) :
    OccursAtI (p :: ps) (c :: cs) 0 ↔ p.toLower = c.toLower ∧ prefixI ps cs = true := by
  simp [OccursAtI, OccursAt, prefixI_iff, List.cons_prefix_cons]

theorem occursI_nil (p : Char) (ps : List Char) (i : Nat) : ¬ OccursAtI (p :: ps) [] i := by
  simp [OccursAtI, OccursAt]

/-- What the inner scan does. -/
theorem skipTo_spec (p : Char) (ps s : List Char) :
    let r := skipTo p.toLower s
    (r.1 = s.length ∧ r.2 = [] ∧ (∀ i, OccursAtI (p :: ps) s i → ps = [] ∧ i + 1 = s.length)) ∨
    (∃ d ds, r.2 = d :: ds ∧ 0 < r.1 ∧ s.drop r.1 = d :: ds ∧
      (∀ i, i + 1 < r.1 → ¬ OccursAtI (p :: ps) s i) ∧
      (OccursAtI (p :: ps) s (r.1 - 1) ↔ prefixI ps (d :: ds) = true)) := by
  induction s with
  | nil => left; exact ⟨rfl, rfl, fun i h => absurd h (occursI_nil p ps i)⟩
  | cons c cs ih =>
    simp only [skipTo]
    split
    · next h =>
      cases cs with
      | nil =>
        left
        refine ⟨rfl, rfl, ?_⟩
        intro i hi
        cases i with
        | succ i => rw [occursI_cons_succ] at hi; exact absurd hi (occursI_nil p ps i)
        | zero =>
          rw [occursI_zero] at hi
          cases ps with
          | nil => simp
          | cons => simp [prefixI] at hi
      | cons d ds =>
        right
        refine ⟨d, ds, rfl, by simp, by simp, by simp, ?_⟩
        simp only [Nat.sub_self]
        rw [occursI_zero]; simp [h]
    · next h =>
      have h0 : ¬ OccursAtI (p :: ps) (c :: cs) 0 := by rw [occursI_zero]; exact fun hh => h hh.1
      rcases ih with ⟨h1, h2, h3⟩ | ⟨d, ds, h1, h2, h3, h4, h5⟩
      · left
        refine ⟨by simp [h1], h2, ?_⟩
        intro i hi
        cases i with
        | zero => exact absurd hi h0
        | succ i =>
          rw [occursI_cons_succ] at hi
          have := h3 i hi
          exact ⟨this.1, by simp; omega⟩
      · right
        refine ⟨d, ds, h1, by simp, by simpa using h3, ?_, ?_⟩
        · intro i hi
          cases i with
          | zero => exact h0
          | succ i => rw [occursI_cons_succ]; exact h4 i (by simp only at hi; omega)
        · rw [← h5]
          simp only [Nat.add_sub_cancel]
          obtain ⟨m, hm⟩ : ∃ m, (skipTo p.toLower cs).1 = m + 1 := ⟨(skipTo p.toLower cs).1 - 1, by omega⟩
          rw [hm, occursI_cons_succ]; simp

/-- `stristr` returns one position after the first occurrence; it misses a one-character pattern
matching only the last character. -/
theorem stristrLoop_spec (p : Char) (ps s : List Char) (off : Nat) :
    match stristrLoop p.toLower ps s off with
    | none => ∀ i, OccursAtI (p :: ps) s i → ps = [] ∧ i + 1 = s.length
    | some k => ∃ i, k = off + i + 1 ∧ OccursAtI (p :: ps) s i ∧ i + 1 < s.length ∧ ∀ j, j < i → ¬ OccursAtI (p :: ps) s j := by
  fun_induction stristrLoop p.toLower ps s off with
  | case1 s off n heq =>
    have := skipTo_spec p ps s
    rw [heq] at this
    rcases this with ⟨-, -, h⟩ | ⟨d, ds, h, -⟩
    · exact h
    · simp at h
  | case2 s off n d ds heq hpre =>
    have hl := skipTo_length p.toLower s
    have := skipTo_spec p ps s
    rw [heq] at this hl
    rcases this with ⟨-, h, -⟩ | ⟨d', ds', h1, h2, h3, h4, h5⟩
    · simp at h
    · simp only [List.cons.injEq] at h1
      obtain ⟨rfl, rfl⟩ := h1
      simp only at h2 h3 h4 h5
      simp at hl
      refine ⟨n - 1, by omega, h5.2 hpre, by omega, fun j hj => h4 j (by omega)⟩
  | case3 s off d ds hpre heq =>
    have := skipTo_spec p ps s
    rw [heq] at this
    rcases this with ⟨-, h, -⟩ | ⟨d', ds', h1, h2, -⟩
    · simp at h
    · simp at h2
  | case4 s off n d ds heq hpre hn0 ih =>
    have hl := skipTo_length p.toLower s
    have := skipTo_spec p ps s
    rw [heq] at this hl
    rcases this with ⟨-, h, -⟩ | ⟨d', ds', h1, h2, h3, h4, h5⟩
    · simp at h
    · simp only [List.cons.injEq] at h1
      obtain ⟨rfl, rfl⟩ := h1
      simp only at h2 h3 h4 h5 hl
      have hsh : ∀ i, OccursAtI (p :: ps) s (n + i) ↔ OccursAtI (p :: ps) (d :: ds) i := by
        intro i
        simp only [OccursAtI, OccursAt]
        rw [← List.drop_drop, ← List.map_drop, h3]
      have hlow : ∀ i, i < n → ¬ OccursAtI (p :: ps) s i := by
        intro i hi
        by_cases h : i + 1 < n
        · exact h4 i h
        · have : i = n - 1 := by omega
          subst this
          rw [h5]; exact hpre
      split
      · next he =>
        rw [he] at ih
        intro i hi
        by_cases hin : i < n
        · exact absurd hi (hlow i hin)
        · obtain ⟨j, rfl⟩ : ∃ j, i = n + j := ⟨i - n, by omega⟩
          rw [hsh] at hi
          have := ih j hi
          exact ⟨this.1, by omega⟩
      · next k he =>
        rw [he] at ih
        obtain ⟨i, rfl, h6, h7, h8⟩ := ih
        refine ⟨n + i, by omega, (hsh i).2 h6, by omega, ?_⟩
        intro j hj
        by_cases hin : j < n
        · exact hlow j hin
        · obtain ⟨m, rfl⟩ : ∃ m, j = n + m := ⟨j - n, by omega⟩
          rw [hsh]; exact h8 m (by omega)

theorem replaceI_none (pat rep s : List Char) (hp : pat ≠ []) (h : ∀ i, ¬ OccursAtI pat s i) :
    replaceIPieces pat rep s = .ok [s] := by
  obtain ⟨p, ps, rfl⟩ : ∃ p ps, pat = p :: ps := by
    cases pat with
    | nil => exact absurd rfl hp
    | cons p ps => exact ⟨p, ps, rfl⟩
  have := stristrLoop_spec p ps s 0
  rw [replaceIPieces]
  simp only [hp, dite_false, stristr]
  cases hr : stristrLoop p.toLower ps s 0 with
  | none => rfl
  | some k =>
    rw [hr] at this
    obtain ⟨i, -, hi, -⟩ := this
    exact absurd hi (h i)

/-- The result in terms of the first occurrence, when it is seen. -/
theorem replaceI_found (pat rep s : List Char) (i : Nat) (h1 : OccursAtI pat s i) (hp : 2 ≤ pat.length)
    (h2 : ∀ j, j < i → ¬ OccursAtI pat s j) :
    replaceIPieces pat rep s = if s.length < i + 1 + pat.length then .ub else
      replaceIPieces pat rep (s.drop (i + 1 + pat.length)) >>= fun r =>
        pure (s.take (i + 1) :: rep :: r) := by
  obtain ⟨p, ps, rfl⟩ : ∃ p ps, pat = p :: ps := by
    cases pat with
    | nil => simp at hp
    | cons p ps => exact ⟨p, ps, rfl⟩
  have hps : ps ≠ [] := by rintro rfl; simp at hp
  have := stristrLoop_spec p ps s 0
  have hne : p :: ps ≠ [] := by simp
  rw [replaceIPieces]
  simp only [hne, dite_false, stristr]
  cases hr : stristrLoop p.toLower ps s 0 with
  | none =>
    rw [hr] at this
    exact absurd (this i h1).1 hps
  | some k =>
    rw [hr] at this
    obtain ⟨i', rfl, h3, -, h5⟩ := this
    have : i' = i := by
      rcases Nat.lt_trichotomy i' i with h | h | h
      · exact absurd h3 (h2 _ h)
      · exact h
      · exact absurd h1 (h5 _ h)
    subst this
    simp only [Nat.zero_add]
    split
    · next h => simp [h]
    · next h => simp [h]

end PBat
