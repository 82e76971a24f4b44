import Verif.Lemmas.Estr
/-
C01 — growable strings never overflow and always hold the text they were given.
-/
namespace PBat
open Spec

/-- After every history of copies and appends (each needing at most 2^30 bytes, allocations failing or
not), the object has the recorded capacity, the terminator is inside it, and it holds the described text. -/
theorem C01_history_holds_partial {e : Estr} {t : List Char} (h : Reach e t) : Holds e t := Reach_holds h

/-- Reading the string back gives exactly that text. -/
theorem C01_read_back_partial {e : Estr} {t : List Char} (h : Reach e t) : cstr e.str = some t :=
  (Reach_holds h).cstr

/-- After every history, no further call writes or reads outside the object (`none` is undefined
behaviour), it succeeds whenever memory is available, and otherwise changes nothing. -/
theorem C01_no_overflow_partial {e : Estr} {t : List Char} (h : Reach e t) (op : EsOp) (hl : Legal op)
    (hn : ∀ n, Needs t op n → n ≤ 2 ^ 30) (al : Nat → Bool) (g : Nat → Char) :
    ∃ rc e', esStep al g e op = some (rc, e') ∧ ((∀ n, al n = true) → rc = 0) ∧
      (rc = 0 ∨ (rc = -1 ∧ e' = e)) := by
  rcases esStep_spec (Reach_holds h) op hl hn al g with ⟨hx, ha⟩ | ⟨e2, t2, hx, hA, hH⟩
  · exact ⟨-1, e, hx, fun h => absurd h ha, Or.inr ⟨rfl, rfl⟩⟩
  · exact ⟨0, e2, hx, fun _ => rfl, Or.inl rfl⟩

/-- The history reaches what it describes: a successful call extends the reachable histories with the
described text. -/
theorem C01_step_text_partial {e : Estr} {t : List Char} (h : Reach e t) (op : EsOp) (hl : Legal op)
    (hn : ∀ n, Needs t op n → n ≤ 2 ^ 30) (g : Nat → Char) :
    ∃ e' t', esStep (fun _ => true) g e op = some (0, e') ∧ After t op t' ∧ Reach e' t' ∧ cstr e'.str = some t' := by
  rcases esStep_spec (Reach_holds h) op hl hn (fun _ => true) g with ⟨-, ha⟩ | ⟨e2, t2, hx, hA, hH⟩
  · exact absurd (fun _ => rfl) ha
  · exact ⟨e2, t2, hx, hA, Reach.step h hl hn hx (fun _ => hA) (fun h => absurd rfl h), hH.cstr⟩

theorem exists_text (n : Nat) : ∃ s : List Char, NUL ∉ s ∧ s.length = n := by
  refine ⟨List.replicate n 'a', ?_, List.length_replicate⟩
  intro h
  have := List.eq_of_mem_replicate h
  exact absurd this (by decide)

/-- Beyond 2^30 bytes the claim is false: the capacity is computed in an `int`, becomes negative, and the
append writes past the object although memory is available. -/
theorem C01_append_overflow : ∃ (s : List Char), NUL ∉ s ∧ s.length = 2 ^ 30 ∧
    ∀ g, esStep (fun _ => true) g (esInit g) (.cat s) = none := by
  obtain ⟨s, h1, hl⟩ := exists_text (2 ^ 30)
  refine ⟨s, h1, hl, ?_⟩
  · intro g
    have h0 := (Holds_init g).cstrlen
    have hsz : sizeLoop 256 (2 ^ 30 + 1) = 2 ^ 31 := by simp [sizeLoop]
    have : estrSize (([] : List Char).length + s.length + 1) = -(2 ^ 31) := by
      rw [hl]
      simp only [List.length_nil, Nat.zero_add, estrSize, hsz]
      decide
    have hg : growInt (fun _ => true) g (esInit g) (-(2 ^ 31)) = some (esInit g) := by
      simp [growInt, esInit]
    have hw : wr (esInit g).str 0 (s ++ [NUL]) = none := by
      unfold wr
      rw [if_neg]
      simp only [List.length_append, hl, esInit, List.length_cons, List.length_map, List.length_range,
        List.length_nil]
      omega
    simp only [esStep, esCat, h0]
    simp only [Option.bind_eq_bind, Option.bind_some]
    rw [this, hg]
    simp only [h0, Option.bind_some, List.length_nil, hw, Option.bind_none]

/-- A concrete history: copy `ab`, append the first two characters of `cde`. -/
example (g : Nat → Char) : ∃ e, Reach e ['a', 'b', 'c', 'd'] := by
  obtain ⟨e1, t1, -, h1, r1, -⟩ := C01_step_text_partial (Reach.init g) (.cpy ['a', 'b']) (by simp only [Legal]; decide)
    (by rintro n rfl; simp) g
  have h1 : t1 = ['a', 'b'] := h1
  subst h1
  obtain ⟨e2, t2, -, h2, r2, -⟩ := C01_step_text_partial r1 (.catN ['c', 'd', 'e'] 2) (by simp only [Legal]; decide)
    (by rintro n rfl; simp) g
  have h2 : t2 = ['a', 'b', 'c', 'd'] := h2
  subst h2
  exact ⟨e2, r2⟩

end PBat
