import Verif.Lemmas.For
/-
C48: FOR /F visits the lines of its input.
-/
namespace PBat
open Spec

variable {σ : Type}

/-- The text given to FOR /F is read line by line. -/
theorem C48_lines (t : List Char) (ls : List (List Char)) : stringLines t = ls ↔ TextLines t ls := by
  have hmp : ∀ t, TextLines t (stringLines t) := by
    intro t
    induction hn : t.length using Nat.strongRecOn generalizing t with
    | _ n ih =>
      cases t with
      | nil => rw [stringLines]; exact .nil
      | cons c r =>
        rw [stringLines]
        have hsplit := (List.takeWhile_append_dropWhile (p := (· != '\n')) (l := c :: r))
        have hnl : '\n' ∉ (c :: r).takeWhile (· != '\n') := by
          intro h
          have h2 := List.all_takeWhile (p := (· != '\n')) (l := c :: r)
          have := List.all_eq_true.1 h2 _ h
          simp at this
        cases hd : (c :: r).dropWhile (· != '\n') with
        | nil =>
          rw [hd, List.append_nil] at hsplit
          rw [List.tail_nil, stringLines, hsplit]
          rw [hsplit] at hnl
          exact .last (by simp) hnl
        | cons x rest =>
          have hx : x = '\n' := by
            have := List.head_dropWhile_not (· != '\n') (l := c :: r) (by rw [hd]; simp)
            simp only [hd, List.head_cons] at this
            simpa using this
          subst hx
          have hl : rest.length < n := by
            have := congrArg List.length hsplit
            rw [hd] at this
            simp only [List.length_append, List.length_cons] at this hn
            omega
          have := TextLines.cons hnl (ih _ hl rest rfl)
          rw [← hd, hsplit] at this
          exact this
  have huniq : ∀ {t ls}, TextLines t ls → ∀ ls', TextLines t ls' → ls = ls' := by
    intro t ls h
    induction h with
    | nil =>
      intro ls' h'
      generalize ht : ([] : List Char) = t at h'
      cases h' with
      | nil => rfl
      | last h _ => exact absurd ht.symm h
      | cons => simp at ht
    | @last l hl hn =>
      intro ls' h'
      cases h' with
      | nil => exact absurd rfl hl
      | last => rfl
      | cons _ _ => simp at hn
    | @cons l t ls hn _ ih =>
      intro ls' h'
      generalize ht : l ++ '\n' :: t = u at h'
      cases h' with
      | nil => simp at ht
      | last _ hn' => exact absurd (by rw [← ht]; simp) hn'
      | @cons l' t' ls' hn' h2 =>
        have : l = l' ∧ t = t' := by
          rcases List.append_eq_append_iff.1 ht with ⟨x, h1, h2⟩ | ⟨x, h1, h2⟩
          · cases x with
            | nil => simp at h1 h2; exact ⟨h1.symm, h2⟩
            | cons y x =>
              simp at h2
              exact absurd (by rw [h1, ← h2.1]; simp) hn'
          · cases x with
            | nil => simp at h1 h2; exact ⟨h1, h2.symm⟩
            | cons y x =>
              simp at h2
              exact absurd (by rw [h1, ← h2.1]; simp) hn
        obtain ⟨rfl, rfl⟩ := this
        rw [ih _ h2]
  constructor
  · rintro rfl; exact hmp t
  · intro h; exact (huniq h _ (hmp t)).symm

theorem forFLoop_visit (info : ForInfo) (he : info.eol ≠ []) (body : LocalBlock × σ → Res ((LocalBlock × σ) × Bool)) :
    ∀ (ls : List (List Char)) (skip : Int) (st : LocalBlock × σ), forFLoop info body skip ls st =
      forValues (fun l st => body (forSplitTokens info.delims l info.tokens info.var st.1, st.2)) (visited skip.toNat info.eol ls) st := by
  intro ls
  induction ls with
  | nil => intro skip st; rw [forFLoop]; simp [visited, forValues]
  | cons l ls ih =>
    intro skip st
    rw [forFLoop]
    split
    · next h =>
      rw [ih]
      have : skip.toNat = (skip - 1).toNat + 1 := by omega
      rw [this]
      rfl
    · next h =>
      have hs : skip.toNat = 0 := by omega
      split
      · next h2 =>
        rw [ih, hs]
        unfold visited
        rw [List.drop_zero, List.drop_zero, List.filter_cons_of_neg]
        unfold eolLine at h2
        cases l with
        | nil => simp
        | cons c r => simpa [he] using h2
      · next h2 =>
        have hk : visited skip.toNat info.eol (l :: ls) = l :: visited skip.toNat info.eol ls := by
          rw [hs]
          unfold visited
          rw [List.drop_zero, List.drop_zero, List.filter_cons_of_pos]
          unfold eolLine at h2
          cases l with
          | nil => simp [he] at h2
          | cons c r => simpa [he] using h2
        rw [hk, forValues]
        cases hr : body (forSplitTokens info.delims l info.tokens info.var st.1, st.2) with
        | ub => rfl
        | hang => rfl
        | ok r =>
          obtain ⟨st', ab⟩ := r
          simp only [Res.ok_bind]
          cases ab with
          | true => rfl
          | false => simp only [Bool.false_eq_true, if_false]; exact ih _ _

/-- FOR /F runs its body once, in order, for every line of the text which is not empty, not among the first `skip` and does not
begin with an end-of-line character, until the body leaves the loop.  (There must be an end-of-line character.) -/
theorem C48_visited_partial (info : ForInfo) (he : info.eol ≠ []) (body : LocalBlock × σ → Res ((LocalBlock × σ) × Bool))
    (t : List Char) (ls : List (List Char)) (ht : TextLines t ls) (st : LocalBlock × σ) :
    forFLoop info body info.skip (stringLines t) st =
      forValues (fun l st => body (forSplitTokens info.delims l info.tokens info.var st.1, st.2))
        (visited info.skip.toNat info.eol ls) st := by
  rw [(C48_lines t ls).2 ht, forFLoop_visit info he]

/-- The claim fails without end-of-line characters (as with `delims=;`): then the body is run for empty lines too. -/
theorem C48_empty_lines : forFLoop (σ := Nat) ⟨";".toList, [], 0, 'a', [65537]⟩ (fun st => .ok ((st.1, st.2 + 1), false)) 0
    (stringLines "a\n\nb".toList) (fun _ => none, 0) >>= (fun st => .ok st.2) = .ok 3 := by decide +kernel

/-- Five lines, one skipped, one empty, one beginning with `;`. -/
example : visited 1 ";".toList ["head".toList, "a".toList, [], "; no".toList, "b".toList] = ["a".toList, "b".toList] ∧
    TextLines "head\na\n\n; no\nb".toList ["head".toList, "a".toList, [], "; no".toList, "b".toList] := by
  refine ⟨by decide +kernel, ?_⟩
  rw [← C48_lines]
  decide +kernel

end PBat
