import Verif.Lemmas.ReplaceI
/-
C03 — case-insensitive replacement.  The claim is false of the code (see the two refutations); what holds
is stated by the partial theorem and by the exact description of the first replacement.
-/
namespace PBat
open Spec

/-- A text without case-insensitive occurrence is left unchanged.
Missing from the full claim: texts with an occurrence, which are damaged. -/
theorem C03_no_occurrence_partial (g : Nat → Char) (e : Estr) (s pat rep : List Char) (h : Holds e s)
    (hp : pat ≠ []) (hno : ∀ i, ¬ OccursAtI pat s i) :
    ∃ e', esReplaceI g e pat rep = .ok e' ∧ Holds e' s ∧ ReplacedI pat rep s s := by
  have hlt := h.lt
  have h0 := h
  obtain ⟨h1, -, h3, h4, -⟩ := h0
  obtain ⟨r, hr1, hr2⟩ := catAll_spec g [s] (esInit g) [] (Holds_init g) (by simpa using h4) (by simp; omega)
  simp only [List.nil_append, List.flatten_cons, List.flatten_nil, List.append_nil] at hr2
  rcases esStep_spec h (.cpyE r) ⟨_, hr2⟩ (by rintro n ⟨u, hu, rfl⟩; rw [hu.unique hr2]; omega)
    (fun _ => true) g with ⟨-, ha⟩ | ⟨e', t', hs, hA, hH⟩
  · exact absurd (fun _ => rfl) ha
  · have hA : Holds r t' := hA
    have := hA.unique hr2
    subst this
    have hs : esCpyE (fun _ => true) g e r = some (0, e') := hs
    refine ⟨e', ?_, hH, .none hno⟩
    simp only [esReplaceI, h.cstr, replaceI_none pat rep _ hp hno, hr1, hs, Res.ofOption_some, Res.ok_bind,
      Res.pure_eq]

/-- What the code really does at the first occurrence `i` of a pattern of at least two characters: the
first character of the occurrence is kept, the character after the occurrence is lost, and an occurrence
at the end of the text makes it read past the terminator. -/
theorem C03_actual_first_step (pat rep s : List Char) (i : Nat) (h1 : OccursAtI pat s i)
    (hp : 2 ≤ pat.length) (h2 : ∀ j, j < i → ¬ OccursAtI pat s j) :
    replaceIPieces pat rep s = if s.length < i + 1 + pat.length then .ub else
      replaceIPieces pat rep (s.drop (i + 1 + pat.length)) >>= fun r =>
        pure (s.take (i + 1) :: rep :: r) := replaceI_found pat rep s i h1 hp h2

/-- Refutation: replacing `b` by `X` in `abc` gives `abX`, not `aXc`. -/
theorem C03_wrong_result :
    replaceIPieces ['b'] ['X'] ['a', 'b', 'c'] = .ok [['a', 'b'], ['X'], []] ∧
    ¬ ReplacedI ['b'] ['X'] ['a', 'b', 'c'] ['a', 'b', 'X'] := by
  constructor
  · simp [replaceIPieces, stristr, stristrLoop, skipTo, prefixI]
  · intro h
    generalize hs : ['a', 'b', 'c'] = s at h
    generalize ho : ['a', 'b', 'X'] = o at h
    cases h with
    | none => rw [← hs] at ho; simp at ho
    | @cut pre mid post out hm hn hr =>
      have hml : mid.length = 1 := by have := congrArg List.length hm; simpa using this
      obtain ⟨m, rfl⟩ : ∃ m, mid = [m] := by
        match mid, hml with
        | [m], _ => exact ⟨m, rfl⟩
      match pre, hs, ho, hn with
      | [], hs, ho, _ => simp at ho
      | [a], hs, ho, _ => simp at ho
      | [a, b], hs, ho, hn =>
        simp at hs
        have : OccursAtI ['b'] ([a, b] ++ [m] ++ post) 1 := by
          obtain ⟨rfl, rfl, -⟩ := hs
          simp [OccursAtI, OccursAt]
        exact hn 1 (by simp) this
      | a :: b :: c :: r, hs, ho, _ => simp at hs

/-- Refutation: an occurrence at the very end makes the code read past the terminator. -/
theorem C03_reads_past_end : replaceIPieces ['b', 'c'] ['X'] ['a', 'b', 'c'] = .ub := by
  rw [C03_actual_first_step ['b', 'c'] ['X'] ['a', 'b', 'c'] 1 (by simp [OccursAtI, OccursAt]) (by simp)]
  · simp
  · intro j hj
    have : j = 0 := by omega
    subst this
    simp [OccursAtI, OccursAt, List.cons_prefix_cons]

example : ∀ i, ¬ OccursAtI ['x', 'y'] ['a'] i := by
  intro i
  cases i with
  | zero => simp [OccursAtI, OccursAt, List.cons_prefix_cons]
  | succ i => simp [OccursAtI, OccursAt]

end PBat
