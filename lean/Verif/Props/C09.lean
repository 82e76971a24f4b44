import Verif.Lemmas.Setlocal
/-
C09: SETLOCAL/ENDLOCAL restore the environment and options.
-/
namespace PBat
open Spec

/-- For every SETLOCAL line that opens a level and every well-bracketed run of commands up to its ENDLOCAL:
the environment is exactly the one at SETLOCAL, enclosing levels are untouched (so nested pairs restore in
last-in first-out order), and the options are those set by the words of the SETLOCAL line itself. -/
theorem C09_restore_exact (L : LibC) (pos : Bool) (s : LocalState) (M : Map) (hR : EnvRep pos s.env M)
    (ws : List (List Char)) (a : Nat → Int) (body : List LocalCmd) (ho : Opens ws) (hb : Balanced body)
    (ha : ∀ i, SameSide pos (a i)) (hbody : ∀ c ∈ body, LocalSide pos c) :
    localRun L s (.setlocal ws a :: (body ++ [.endlocal])) = some
      { env := s.env
        stack := s.stack
        delayed := lastOf "enabledelayedexpansion".toList "disabledelayedexpansion".toList s.delayed ws
        cmdly := lastOf "cmdlycorrect".toList "cmdlyincorrect".toList s.cmdly ws } := by
  obtain ⟨s', M', h1, h2, -⟩ := balanced_stack L pos hb hbody (cmdSetlocal s ws a) M
    (by rw [cmdSetlocal_opens ho]; exact envDup_rep hR ha)
  simp only [localRun, localStep, Option.bind_some, localRun_append, h1]
  rw [cmdSetlocal_opens ho] at h2
  unfold popEnvStack
  rw [h2]
  rfl

/-- The claim, for SETLOCAL lines without option words.  Missing: a line with an option word, whose effect
survives ENDLOCAL (`C09_option_survives`). -/
theorem C09_restore_partial (L : LibC) (pos : Bool) (s : LocalState) (M : Map) (hR : EnvRep pos s.env M)
    (ws : List (List Char)) (a : Nat → Int) (body : List LocalCmd) (ho : NoOption ws) (hb : Balanced body)
    (ha : ∀ i, SameSide pos (a i)) (hbody : ∀ c ∈ body, LocalSide pos c) :
    localRun L s (.setlocal ws a :: (body ++ [.endlocal])) = some s := by
  have hopen : Opens ws := fun w hw => by
    have := ho w hw
    unfold optionWords
    simp only [List.mem_cons, List.not_mem_nil, or_false] at this
    rcases this with h | h <;> rw [h] <;> decide
  rw [C09_restore_exact L pos s M hR ws a body hopen hb ha hbody]
  have hlast : ∀ on off d, on ∉ ["enableextensions".toList, "disableextension".toList] →
      off ∉ ["enableextensions".toList, "disableextension".toList] → lastOf on off d ws = d := by
    intro on off d hon hoff
    unfold lastOf
    rw [List.find?_eq_none.2]
    intro w hw
    have := ho w (List.mem_reverse.1 hw)
    simp only [decide_eq_true_eq]
    rintro (h | h)
    · rw [h] at this; exact hon this
    · rw [h] at this; exact hoff this
  rw [hlast _ _ _ (by decide) (by decide), hlast _ _ _ (by decide) (by decide)]

/-- Inside the new level every variable still has its value. -/
theorem C09_copy (L : LibC) (pos : Bool) (s : LocalState) (M : Map) (hR : EnvRep pos s.env M)
    (ws : List (List Char)) (a : Nat → Int) (ho : Opens ws) (ha : ∀ i, SameSide pos (a i))
    (n : CPtr) (hn : SameSide pos n.addr) :
    getEnv L (cmdSetlocal s ws a).env n = getEnv L s.env n := by
  rw [cmdSetlocal_opens ho, getEnv_spec hR hn]
  exact getEnv_spec (envDup_rep hR ha) hn

/-- An ENDLOCAL without SETLOCAL changes nothing. -/
theorem C09_unmatched (L : LibC) (s : LocalState) (h : s.stack = []) : localStep L s .endlocal = some s := by
  simp [localStep, popEnvStack, h]

/-- A SETLOCAL line that does not open a level (`/Q`, `/?` or an unknown word) saves nothing: the next
ENDLOCAL acts on the enclosing level. -/
theorem C09_quiet (s : LocalState) (ws : List (List Char)) (a : Nat → Int) (h : ¬ Opens ws) :
    (cmdSetlocal s ws a).stack = s.stack ∧ (cmdSetlocal s ws a).env = s.env := by
  obtain ⟨d, c, hq⟩ := cmdSetlocal_quiet (s := s) (a := a) h
  rw [hq]; exact ⟨rfl, rfl⟩

/-- Violation: the option set by the SETLOCAL line is not undone by its ENDLOCAL. -/
theorem C09_option_survives : ∃ (s : LocalState) (ws : List (List Char)) (a : Nat → Int), Opens ws ∧ s.delayed = false ∧
    (localRun stdLib s [.setlocal ws a, .endlocal]).map LocalState.delayed = some true :=
  ⟨⟨⟨128, []⟩, false, false, []⟩, ["ENABLEDELAYEDEXPANSION".toList], fun _ => 1, by
    unfold Opens; decide, rfl, rfl⟩

/-- A state and nested commands that meet the hypotheses. -/
example : ∃ (s : LocalState) (M : Map) (body : List LocalCmd), EnvRep true s.env M ∧ s.env.vars ≠ [] ∧ Balanced body ∧ body.length = 4 ∧
    ∀ c ∈ body, LocalSide true c := by
  obtain ⟨e, he, hR⟩ := initEnv_spec (L := stdLib) (pos := true)
    (env := [⟨5, "Path=/bin".toList⟩, ⟨9, "HOME=/root".toList⟩]) (by decide) (by decide) (by decide)
  refine ⟨⟨e, true, false, []⟩, _, [.set ⟨1, "x".toList⟩ "1".toList 2, .setlocal ["cmdlycorrect".toList] (fun _ => 3),
    .unset ⟨4, "home".toList⟩, .endlocal], hR, by cases he; decide, ?_, rfl, ?_⟩
  · exact .set (.nest (body := [.unset _]) (by unfold Opens; decide) (.unset .nil) .nil)
  · simp [LocalSide, SameSide]

end PBat
