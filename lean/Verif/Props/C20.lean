import Verif.Lemmas.Load
/-
C20: scripts edited while they run.
-/
namespace PBat
open Spec

/-- The number of commands of a file. -/
def FileText.count (f : FileText) : Nat := (commands (effective f.texts)).length

theorem gather_count {ex : List Char → Res (List Char)} {cs : List (List Char)} {acc t : List Char} {n : Nat}
    {o : Option Bool} (h : gather ex acc cs = .ok (t, n, o)) : 0 < n ∧ n ≤ cs.length := by
  induction cs generalizing acc t n o with
  | nil => cases h
  | cons c cs ih =>
    rw [gather] at h
    simp only [bind, Res.bind] at h
    cases h1 : ex c with
    | ok t1 =>
      rw [h1] at h
      simp only at h
      cases h2 : checkBlocks (acc ++ t1) with
      | ok ok =>
        rw [h2] at h
        simp only at h
        split at h
        · cases h3 : gather ex (acc ++ t1) cs with
          | ok r =>
            rw [h3] at h
            obtain ⟨a, m, o'⟩ := r
            have := ih h3
            cases h
            simp only [List.length_cons]
            omega
          | ub => rw [h3] at h; cases h
          | hang => rw [h3] at h; cases h
        · cases h
          simp
      | ub => rw [h2] at h; cases h
      | hang => rw [h2] at h; cases h
    | ub => rw [h1] at h; cases h
    | hang => rw [h1] at h; cases h

theorem getLine_curr {ex : List Char → Res (List Char)} {sc sc' : Script} {g : Got} (h : getLine ex sc = .ok (g, sc'))
    (hg : g ≠ .eof) : sc.curr < sc'.curr ∧ sc'.curr ≤ sc.cmds.length ∧ sc'.cmds = sc.cmds ∧ sc'.size = sc.size := by
  unfold getLine at h
  split at h
  · cases h; exact absurd rfl hg
  · next c cs hd =>
    simp only [bind, Res.bind] at h
    split at h
    · next r hr =>
      obtain ⟨t, n, o⟩ := r
      have := gather_count hr
      have hl := congrArg List.length hd
      simp only [List.length_drop, List.length_cons] at hl this
      injection h with h
      injection h with h1 h2
      subst h2
      refine ⟨?_, ?_, rfl, rfl⟩ <;> simp only <;> omega
    · cases h
    · cases h

/-- When the file has changed and has more commands than the number of the next one, that is where execution continues. -/
theorem C20_continue_partial (sc : Script) (f : FileText) (hs : f.size ≠ sc.size) (hc : sc.curr ≤ sc.cmds.length)
    (hf : sc.curr < f.count) :
    (updateScript false sc f).cmds.drop (updateScript false sc f).curr = (commands (effective f.texts)).drop sc.curr ∧
      (updateScript false sc f).curr = sc.curr := by
  have h1 : updateScript false sc f = reloadScript sc f := by
    unfold updateScript
    rw [if_pos ⟨fun h => hs h.symm, rfl⟩]
  have h2 : (reloadScript sc f).curr = sc.curr := by
    unfold reloadScript
    simp only [loadScript_cmds, Nat.min_eq_left hc]
    exact if_pos hf
  rw [h1, h2]
  refine ⟨?_, rfl⟩
  unfold reloadScript
  simp only [loadScript_cmds]

/-- The positions where commands are read while the script runs: for each of them the state of the file at that time, what
the uninitialised variable contains, and how the text read is expanded. -/
inductive Reads20 : Script → List (FileText × Bool × (List Char → Res (List Char))) → List Nat → Prop
  | done (sc) : Reads20 sc [] []
  | stop {sc f j ex rest sc'} : getLine ex (updateScript j sc f) = .ok (.eof, sc') → Reads20 sc ((f, j, ex) :: rest) []
  | read {sc f j ex rest g sc' ps} : getLine ex (updateScript j sc f) = .ok (g, sc') → g ≠ .eof → Reads20 sc' rest ps →
      Reads20 sc ((f, j, ex) :: rest) ((updateScript j sc f).curr :: ps)

/-- As long as commands are only added when the file changes, no command number is read twice: the positions read increase
throughout any execution. -/
theorem C20_history_partial {f : FileText} {history : List (FileText × Bool × (List Char → Res (List Char)))} {ps : List Nat}
    (h : Reads20 (loadScript f.texts f.size) history ps)
    (hg : (f :: history.map (·.1)).Pairwise (fun a b => b = a ∨ a.count < b.count)) : ps.Pairwise (· < ·) := by
  suffices ∀ (sc : Script) (g : FileText), sc.cmds = commands (effective g.texts) → sc.curr ≤ g.count → sc.size = g.size →
      Reads20 sc history ps → (g :: history.map (·.1)).Pairwise (fun a b => b = a ∨ a.count < b.count) →
      ps.Pairwise (· < ·) ∧ ∀ p ∈ ps, sc.curr ≤ p from
    (this _ f (loadScript_cmds _ _) (Nat.zero_le _) rfl h hg).1
  clear h hg
  intro sc g hc hp hs h hg
  induction h generalizing g with
  | done => exact ⟨.nil, by simp⟩
  | stop => exact ⟨.nil, by simp⟩
  | @read sc f j ex rest gt sc' ps hr hne _ ih =>
    obtain ⟨g', h1, h2, h3, h4, h5⟩ : ∃ g', (updateScript j sc f).cmds = commands (effective g'.texts) ∧
        (updateScript j sc f).curr = sc.curr ∧ (updateScript j sc f).size = g'.size ∧ sc.curr ≤ g'.count ∧
        (g' :: rest.map (·.1)).Pairwise (fun a b => b = a ∨ a.count < b.count) := by
      rw [List.map_cons, List.pairwise_cons, List.pairwise_cons] at hg
      unfold updateScript
      split
      · next hd =>
        rcases hg.1 f (by simp) with rfl | hlt
        · exact absurd hs hd.1
        · refine ⟨f, ?_, ?_, rfl, by omega, ?_⟩
          · simp [reloadScript, loadScript_cmds]
          · have : sc.cmds.length = g.count := by rw [hc]; rfl
            have : min sc.curr sc.cmds.length = sc.curr := Nat.min_eq_left (by omega)
            simp only [reloadScript, this, loadScript_cmds]
            exact if_pos (by unfold FileText.count at hlt hp; omega)
          · rw [List.pairwise_cons]
            exact hg.2
      · exact ⟨g, hc, rfl, hs, hp, List.pairwise_cons.2 ⟨fun b hb => hg.1 b (by simp [hb]), hg.2.2⟩⟩
    obtain ⟨k1, k2, k3, k4⟩ := getLine_curr hr hne
    have := ih g' (k3.trans h1) (by rw [h1] at k2; exact k2) (k4.trans h3) h5
    rw [h2] at k1 ⊢
    refine ⟨List.pairwise_cons.2 ⟨fun p hp => ?_, this.1⟩, ?_⟩
    · have := this.2 p hp
      omega
    · intro p hp
      rcases List.mem_cons.1 hp with rfl | hp
      · exact Nat.le_refl _
      · have := this.2 p hp
        omega

/-- The claim fails when commands are removed: execution starts again from the first command, whatever was executed before. -/
theorem C20_restarts (sc : Script) (f : FileText) (hs : f.size ≠ sc.size) (hc : sc.curr ≤ sc.cmds.length)
    (hf : f.count ≤ sc.curr) :
    (updateScript false sc f).cmds.drop (updateScript false sc f).curr = commands (effective f.texts) := by
  have h1 : updateScript false sc f = reloadScript sc f := by
    unfold updateScript
    rw [if_pos ⟨fun h => hs h.symm, rfl⟩]
  rw [h1]
  unfold reloadScript
  simp only [loadScript_cmds, Nat.min_eq_left hc]
  rw [if_neg (by unfold FileText.count at hf; omega), List.drop_zero]

/-- An edit which keeps the size of the file is not seen. -/
theorem C20_same_size_unseen (junk : Bool) (sc : Script) (f : FileText) (hs : f.size = sc.size) : updateScript junk sc f = sc := by
  unfold updateScript
  rw [if_neg]
  rintro ⟨h, -⟩
  exact h hs.symm

/-- Nor is any edit when the uninitialised variable `err` is not zero. -/
theorem C20_uninitialised_unseen (sc : Script) (f : FileText) : updateScript true sc f = sc := by
  unfold updateScript
  rw [if_neg (by simp)]

/-- A script that adds a line to itself. -/
example : (updateScript false { loadScript ["echo x>>me\n".toList] 11 with curr := 1 }
      ⟨["echo x>>me\n".toList, "x\n".toList], 13⟩).cmds.drop
        (updateScript false { loadScript ["echo x>>me\n".toList] 11 with curr := 1 }
          ⟨["echo x>>me\n".toList, "x\n".toList], 13⟩).curr =
      (commands (effective ["echo x>>me\n".toList, "x\n".toList])).drop 1 :=
  And.left <| C20_continue_partial { loadScript ["echo x>>me\n".toList] 11 with curr := 1 } ⟨["echo x>>me\n".toList, "x\n".toList], 13⟩
    (by decide) (by decide) (by decide +kernel)

/-- Reading two commands while the file grows meanwhile. -/
example : Reads20 (loadScript ["a\n".toList] 2)
    [(⟨["a\n".toList], 2⟩, false, .ok), (⟨["a\n".toList, "b\n".toList], 4⟩, false, .ok)] [0, 1] ∧
    [(⟨["a\n".toList], 2⟩ : FileText), ⟨["a\n".toList], 2⟩, ⟨["a\n".toList, "b\n".toList], 4⟩].Pairwise
      (fun a b => b = a ∨ a.count < b.count) := by
  refine ⟨?_, by decide +kernel⟩
  refine .read (g := .line ['a']) (sc' := { loadScript ["a\n".toList] 2 with curr := 1 }) (by decide +kernel) (by decide) ?_
  exact .read (g := .line ['b']) (sc' := { loadScript ["a\n".toList, "b\n".toList] 4 with curr := 2 }) (by decide +kernel)
    (by decide) (.done _)

/-- Removing a line that was executed makes the whole script run again. -/
example : (updateScript false { loadScript ["a\n".toList, "b\n".toList] 4 with curr := 2 } ⟨["b\n".toList], 2⟩).cmds.drop
    (updateScript false { loadScript ["a\n".toList, "b\n".toList] 4 with curr := 2 } ⟨["b\n".toList], 2⟩).curr =
    commands (effective ["b\n".toList]) :=
  C20_restarts { loadScript ["a\n".toList, "b\n".toList] 4 with curr := 2 } ⟨["b\n".toList], 2⟩ (by decide) (by decide +kernel) (by decide +kernel)

end PBat
