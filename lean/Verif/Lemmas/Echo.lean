import Verif.Model.Echo
import Verif.Lemmas.SetCmd
import Verif.Lemmas.Setlocal
import Verif.Lemmas.Call
/-
Helper lemmas for ECHO.
-/
namespace PBat
open Spec

theorem delayedExpand_total (delayed : Bool) (loops : LocalBlock) (mods : List Char → Char → List Char → List Char)
    (getv : List Char → Res (Option (List Char))) (hv : ∀ n, ∃ v, getv n = .ok v) (s : List Char) :
    ∃ t, delayedExpand delayed loops mods getv s = .ok t := by
  unfold delayedExpand
  simp only
  split
  · exact expandVar_total _ _ _ _ hv _
  · exact ⟨_, rfl⟩

theorem nextParam_total {ex : List Char → Res (List Char)} (hx : ∀ t, ∃ u, ex t = .ok u) (line : List Char) :
    ∃ r, nextParam stdDelims ex line = .ok r := by
  induction hn : line.length using Nat.strongRecOn generalizing line with
  | ind n ih =>
    rcases C14_next stdDelims (by decide) (by decide) ex line with ⟨-, h⟩ | ⟨w, raw, rest, text, hl, -, -, -, htx, h⟩
    · exact ⟨_, h⟩
    · rw [h]
      by_cases ht : text = ['^']
      · rw [if_pos ht]
        refine ih rest.length ?_ rest rfl
        have : raw ≠ [] := by
          rintro rfl
          cases htx with
          | bare _ => simp at ht
        have := List.length_pos_iff.2 this
        rw [← hn, hl]
        simp only [List.length_append]
        omega
      · rw [if_neg ht]
        obtain ⟨u, hu⟩ := hx text
        exact ⟨_, by rw [hu]; rfl⟩

/-- The first parameter of a text that begins with an ordinary character begins with it. -/
theorem first_char {ex : List Char → Res (List Char)} (hk : Keeps ex) {w r : List Char} {c : Char} (hw : ∀ c ∈ w, Blank c)
    (hc : Ordinary c) : ∃ u rest, nextParam stdDelims ex (w ++ c :: r) = .ok (some (c :: u, rest)) := by
  have hsk : skipBlanks (w ++ c :: r) = c :: r := by rw [skipBlanks_append hw, skipBlanks_stop hc.1]
  obtain ⟨raw, rest, text, ⟨hs, hend⟩, htext, h1, h2⟩ := paramText_spec (p := stdDelims) (by decide) (by decide) (c :: r) (by simp)
  have hc2 := hc.2
  simp only [List.mem_cons, List.not_mem_nil, or_false, not_or] at hc2
  have hraw : ∃ t, raw = c :: t := by
    cases raw with
    | cons d raw =>
      simp only [List.cons_append, List.cons.injEq] at hs
      exact ⟨raw, by rw [hs.1]⟩
    | nil =>
      exfalso
      simp only [List.nil_append] at hs
      rw [if_neg (by rw [← hs]; simp)] at hend
      obtain ⟨⟨⟨⟨d, hd, hp⟩, -⟩, -⟩, -⟩ := hend
      simp only [List.length_nil, List.getElem?_cons_zero, Option.some.injEq] at hd
      subst hd
      have hnb := hc.1
      unfold Blank at hnb
      simp only [not_or] at hnb
      simp [stdDelims, hnb, hc2] at hp
  obtain ⟨t, rfl⟩ := hraw
  have ht : text = c :: t := by
    cases htext with
    | bare _ => rfl
    | quoted _ => exact absurd rfl hc2.2.1
    | opened _ => exact absurd rfl hc2.2.1
  subst ht
  obtain ⟨u, hu⟩ := hk.first c t (by simp [hc2])
  refine ⟨u, rest, ?_⟩
  rw [nextParam_eq stdDelims ex (w ++ c :: r) (c :: t) (by rw [hsk]; simp) (by rw [hsk]; exact h1) rest (by rw [hsk]; exact h2),
    if_neg (by intro h; simp at h; exact hc2.2.2.1 h.1), hu]
  rfl

theorem echoWord_said {ex : List Char → Res (List Char)} {m : EchoMsgs} {on : Bool} {t rest s : List Char} {alone : Bool}
    (h : alone = false ∨ (fold t ≠ "off".toList ∧ fold t ≠ "on".toList ∧ t ≠ "/?".toList)) (hex : ex rest = .ok s) :
    echoWord ex m on t alone rest = .ok ⟨on, s ++ ['\n'], 0⟩ := by
  unfold echoWord
  have h1 : ¬ (stricmp t "OFF".toList = 0 ∧ alone = true) := by
    rintro ⟨h0, ha⟩
    rw [stricmp_zero] at h0
    rcases h with h | h
    · simp [h] at ha
    · exact h.1 h0
  have h2 : ¬ (stricmp t "ON".toList = 0 ∧ alone = true) := by
    rintro ⟨h0, ha⟩
    rw [stricmp_zero] at h0
    rcases h with h | h
    · simp [h] at ha
    · exact h.2.1 h0
  have h3 : ¬ (t = "/?".toList ∧ alone = true) := by
    rintro ⟨h0, ha⟩
    rcases h with h | h
    · simp [h] at ha
    · exact h.2.2 h0
  rw [if_neg h1, if_neg h2, if_neg h3, hex]
  rfl

end PBat
