import Verif.Lemmas.Args
import Verif.Model.Script
import Verif.Spec.Script
/-
Lemmas on the loading of scripts.
-/
namespace PBat
open Spec

theorem isDelim_eq (c : Char) : isDelim c = decide (Blank c) := by
  rw [Bool.eq_iff_iff, isDelim_iff, decide_eq_true_iff]

theorem skipBlanks_eq (s : List Char) : skipBlanks s = lineBody s := by
  unfold lineBody
  induction s with
  | nil => rfl
  | cons c r ih =>
    rw [skipBlanks, List.dropWhile_cons, isDelim_eq]
    simp only [ih]

/-- A text without its trailing blanks. -/
def trimEnd (s : List Char) : List Char := (s.reverse.dropWhile (fun c => decide (Blank c))).reverse

theorem trimEnd_blank (a : List Char) {w : List Char} (h : ∀ c ∈ w, Blank c) : trimEnd (a ++ w) = trimEnd a := by
  unfold trimEnd
  rw [List.reverse_append, List.dropWhile_append_of_pos]
  simpa using h

theorem trimEnd_self (a : List Char) {c : Char} (h : ¬ Blank c) : trimEnd (a ++ [c]) = a ++ [c] := by
  unfold trimEnd
  simp [h]

theorem stripEndLoop_eq (s : List Char) : ∀ (kept run : List Char), (∀ c ∈ run, Blank c) →
    (∀ c, kept.head? = some c → ¬ Blank c) → stripEndLoop kept run s = trimEnd (kept.reverse ++ run.reverse ++ s) := by
  induction s with
  | nil =>
    intro kept run hr hk
    rw [stripEndLoop, List.append_nil, trimEnd_blank _ (by simpa using hr)]
    cases kept with
    | nil => rfl
    | cons c k => rw [List.reverse_cons, trimEnd_self _ (hk c rfl)]
  | cons c r ih =>
    intro kept run hr hk
    rw [stripEndLoop, isDelim_eq]
    by_cases hc : Blank c
    · rw [if_pos (by simpa using hc), ih _ _ (by simpa using ⟨hc, hr⟩) hk]
      simp
    · rw [if_neg (by simpa using hc), ih _ _ (by simp) (by simpa using hc)]
      simp

theorem stripEndDelims_eq (s : List Char) : stripEndDelims s = trimEnd s := by
  have := stripEndLoop_eq s [] [] (by simp) (by simp)
  simpa [stripEndDelims] using this

theorem stripEnd_rmNl (s : List Char) : stripEndDelims (rmTrailingNl s) = trimEnd s := by
  rw [stripEndDelims_eq]
  unfold rmTrailingNl
  split
  · next h =>
    obtain ⟨a, rfl⟩ : ∃ a, s = a ++ ['\n'] := List.getLast?_eq_some_iff.1 h
    rw [List.dropLast_concat, trimEnd_blank a (by simp [Blank])]
  · rfl

/-- What one line adds. -/
theorem loadLoop_cons (cmds : List (List Char)) (labels : List (List Char × Nat)) (l : List Char) (ls : List (List Char)) :
    loadLoop false cmds labels (l :: ls) =
      loadLoop false (cmds ++ commands [l]) (labels ++ if isLabel l then [(labelName l, cmds.length)] else []) ls := by
  rw [loadLoop.eq_def]
  simp only [skipBlanks_eq, stripEnd_rmNl, Bool.false_and, Bool.false_eq_true, if_false]
  by_cases h1 : (lineBody l).head? = some ':'
  · rw [if_pos h1]
    have hc : isCommand l = false := by simp [isCommand, h1]
    by_cases h2 : (lineBody l)[1]? = some ':'
    · rw [if_pos h2]
      simp [commands, isLabel, h2, hc]
    · rw [if_neg h2]
      simp [commands, isLabel, h1, h2, hc, trimEnd, labelName]
  · rw [if_neg h1]
    have hl : isLabel l = false := by simp [isLabel, h1]
    by_cases h3 : lineBody l = []
    · rw [if_pos h3]
      simp [commands, hl, isCommand, h3]
    · rw [if_neg h3]
      have hc : isCommand l = true := by simp [isCommand, h1, h3]
      simp [commands, hl, hc, terminated]

theorem commands_append (a b : List (List Char)) : commands (a ++ b) = commands a ++ commands b := by
  simp [commands]

/-- The labels of a list of lines, with the number of commands before each. -/
def labelsFrom (n : Nat) : List (List Char) → List (List Char × Nat)
  | [] => []
  | l :: ls => (if isLabel l then [(labelName l, n)] else []) ++ labelsFrom (n + (commands [l]).length) ls

theorem loadLoop_eq (ls : List (List Char)) : ∀ (cmds : List (List Char)) (labels : List (List Char × Nat)),
    loadLoop false cmds labels ls = (cmds ++ commands ls, labels ++ labelsFrom cmds.length ls) := by
  induction ls with
  | nil => intro cmds labels; simp [loadLoop, commands, labelsFrom]
  | cons l ls ih =>
    intro cmds labels
    rw [loadLoop_cons, ih]
    have : commands (l :: ls) = commands [l] ++ commands ls := commands_append [l] ls
    rw [this, labelsFrom]
    simp

theorem loadLoop_first (texts : List (List Char)) : loadLoop true [] [] texts = loadLoop false [] [] (effective texts) := by
  cases texts with
  | nil => rfl
  | cons l ls =>
    rw [effective]
    by_cases h : isShebang l = true
    · rw [if_pos h]
      unfold isShebang at h
      rw [loadLoop.eq_def]
      simp only [skipBlanks_eq]
      rw [if_pos]
      rcases hb : lineBody l with _ | ⟨a, _ | ⟨b, r⟩⟩ <;> simp_all
    · rw [if_neg h]
      unfold isShebang at h
      have hf : ¬ ((true && (lineBody l).head? == some '#' && (lineBody l)[1]? == some '!') = true) := by
        rcases hb : lineBody l with _ | ⟨a, _ | ⟨b, r⟩⟩ <;> simp_all
      rw [loadLoop.eq_def, loadLoop.eq_def]
      simp only [skipBlanks_eq]
      rw [if_neg hf]
      simp

theorem loadScript_cmds (texts : List (List Char)) (n : Nat) : (loadScript texts n).cmds = commands (effective texts) := by
  simp [loadScript, loadLoop_first, loadLoop_eq]

theorem loadScript_labels (texts : List (List Char)) (n : Nat) :
    (loadScript texts n).labels = labelsFrom 0 (effective texts) := by
  simp [loadScript, loadLoop_first, loadLoop_eq]

theorem labelsFrom_append (a b : List (List Char)) (n : Nat) :
    labelsFrom n (a ++ b) = labelsFrom n a ++ labelsFrom (n + (commands a).length) b := by
  induction a generalizing n with
  | nil => simp [labelsFrom, commands]
  | cons l a ih =>
    rw [List.cons_append, labelsFrom, labelsFrom, ih]
    have : commands (l :: a) = commands [l] ++ commands a := commands_append [l] a
    rw [this]
    simp [Nat.add_assoc]

theorem label_not_command {l : List Char} (h : isLabel l = true) : commands [l] = [] := by
  simp only [isLabel, Bool.and_eq_true, beq_iff_eq] at h
  simp [commands, isCommand, h.1]

theorem labelsFrom_names (ls : List (List Char)) (n : Nat) : (labelsFrom n ls).map (·.1) = (ls.filter isLabel).map labelName := by
  induction ls generalizing n with
  | nil => rfl
  | cons l ls ih =>
    rw [labelsFrom, List.map_append, ih, List.filter_cons]
    split <;> simp

theorem labelIs_iff (label name : List Char) : labelIs label name = true ↔ LabelMatches label name := by
  unfold labelIs LabelMatches
  rw [Bool.and_eq_true, beq_iff_eq]
  constructor
  · rintro ⟨h1, h2⟩
    refine ⟨label.take name.length, label.drop name.length, (List.take_append_drop _ _).symm, h1, ?_⟩
    intro c hc
    rw [List.head?_drop] at hc
    rw [hc] at h2
    exact (isDelim_iff c).1 h2
  · rintro ⟨n, rest, rfl, h1, h2⟩
    have hl : n.length = name.length := by have := congrArg List.length h1; simpa using this
    rw [← hl]
    refine ⟨by simpa using h1, ?_⟩
    rw [List.getElem?_append_right (Nat.le_refl _), Nat.sub_self, ← List.head?_eq_getElem?]
    cases hr : rest.head? with
    | none => rfl
    | some c => exact (isDelim_iff c).2 (h2 c hr)

end PBat
