import Verif.Lemmas.Load
/-
C19: GOTO.
-/
namespace PBat
open Spec

theorem find_label (ls : List (List Char)) (name : List Char) (a b : List (List Char)) (l : List Char)
    (h : ls = a ++ l :: b) (hl : isLabel l = true) (hm : LabelMatches (labelName l) name)
    (hfirst : ∀ x ∈ a, isLabel x = true → ¬ LabelMatches (labelName x) name) :
    (labelsFrom 0 ls).find? (fun l => labelIs l.1 name) = some (labelName l, (commands a).length) := by
  rw [h, labelsFrom_append, labelsFrom, if_pos hl, List.find?_append]
  have : (labelsFrom 0 a).find? (fun l => labelIs l.1 name) = none := by
    rw [List.find?_eq_none]
    rintro ⟨x, n⟩ hx hl
    have : x ∈ (labelsFrom 0 a).map (·.1) := List.mem_map.2 ⟨_, hx, rfl⟩
    rw [labelsFrom_names] at this
    obtain ⟨y, hy, rfl⟩ := List.mem_map.1 this
    exact hfirst y (List.mem_filter.1 hy).1 (List.mem_filter.1 hy).2 ((labelIs_iff _ _).1 hl)
  rw [this]
  simp [(labelIs_iff _ _).2 hm]

theorem drop_label (ls : List (List Char)) (a b : List (List Char)) (l : List Char) (h : ls = a ++ l :: b)
    (hl : isLabel l = true) : (commands ls).drop (commands a).length = commands b := by
  rw [h, commands_append]
  have : commands (l :: b) = commands [l] ++ commands b := commands_append [l] b
  rw [this, label_not_command hl]
  simp

/-- If a label of the script matches the name, execution continues with the commands after the first such label, wherever
the script is being executed; nothing else of the script changes. -/
theorem C19_jump_partial (texts : List (List Char)) (size : Nat) (pos : Nat) (name : List Char)
    (a b : List (List Char)) (l : List Char) (h : effective texts = a ++ l :: b) (hl : isLabel l = true)
    (hm : LabelMatches (labelName l) name) (hfirst : ∀ x ∈ a, isLabel x = true → ¬ LabelMatches (labelName x) name) :
    ∃ sc' : Script, jumpHere { loadScript texts size with curr := pos } name = .ok sc' ∧
      sc'.cmds.drop sc'.curr = commands b ∧ sc'.cmds = commands (effective texts) ∧
      sc'.labels = (loadScript texts size).labels := by
  refine ⟨{ loadScript texts size with curr := (commands a).length }, ?_, ?_, loadScript_cmds texts size, rfl⟩
  · unfold jumpHere
    simp only [loadScript_labels, find_label _ name a b l h hl hm hfirst]
  · simp only [loadScript_cmds]
    exact drop_label _ a b l h hl

/-- The same for a label in another file. -/
theorem C19_other_file (texts : List (List Char)) (size : Nat) (name : List Char)
    (a b : List (List Char)) (l : List Char) (h : effective texts = a ++ l :: b) (hl : isLabel l = true)
    (hm : LabelMatches (labelName l) name) (hfirst : ∀ x ∈ a, isLabel x = true → ¬ LabelMatches (labelName x) name) :
    ∃ sc' : Script, jumpOther (loadScript texts size) name = some sc' ∧ sc'.cmds.drop sc'.curr = commands b := by
  refine ⟨{ loadScript texts size with curr := (commands a).length }, ?_, ?_⟩
  · unfold jumpOther
    simp only [loadScript_labels, find_label _ name a b l h hl hm hfirst]
    rfl
  · simp only [loadScript_cmds]
    exact drop_label _ a b l h hl

/-- If no label of another file matches, the jump fails. -/
theorem C19_other_file_missing (texts : List (List Char)) (size : Nat) (name : List Char)
    (h : ∀ x ∈ effective texts, isLabel x = true → ¬ LabelMatches (labelName x) name) :
    jumpOther (loadScript texts size) name = none := by
  unfold jumpOther
  rw [Option.map_eq_none_iff, List.find?_eq_none, loadScript_labels]
  rintro ⟨x, n⟩ hx hl
  have : x ∈ (labelsFrom 0 (effective texts)).map (·.1) := List.mem_map.2 ⟨_, hx, rfl⟩
  rw [labelsFrom_names] at this
  obtain ⟨y, hy, rfl⟩ := List.mem_map.1 this
  exact h y (List.mem_filter.1 hy).1 (List.mem_filter.1 hy).2 ((labelIs_iff _ _).1 hl)

/-- The claim fails for labels missing from the running script: the behaviour is undefined, for every script. -/
theorem C19_missing_label_undefined (texts : List (List Char)) (size pos : Nat) (name : List Char)
    (h : ∀ x ∈ effective texts, isLabel x = true → ¬ LabelMatches (labelName x) name) :
    jumpHere { loadScript texts size with curr := pos } name = .ub := by
  have := C19_other_file_missing texts size name h
  unfold jumpOther at this
  unfold jumpHere
  rw [Option.map_eq_none_iff] at this
  simp only [this]

/-- Blanks around the name and a colon before it do not matter: a name of one word, with nothing to expand. -/
theorem C19_name (ex : List Char → Res (List Char)) (w v n : List Char) (hw : ∀ c ∈ w, Blank c) (hv : ∀ c ∈ v, Blank c)
    (hne : n ≠ []) (hn : ∀ c ∈ n, ¬ Blank c ∧ c ≠ ':') (hex : ex n = .ok n) (hex' : ex (':' :: n) = .ok (':' :: n)) :
    gotoName ex (w ++ n ++ v) = .ok (':' :: n) ∧ gotoName ex (w ++ ':' :: n ++ v) = .ok (':' :: n) := by
  have key : ∀ m : List Char, m ≠ [] → (∀ c ∈ m, ¬ Blank c) → stripEndDelims (skipBlanks (w ++ m ++ v)) = m := by
    intro m hm hb
    obtain ⟨x, m, rfl⟩ := List.exists_cons_of_ne_nil hm
    rw [List.append_assoc, skipBlanks_append hw, List.cons_append, skipBlanks_stop (hb x (by simp)), stripEndDelims_eq,
      ← List.cons_append, trimEnd_blank _ hv]
    rcases List.eq_nil_or_concat (x :: m) with h | ⟨p, c, h⟩
    · cases h
    · rw [List.concat_eq_append] at h
      rw [h, trimEnd_self _ (hb c (by rw [h]; simp))]
  constructor
  · have h1 := key n hne (fun c hc => (hn c hc).1)
    unfold gotoName
    simp only [h1, hex]
    obtain ⟨x, m, rfl⟩ := List.exists_cons_of_ne_nil hne
    have := (hn x (by simp)).2
    simp [bind, Res.bind, pure, this]
  · have h1 := key (':' :: n) (by simp) (by
      intro c hc
      rcases List.mem_cons.1 hc with rfl | hc
      · simp [Blank]
      · exact (hn c hc).1)
    unfold gotoName
    simp only [h1, hex']
    simp [bind, Res.bind, pure]

/-- `GOTO :EOF`, in any case, leaves the level, whatever the script contains. -/
theorem C19_eof (junk : Bool) (ex : List Char → Res (List Char)) (sc : Script) (f : FileText) (other : Option Script)
    (rest name : List Char) (hn : gotoName ex rest = .ok name) (he : name.map Char.toLower = ":eof".toList) :
    gotoCmd junk ex sc f other rest = .ok .leave := by
  unfold gotoCmd
  simp only [hn, bind, Res.bind, he, if_true]
  rfl

/-- GOTO with a name found in the running script, which has not changed since it was read. -/
theorem C19_goto_partial (junk : Bool) (ex : List Char → Res (List Char)) (f : FileText) (pos : Nat)
    (rest name : List Char) (hn : gotoName ex rest = .ok name) (he : name.map Char.toLower ≠ ":eof".toList)
    (a b : List (List Char)) (l : List Char) (h : effective f.texts = a ++ l :: b) (hl : isLabel l = true)
    (hm : LabelMatches (labelName l) name) (hfirst : ∀ x ∈ a, isLabel x = true → ¬ LabelMatches (labelName x) name) :
    ∃ sc' : Script, gotoCmd junk ex { loadScript f.texts f.size with curr := pos } f none rest = .ok (.moved sc') ∧
      sc'.cmds.drop sc'.curr = commands b := by
  obtain ⟨sc', h1, h2, -⟩ := C19_jump_partial f.texts f.size pos name a b l h hl hm hfirst
  refine ⟨sc', ?_, h2⟩
  have hu : updateScript junk { loadScript f.texts f.size with curr := pos } f = { loadScript f.texts f.size with curr := pos } := by
    unfold updateScript
    rw [if_neg]
    simp [loadScript]
  unfold gotoCmd
  simp only [hn, bind, Res.bind, he, if_false, hu, h1]
  rfl

/-- A jump backwards; an earlier label has the name as a prefix, and the matching label has a comment. -/
example : ∃ sc' : Script, jumpHere { loadScript [":looping\n".toList, "echo a\n".toList, ":Loop again\n".toList,
    "echo b\n".toList, "goto loop".toList] 50 with curr := 3 } ":loop".toList = .ok sc' ∧
    sc'.cmds.drop sc'.curr = ["echo b\n".toList, "goto loop\n".toList] :=
  (fun ⟨x, h1, h2, _⟩ => ⟨x, h1, h2⟩) <| C19_jump_partial _ 50 3 ":loop".toList [":looping\n".toList, "echo a\n".toList] ["echo b\n".toList, "goto loop".toList]
    ":Loop again\n".toList (by decide +kernel) (by decide +kernel)
    ((labelIs_iff _ _).1 (by decide +kernel))
    (by
      intro x hx hl hm
      have := (labelIs_iff _ _).2 hm
      revert this hl
      simp only [List.mem_cons, List.not_mem_nil, or_false] at hx
      rcases hx with rfl | rfl <;> decide +kernel)

/-- A script without labels. -/
example : jumpHere { loadScript ["goto x\n".toList, "echo a\n".toList] 14 with curr := 1 } ":x".toList = .ub :=
  C19_missing_label_undefined _ 14 1 ":x".toList (by
    intro x hx hl hm
    revert hl
    have : x ∈ ["goto x\n".toList, "echo a\n".toList] := by
      have e : effective ["goto x\n".toList, "echo a\n".toList] = ["goto x\n".toList, "echo a\n".toList] := by decide +kernel
      rwa [e] at hx
    simp only [List.mem_cons, List.not_mem_nil, or_false] at this
    rcases this with rfl | rfl <;> decide +kernel)

end PBat
