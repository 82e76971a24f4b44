import Verif.Lemmas.Load
/-
C18: loading a script.
-/
namespace PBat
open Spec

/-- The commands of a script are its lines which are not blank, not labels and not comments, in order; a first line `#!` is
left out. -/
theorem C18_commands (texts : List (List Char)) (size : Nat) : (loadScript texts size).cmds = commands (effective texts) :=
  loadScript_cmds texts size

/-- Execution starts with the first command. -/
theorem C18_start (texts : List (List Char)) (size : Nat) :
    (loadScript texts size).cmds.drop (loadScript texts size).curr = commands (effective texts) := by
  rw [C18_commands]; rfl

/-- The labels are the lines beginning with a single colon, in order. -/
theorem C18_labels (texts : List (List Char)) (size : Nat) :
    (loadScript texts size).labels.map (·.1) = ((effective texts).filter isLabel).map labelName := by
  rw [loadScript_labels, labelsFrom_names]

/-- Each label designates the commands of the lines after it: the labels before it are those of the lines before it, and
the commands from its position on are those of the lines after it. -/
theorem C18_label_position (texts : List (List Char)) (size : Nat) (a b : List (List Char)) (l : List Char)
    (h : effective texts = a ++ l :: b) (hl : isLabel l = true) :
    ∃ pre post : List (List Char × Nat), ∃ n : Nat,
      (loadScript texts size).labels = pre ++ (labelName l, n) :: post ∧
      pre.map (·.1) = (a.filter isLabel).map labelName ∧
      (loadScript texts size).cmds.drop n = commands b ∧
      (loadScript texts size).cmds.take n = commands a := by
  refine ⟨labelsFrom 0 a, labelsFrom (commands a).length b, (commands a).length, ?_, labelsFrom_names a 0, ?_, ?_⟩
  · rw [loadScript_labels, h, labelsFrom_append, labelsFrom, if_pos hl, label_not_command hl]
    simp
  all_goals
    rw [loadScript_cmds, h, commands_append]
    have : commands (l :: b) = commands [l] ++ commands b := commands_append [l] b
    rw [this, label_not_command hl]
    simp

/-- A script with a `#!` line, a label between commands, a comment and a final line without line feed. -/
example : ∃ pre post : List (List Char × Nat), ∃ n : Nat,
    (loadScript ["#!/bin/pbat\n".toList, "echo a\n".toList, "  :here \n".toList, ":: note\n".toList, "\n".toList,
      "  echo b".toList] 60).labels = pre ++ (":here".toList, n) :: post ∧
    pre.map (·.1) = [] ∧
    (loadScript ["#!/bin/pbat\n".toList, "echo a\n".toList, "  :here \n".toList, ":: note\n".toList, "\n".toList,
      "  echo b".toList] 60).cmds.drop n = ["echo b\n".toList] ∧
    (loadScript ["#!/bin/pbat\n".toList, "echo a\n".toList, "  :here \n".toList, ":: note\n".toList, "\n".toList,
      "  echo b".toList] 60).cmds.take n = ["echo a\n".toList] :=
  C18_label_position _ 60 ["echo a\n".toList] [":: note\n".toList, "\n".toList, "  echo b".toList] "  :here \n".toList
    (by decide +kernel) (by decide +kernel)

end PBat
