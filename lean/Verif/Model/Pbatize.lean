import Verif.Model.Replace
/-
Model of the program pbatize (pbatize/pbatize.c, pbatize/pairs.c).

Simplifications: the files can be opened; allocation does not fail; the strings stay below the sizes of C01.
-/
namespace PBat

/-- `command`, pbatize/pbatize.h:27-30. -/
structure PbCommand where
  cmd : List Char
  switches : List Char
  deriving DecidableEq, Repr

/-- `commands`, pbatize/pbatize.c:54-70. -/
def pbCommands : List PbCommand :=
  [⟨['R', 'D'], ['S', 'Q']⟩, ⟨['R', 'M', 'D', 'I', 'R'], ['S', 'Q']⟩, ⟨['C', 'D'], ['D']⟩, ⟨['C', 'H', 'D', 'I', 'R'], ['D']⟩,
   ⟨['C', 'O', 'P', 'Y'], ['R', 'Y', 'A']⟩, ⟨['D', 'E', 'L'], ['P', 'F', 'S', 'Q', 'A']⟩, ⟨['E', 'R', 'A', 'S', 'E'], ['P', 'F', 'S', 'Q', 'A']⟩,
   ⟨['D', 'I', 'R'], ['A', 'S', 'B']⟩, ⟨['F', 'O', 'R'], ['F', 'L', 'R', 'D']⟩, ⟨['I', 'F'], ['I']⟩, ⟨['S', 'E', 'T'], ['A', 'P']⟩,
   ⟨['E', 'X', 'I', 'T'], ['B']⟩, ⟨['F', 'I', 'N', 'D'], ['N', 'C', 'V', 'I', 'E']⟩, ⟨['M', 'O', 'R', 'E'], ['E', 'P', 'S', 'C', 'T']⟩]

/-- `pair` without its command, pbatize/pbatize.h:32-36: `i`, and `j` (`none` is -1). -/
structure PbPair where
  i : Nat
  j : Option Nat
  deriving DecidableEq, Repr

/-- A character of a string, the terminator included; beyond it the behaviour is undefined. -/
def switchAt (sw : List Char) (k : Nat) : Res (Option Char) := if k ≤ sw.length then .ok sw[k]? else .ub

/-- `pair_next` when a command is paired with its switches, pbatize/pairs.c:37-50; `none`: there is no next pair. -/
def pairNextCommand (sw : List Char) (i : Nat) : Res (Option PbPair) := do
  let c ← switchAt sw (i + 1)
  if c = none then .ok (if i + 1 = 1 then none else some ⟨0, some 1⟩)
  else .ok (some ⟨i + 1, none⟩)

/-- `pair_next` when switches are paired, pbatize/pairs.c:52-66. -/
def pairNextSwitch (sw : List Char) (i j : Nat) : Res (Option PbPair) := do
  let j := if j + 1 = i then j + 1 else j
  let c ← switchAt sw (j + 1)
  if c = none then do
    let d ← switchAt sw (i + 1)
    .ok (if d = none then none else some ⟨i + 1, some 0⟩)
  else .ok (some ⟨i, some (j + 1)⟩)

/-- `pair_next`, pbatize/pairs.c:35-69. -/
def pairNext (sw : List Char) (p : PbPair) : Res (Option PbPair) :=
  match p.j with
  | none => pairNextCommand sw p.i
  | some j => pairNextSwitch sw p.i j

/-- What is left to enumerate. -/
def pairRank (n : Nat) (p : PbPair) : Nat :=
  match p.j with
  | none => (n + 1) * (n + 2) + (n - p.i)
  | some j => (n - p.i) * (n + 2) + (n + 1 - j)

/-- The pairs visited by the loop of pbatize/pbatize.c:116-123 from a pair on. -/
def pairsFrom (sw : List Char) (p : PbPair) : Res (List PbPair) := do
  match ← pairNext sw p with
  | none => .ok [p]
  | some q =>
    if pairRank sw.length q < pairRank sw.length p then do
      let r ← pairsFrom sw q
      .ok (p :: r)
    else .hang
termination_by pairRank sw.length p

/-- `pair_start` and the loop, pbatize/pairs.c:28-33 and pbatize/pbatize.c:114-123. -/
def pairsOf (sw : List Char) : Res (List PbPair) := pairsFrom sw ⟨0, none⟩

/-- `/x`, pbatize/pairs.c:94, 103, 110. -/
def switchText (sw : List Char) (k : Nat) : List Char := '/' :: (sw[k]?).toList

/-- `pair_replace_exps`, pbatize/pairs.c:92-113: the text to replace and the text that replaces it. -/
def pairTexts (c : PbCommand) (p : PbPair) : List Char × List Char :=
  let first := match p.j with
    | none => c.cmd
    | some j => switchText c.switches j
  (first ++ switchText c.switches p.i, first ++ ' ' :: switchText c.switches p.i)

/-- `pBat_EsReplaceI` on texts (`esReplaceI`). -/
def replaceIText (pat rep s : List Char) : Res (List Char) := do
  let ps ← replaceIPieces pat rep s
  .ok ps.flatten

/-- The replacements of a list of pairs, pbatize/pbatize.c:116-123. -/
def replacePairs : List (List Char × List Char) → List Char → Res (List Char)
  | [], s => .ok s
  | p :: ps, s => do
    let s ← replaceIText p.1 p.2 s
    replacePairs ps s

/-- The loop over the commands, pbatize/pbatize.c:112-127. -/
def replaceCommands : List PbCommand → List Char → Res (List Char)
  | [], s => .ok s
  | c :: cs, s => do
    let ps ← pairsOf c.switches
    let s ← replacePairs (ps.map (pairTexts c)) s
    replaceCommands cs s

/-- pbatize, pbatize/pbatize.c:73-141, on the texts read by `pBat_EsGet` from its input: what is written. -/
def pbatize (texts : List (List Char)) : Res (List Char) := replaceCommands pbCommands texts.flatten

end PBat
