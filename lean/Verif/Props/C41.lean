import Verif.Lemmas.Expand
/-
C41: references to arguments and loop variables.
-/
namespace PBat
open Spec

/-- A text begins with a reference of value `v` followed by `rest` exactly when the specification says so: a
defined one-character name, or a tilde, the longest run of modifiers that leaves a defined name, that name. -/
theorem C41_reference (b : LocalBlock) (mods : List Char → Char → List Char → List Char) (s v rest : List Char) :
    (∃ k, getLocalVar b mods s = some (v, k) ∧ rest = s.drop k) ↔ LocalValue b mods s v rest :=
  (getLocalVar_iff' b mods s v rest).symm

/-- Reading a reference always moves forward and never past the end. -/
theorem C41_progress (b : LocalBlock) (mods : List Char → Char → List Char → List Char) (s v : List Char) (k : Nat)
    (h : getLocalVar b mods s = some (v, k)) : 1 ≤ k ∧ k ≤ s.length := getLocalVar_bound h

/-- `%~c` of a value surrounded by quotes is the text between the quotes, whatever it contains. -/
theorem C41_unquote (b : LocalBlock) (mods : List Char → Char → List Char → List Char) (c q : Char)
    (v rest : List Char) (hq : q = '"' ∨ q = '\'') (hn : ArgName c) (hm : isModifier c = false)
    (hc : b c = some (q :: (v ++ [q]))) : getLocalVar b mods ('~' :: c :: rest) = some (v, 2) := by
  have hst : stripQuotes (q :: (v ++ [q])) = v :=
    ((stripQuotes_iff _ _).1 (Unquoted.both (q := q) (a := v) (b := []) hq (by simp))).symm
  simp [getLocalVar, List.takeWhile, hm, directVar, (localName_iff c).2 hn, hc, tildeText, hst]

/-- `%~c` of a value that does not begin with a quote is the value. -/
theorem C41_bare (b : LocalBlock) (mods : List Char → Char → List Char → List Char) (c : Char)
    (v rest : List Char) (hn : ArgName c) (hm : isModifier c = false) (hc : b c = some v)
    (h1 : v.head? ≠ some '"') (h2 : v.head? ≠ some '\'') : getLocalVar b mods ('~' :: c :: rest) = some (v, 2) := by
  have hst : stripQuotes v = v := ((stripQuotes_iff _ _).1 (.bare h1 h2)).symm
  simp [getLocalVar, List.takeWhile, hm, directVar, (localName_iff c).2 hn, hc, tildeText, hst]

/-- Setting a local variable changes what that name gives and nothing else. -/
theorem C41_set (b : LocalBlock) (mods : List Char → Char → List Char → List Char) (c d : Char) (v : List Char)
    (rest : List Char) (hc : ArgName c) (hd : d ≠ '~') :
    getLocalVar (setLocalVar b c (some v)) mods (d :: rest) =
      if d = c then some (v, 1) else getLocalVar b mods (d :: rest) := by
  have h := (localName_iff c).2 hc
  by_cases hdc : d = c
  · subst hdc
    simp [getLocalVar, hd, setLocalVar, h]
  · simp [getLocalVar, hd, setLocalVar, h, hdc]

/-- `%~nx1`: both letters are modifiers. -/
example : getLocalVar (fun c => if c = '1' then some "a b".toList else none) (fun fl _ v => fl ++ v) "~nx1z".toList =
    some ("nxa b".toList, 4) := by decide

/-- `%~fd` with `d` a loop variable: `f` is a modifier, `d` the name. -/
example : getLocalVar (fun c => if c = 'd' then some "\"v\"".toList else none) (fun fl _ v => fl ++ v) "~fdp!".toList =
    some ("fv".toList, 3) := by decide

example : ArgName '1' ∧ isModifier '1' = false := ⟨by unfold ArgName; decide, by decide⟩

end PBat
