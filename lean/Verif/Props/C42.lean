import Verif.Lemmas.Var
import Verif.Lemmas.Setlocal
/-
C42: replacement and default references `%VAR:old=new%`, `%VAR:default%`.
-/
namespace PBat
open Spec

/-- `%VAR:old=new%` with a non-empty `old`: the value with the leftmost non-overlapping occurrences replaced.
Missing: an empty `old`, see `C42_empty_hangs`. -/
theorem C42_replace_partial (cont : Char → Bool) (bi : List Char → List Char) (env : List Char → Option (List Char))
    (var old new s t : List Char) (h1 : ':' ∉ var) (h2 : '=' ∉ old) (h3 : old ≠ [])
    (hv : varContent bi env var = some s) :
    getVar cont bi env (var ++ ':' :: (old ++ '=' :: new)) = .ok (some t) ↔ Replaced old new s t := by
  unfold getVar
  rw [strpbrk_split h1]
  simp only
  rw [strpbrk_split h2]
  simp only [hv]
  obtain ⟨ps, hp, hr⟩ := replacePieces_spec old new h3 s
  simp only [hp, Res.ok_bind, Res.pure_eq, Res.ok.injEq, Option.some.injEq]
  constructor
  · rintro rfl; exact hr
  · intro h; exact Replaced_det h3 hr h

/-- `%VAR:old=new%` of an undefined variable is undefined. -/
theorem C42_replace_undefined (cont : Char → Bool) (bi : List Char → List Char) (env : List Char → Option (List Char))
    (var old new : List Char) (h1 : ':' ∉ var) (h2 : '=' ∉ old) (hv : varContent bi env var = none) :
    getVar cont bi env (var ++ ':' :: (old ++ '=' :: new)) = .ok none := by
  unfold getVar
  rw [strpbrk_split h1]
  simp only
  rw [strpbrk_split h2]
  simp only [hv]

/-- `%VAR:default%` is the value of a defined variable and the default of an undefined one. -/
theorem C42_default (cont : Char → Bool) (bi : List Char → List Char) (env : List Char → Option (List Char))
    (var dflt : List Char) (h1 : ':' ∉ var) (h2 : '=' ∉ dflt) (h3 : dflt.head? ≠ some '~') :
    getVar cont bi env (var ++ ':' :: dflt) =
      .ok (some (match varContent bi env var with | some v => v | none => dflt)) := by
  unfold getVar
  rw [strpbrk_split h1]
  simp only
  rw [strpbrk_absent h2]
  simp only
  split
  · simp at h3
  · cases varContent bi env var <;> rfl

/-- `%VAR%` is the value. -/
theorem C42_plain (cont : Char → Bool) (bi : List Char → List Char) (env : List Char → Option (List Char))
    (var : List Char) (h1 : ':' ∉ var) : getVar cont bi env var = .ok (varContent bi env var) := by
  unfold getVar
  rw [strpbrk_absent h1]

/-- Names other than the built-in ones come from the environment. -/
theorem C42_environment (bi : List Char → List Char) (env : List Char → Option (List Char)) (var : List Char)
    (h : ∀ b ∈ ["cd", "errorlevel", "=exitcodeascii", "random", "date", "time"], var.map Char.toLower ≠ b.toList) :
    varContent bi env var = env var := by
  unfold varContent
  rw [if_neg]
  rw [List.any_eq_true]
  rintro ⟨b, hb, he⟩
  have he := stricmp_zero.1 (by simpa using he)
  unfold fold at he
  simp only [builtinNames, List.mem_cons, List.not_mem_nil, or_false] at hb
  rcases hb with rfl | rfl | rfl | rfl | rfl | rfl
  · exact h "cd" (by simp) he
  · exact h "errorlevel" (by simp) he
  · exact h "=exitcodeascii" (by simp) he
  · exact h "random" (by simp) he
  · exact h "date" (by simp) he
  · exact h "time" (by simp) he

/-- Violation: `%VAR:=new%` never returns, for every defined variable. -/
theorem C42_empty_hangs (cont : Char → Bool) (bi : List Char → List Char) (env : List Char → Option (List Char))
    (var new s : List Char) (h1 : ':' ∉ var) (hv : varContent bi env var = some s) :
    getVar cont bi env (var ++ ':' :: '=' :: new) = .hang := by
  unfold getVar
  rw [strpbrk_split h1]
  have : strpbrk (· == '=') ('=' :: new) = ([], '=' :: new) := by simp [strpbrk]
  simp only [this, hv]
  simp [replacePieces]

example : getVar (fun _ => false) (fun _ => []) (fun n => if n = ['V'] then some "banana".toList else none)
    "V:an=X".toList = .ok (some "bXXa".toList) := by
  have h : Replaced "an".toList "X".toList "banana".toList "bXXa".toList := by
    refine Replaced.cut (pre := ['b']) (post := "ana".toList) (out := "Xa".toList) ?_
      (Replaced.cut (pre := []) (post := ['a']) (out := ['a']) (by simp) (Replaced.none ?_))
    · intro i hi
      have : i = 0 := by simpa using hi
      subst this; unfold OccursAt; decide
    · intro i
      cases i with
      | zero => unfold OccursAt; decide
      | succ i => simp [OccursAt]
  exact (C42_replace_partial (fun _ => false) (fun _ => [])
    (fun n => if n = ['V'] then some "banana".toList else none) ['V'] "an".toList "X".toList "banana".toList _ (by decide) (by decide)
    (by decide) rfl).2 h

end PBat
